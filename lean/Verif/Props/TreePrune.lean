import Verif.Props.TreeCopy
import Verif.Props.TreeWalk
import Mathlib.Data.List.Nodup
/-!
# C50: `prune` keeps exactly the live branches
-/

namespace Cjk
open Py

/-! ### What `live` and `trim` mean -/

theorem live_iff (p : Str → Attrib → Bool) (t : ATree) : t.live p = true ↔ ∃ s ∈ t.subs, p s.label s.attrib = true := by
  induction t using ATree.ind with
  | h r l a k ih =>
    rw [ATree.live, AForest.live_eq, ATree.subs_node]
    simp only [Bool.or_eq_true, List.any_eq_true, List.mem_cons, exists_eq_or_imp, ATree.label, ATree.attrib, List.mem_flatMap]
    constructor
    · rintro (h | ⟨kt, hkt, hl⟩)
      · exact Or.inl h
      · obtain ⟨s, hs, hp⟩ := (ih kt hkt).1 hl
        exact Or.inr ⟨s, ⟨kt, hkt, hs⟩, hp⟩
    · rintro (h | ⟨s, ⟨kt, hkt, hs⟩, hp⟩)
      · exact Or.inl h
      · exact Or.inr ⟨kt, hkt, (ih kt hkt).2 ⟨s, hs, hp⟩⟩

theorem dead_subs (p : Str → Attrib → Bool) (t : ATree) (h : t.live p = false) : ∀ s ∈ t.subs, s.live p = false := by
  induction t using ATree.ind with
  | h r l a k ih =>
    intro s hs
    rw [ATree.subs_node] at hs
    rcases List.mem_cons.1 hs with rfl | hs
    · exact h
    · obtain ⟨kt, hkt, hs⟩ := List.mem_flatMap.1 hs
      refine ih kt hkt ?_ s hs
      rw [ATree.live, AForest.live_eq, Bool.or_eq_false_iff, List.any_eq_false] at h
      simpa using h.2 kt hkt

/-- C50: the trimmed tree has exactly the nodes that satisfy the predicate or have a descendant that does, in the same
order. -/
theorem C50_trim_nodes (p : Str → Attrib → Bool) (t : ATree) (h : t.live p = true) :
    (t.trim p).subs.map (fun s => (s.ref, s.label, s.attrib)) =
      (t.subs.filter (fun s => s.subs.any (fun d => p d.label d.attrib))).map (fun s => (s.ref, s.label, s.attrib)) := by
  have hlive : ∀ s : ATree, (s.subs.any (fun d => p d.label d.attrib)) = s.live p := by
    intro s
    rw [Bool.eq_iff_iff, live_iff]; simp [List.any_eq_true]
  simp only [hlive]
  induction t using ATree.ind with
  | h r l a k ih =>
    rw [ATree.trim, ATree.subs_node, ATree.subs_node, List.filter_cons_of_pos (by simpa using h)]
    simp only [List.map_cons, AForest.trim_items, List.flatMap_map, ATree.ref, ATree.label, ATree.attrib]
    congr 1
    have : ∀ items : List (Str × ATree), (∀ kt ∈ items, kt ∈ k.items) →
        ((items.filter (fun kt => kt.2.live p)).flatMap (fun kt => (kt.2.trim p).subs)).map (fun s => (s.ref, s.label, s.attrib)) =
        ((items.flatMap (fun kt => kt.2.subs)).filter (fun s => s.live p)).map (fun s => (s.ref, s.label, s.attrib)) := by
      intro items
      induction items with
      | nil => intro _; rfl
      | cons kt items ih2 =>
        intro hsub
        have ih2 := ih2 (fun x hx => hsub x (by simp [hx]))
        rw [List.flatMap_cons, List.filter_append, List.map_append]
        by_cases hl : kt.2.live p = true
        · rw [List.filter_cons_of_pos (by simpa using hl), List.flatMap_cons, List.map_append, ih2,
            ih kt (hsub kt (by simp)) hl]
        · rw [List.filter_cons_of_neg (by simpa using hl), ih2]
          have : kt.2.subs.filter (fun s => s.live p) = [] := by
            rw [List.filter_eq_nil_iff]
            intro s hs
            have := dead_subs p kt.2 (by simpa using hl) s hs
            simp [this]
          rw [this]; simp
    exact this k.items (fun _ h => h)

theorem trim_bare (p : Str → Attrib → Bool) (t t' : ATree) (h : t'.bare = t.bare) :
    (t'.trim p).bare = (t.trim p).bare ∧ t'.live p = t.live p := by
  induction t using ATree.ind generalizing t' with
  | h r l a k ih =>
    obtain ⟨r', l', a', k'⟩ := t'
    simp only [ATree.bare, ATree.node.injEq, true_and] at h
    obtain ⟨rfl, rfl, hb⟩ := h
    have hi := items_bare_eq hb
    have key : ∀ (items' items : List (Str × ATree)), (∀ kt ∈ items, kt ∈ k.items) →
        items'.map (fun kt => (kt.1, kt.2.bare)) = items.map (fun kt => (kt.1, kt.2.bare)) →
        ((items'.filter (fun kt => kt.2.live p)).map (fun kt => (kt.1, (kt.2.trim p).bare)) =
          (items.filter (fun kt => kt.2.live p)).map (fun kt => (kt.1, (kt.2.trim p).bare))) ∧
        items'.any (fun kt => kt.2.live p) = items.any (fun kt => kt.2.live p) := by
      intro items'
      induction items' with
      | nil => intro items _ e; cases items with
        | nil => exact ⟨rfl, rfl⟩
        | cons _ _ => cases e
      | cons kt' items' ih2 =>
        intro items hsub e
        cases items with
        | nil => cases e
        | cons kt items =>
          simp only [List.map_cons, List.cons.injEq, Prod.mk.injEq] at e
          obtain ⟨h1, h2⟩ := ih2 items (fun x hx => hsub x (by simp [hx])) e.2
          obtain ⟨h3, h4⟩ := ih kt (hsub kt (by simp)) kt'.2 e.1.2
          refine ⟨?_, by simp only [List.any_cons, h2, h4]⟩
          by_cases hl : kt.2.live p = true
          · rw [List.filter_cons_of_pos (by rw [h4]; exact hl), List.filter_cons_of_pos (by simpa using hl)]
            simp only [List.map_cons, h1, h3, e.1.1]
          · rw [List.filter_cons_of_neg (by rw [h4]; exact hl), List.filter_cons_of_neg (by simpa using hl), h1]
    obtain ⟨h1, h2⟩ := key k'.items k.items (fun _ h => h) hi
    refine ⟨?_, by rw [ATree.live, ATree.live, AForest.live_eq, AForest.live_eq, h2]⟩
    simp only [ATree.trim, ATree.bare]
    congr 1
    apply AForest.items_injective
    rw [AForest.bare_items, AForest.bare_items, AForest.trim_items, AForest.trim_items, List.map_map, List.map_map]
    exact h1

/-! ### The loop -/

theorem del_eq_filter (d : Dict Str Nat) (h : Dict.WF d) (k : Str) : Dict.del d k = d.filter (fun e => e.1 ≠ k) := by
  induction d with
  | nil => rfl
  | cons kv d ih =>
    obtain ⟨k', v⟩ := kv
    have hw := Dict.WF_cons.1 h
    simp only [Dict.del]
    by_cases e : k' = k
    · subst e
      rw [if_pos rfl, List.filter_cons_of_neg (by simp)]
      symm
      rw [List.filter_eq_self]
      intro x hx
      have : x.1 ≠ k' := by
        intro ee
        have hm : x.1 ∈ Dict.keys d := List.mem_map_of_mem (f := Prod.fst) hx
        rw [ee] at hm
        exact hw.1 hm
      simpa using this
    · rw [if_neg e, List.filter_cons_of_pos (by simpa using e), ih hw.2]

/-- The heap after a node is unlinked from a parent that has it as a child. -/
theorem unlink_child (h : Heap) (x q : Nat) (nd nq : TNode) (hx : h[x]? = some nd) (hq : h[q]? = some nq) (hne : x ≠ q)
    (hp : nd.parent = some q) (hc : Dict.get? nq.children nd.label = some x) :
    ∃ h', unlink h x = .ok h' ∧ h'.length = h.length ∧ (∀ i, i ≠ x → i ≠ q → h'[i]? = h[i]?) ∧
      h'[q]? = some { nq with children := Dict.del nq.children nd.label } ∧ h'[x]? = some { nd with parent := none } := by
  have hnx : h.node x = nd := by unfold Heap.node; rw [hx]; rfl
  have hnq : h.node q = nq := by unfold Heap.node; rw [hq]; rfl
  have hemp : nq.children.isEmpty = false := by
    cases hd : nq.children with
    | nil => rw [hd] at hc; cases hc
    | cons _ _ => rfl
  refine ⟨(h.upd q (fun n => { n with children := Dict.del nq.children nd.label })).upd x (fun n => { n with parent := none }),
    ?_, by simp, ?_, ?_, ?_⟩
  · unfold unlink
    rw [hnx, hp]
    simp only [hnq, hemp, Bool.false_eq_true, if_false, delItem, hc]
  · intro i h1 h2
    rw [upd_getElem?, if_neg (Ne.symm h1), upd_getElem?, if_neg (Ne.symm h2)]
  · rw [upd_getElem?, if_neg hne, upd_getElem?, if_pos rfl, hq]; rfl
  · rw [upd_getElem?, if_pos rfl, upd_getElem?, if_neg (Ne.symm hne), hx]; rfl

theorem unlink_root (h : Heap) (x : Nat) (nd : TNode) (hx : h[x]? = some nd) (hp : nd.parent = none) :
    ∃ h' : Heap, unlink h x = .ok h' ∧ h'.length = h.length ∧ ∀ i : Nat, h'[i]? = h[i]? := by
  have hnx : h.node x = nd := by unfold Heap.node; rw [hx]; rfl
  refine ⟨h.upd x (fun n => { n with parent := none }), ?_, by simp, ?_⟩
  · unfold unlink; rw [hnx, hp]
  · intro i
    rw [upd_getElem?]
    by_cases e : x = i
    · subst e; rw [if_pos rfl, hx]
      obtain ⟨l, c, a, pa⟩ := nd
      simp only at hp
      subst hp; rfl
    · rw [if_neg e]

/-- What is asked of the surroundings of a subtree: if it has a parent, that is a node outside with the subtree as child. -/
def Attached (h : Heap) (par : Option Nat) (t : ATree) : Prop :=
  ∀ q, par = some q → q ∉ t.refs ∧ ∃ nq, h[q]? = some nq ∧ Dict.get? nq.children t.label = some t.ref

/-- What is true after the loop has processed a subtree. -/
structure Pruned (p : Str → Attrib → Bool) (h h1 : Heap) (par : Option Nat) (t : ATree) : Prop where
  len : h1.length = h.length
  frame : ∀ i, i ∉ t.refs → par ≠ some i → h1[i]? = h[i]?
  parent : ∀ q, par = some q →
    h1[q]? = (h[q]?).map (fun n => if t.live p then n else { n with children := Dict.del n.children t.label })
  live : t.live p = true → Rep h1 (t.trim p) ∧ Par h1 par (t.trim p)
  dead : t.live p = false → ∃ par', h1[t.ref]? = some ⟨t.label, [], t.attrib, par'⟩

/-- The decision at a node, when its children have been processed. -/
theorem prune_decide (p : Str → Attrib → Bool) (h : Heap) (par : Option Nat) (r : Nat) (l : Str) (a : Attrib) (k : AForest)
    (k1 : AForest) (hr : h[r]? = some ⟨l, k1.dict, a, par⟩) (hk1 : k1 = k.trim p)
    (hatt : Attached h par (.node r l a k)) (hrep : RepF h k1) (hpar : ParF h r k1)
    (fuel : Nat) (stack : List (Nat × Bool)) (b : Bool) (hb : b = true ∨ k1.items = []) :
    ∃ h1, pruneLoop p (fuel + 1) h ((r, b) :: stack) = pruneLoop p fuel h1 stack ∧ Pruned p h h1 par (.node r l a k) := by
  have hnode : h.node r = ⟨l, k1.dict, a, par⟩ := by unfold Heap.node; rw [hr]; rfl
  have hlive : (ATree.node r l a k).live p = (p l a || !k1.items.isEmpty) := by
    rw [ATree.live, AForest.live_eq, hk1, AForest.trim_items]
    congr 1
    rw [Bool.eq_iff_iff]
    simp only [List.any_eq_true, Bool.not_eq_true', List.isEmpty_eq_false_iff, ne_eq, List.map_eq_nil_iff, List.filter_eq_nil_iff,
      not_forall, not_not]
    constructor
    · rintro ⟨kt, h1, h2⟩; exact ⟨kt, h1, h2⟩
    · rintro ⟨kt, h1, h2⟩; exact ⟨kt, h1, h2⟩
  have hcond : (b || k1.dict.isEmpty) = true := by
    rcases hb with rfl | hb
    · rfl
    · rw [AForest.isEmpty_items, hb]; simp
  rw [pruneLoop]
  simp only [hnode]
  rw [if_pos hcond, AForest.isEmpty_items]
  by_cases hkeep : (!k1.items.isEmpty || p l a) = true
  · refine ⟨h, by rw [if_pos hkeep], rfl, fun _ _ _ => rfl, ?_, ?_, ?_⟩
    · intro q hq
      have : (ATree.node r l a k).live p = true := by rw [hlive, Bool.or_comm]; exact hkeep
      rw [this]; simp
    · intro _
      rw [ATree.trim, ← hk1]
      exact ⟨⟨⟨par, hr⟩, hrep⟩, ⟨by rw [hnode], hpar⟩⟩
    · intro hd; rw [hlive, Bool.or_comm] at hd; rw [hd] at hkeep; cases hkeep
  · have hdead : (ATree.node r l a k).live p = false := by
      rw [hlive, Bool.or_comm]; simpa using hkeep
    have hnil : k1.items = [] := by
      simp only [Bool.or_eq_true, not_or, Bool.not_eq_true', Bool.not_eq_false, List.isEmpty_iff] at hkeep
      exact hkeep.1
    have hdict : k1.dict = [] := by unfold AForest.dict; rw [hnil]; rfl
    rw [hdict] at hr
    rw [if_neg hkeep]
    cases par with
    | none =>
      obtain ⟨h', e1, e2, e3⟩ := unlink_root h r _ hr rfl
      refine ⟨h', by rw [e1], e2, fun i _ _ => e3 i, (by intro q hq; cases hq), (by intro hl; rw [hdead] at hl; cases hl), ?_⟩
      intro _
      exact ⟨none, by rw [ATree.ref, e3, hr]; rfl⟩
    | some q =>
      obtain ⟨hq1, nq, hq2, hq3⟩ := hatt q rfl
      have hne : r ≠ q := by
        intro e; apply hq1; rw [← e, ATree.refs_node]; simp
      obtain ⟨h', e1, e2, e3, e4, e5⟩ := unlink_child h r q _ nq hr hq2 hne rfl hq3
      refine ⟨h', by rw [e1], e2, ?_, ?_, (by intro hl; rw [hdead] at hl; cases hl), fun _ => ⟨none, e5⟩⟩
      · intro i hi1 hi2
        refine e3 i ?_ (by intro e; rw [e] at hi2; exact hi2 rfl)
        intro e; apply hi1; rw [e, ATree.refs_node]; simp
      · intro q' hq'
        cases hq'
        rw [e4, hq2, hdead]; rfl

/-- Processing several children of `x`. -/
theorem prune_list (p : Str → Attrib → Bool) (x : Nat) (L : List (Str × ATree)) : ∀ (h : Heap) (nx : TNode),
    h[x]? = some nx → Dict.WF nx.children →
    (∀ kt ∈ L, ∀ h0 : Heap, Rep h0 kt.2 → Par h0 (some x) kt.2 → Attached h0 (some x) kt.2 → ∀ fuel stack,
      ∃ h1, pruneLoop p (fuel + kt.2.rounds) h0 ((kt.2.ref, false) :: stack) = pruneLoop p fuel h1 stack ∧
        Pruned p h0 h1 (some x) kt.2) →
    (∀ kt ∈ L, Rep h kt.2 ∧ Par h (some x) kt.2 ∧ x ∉ kt.2.refs ∧ kt.1 = kt.2.label ∧
      Dict.get? nx.children kt.1 = some kt.2.ref) →
    (L.flatMap (fun kt => kt.2.refs)).Nodup → (L.map Prod.fst).Nodup →
    ∀ fuel stack, ∃ h1,
      pruneLoop p (fuel + (L.map (fun kt => kt.2.rounds)).sum) h (L.map (fun kt => (kt.2.ref, false)) ++ stack) =
        pruneLoop p fuel h1 stack ∧
      h1.length = h.length ∧ (∀ i, i ∉ L.flatMap (fun kt => kt.2.refs) → i ≠ x → h1[i]? = h[i]?) ∧
      h1[x]? = some { nx with children := nx.children.filter (fun e => !(L.any (fun kt => !kt.2.live p && decide (kt.1 = e.1)))) } ∧
      (∀ kt ∈ L, kt.2.live p = true → Rep h1 (kt.2.trim p) ∧ Par h1 (some x) (kt.2.trim p)) := by
  induction L with
  | nil =>
    intro h nx hx _ _ _ _ _ fuel stack
    refine ⟨h, by simp, rfl, fun _ _ _ => rfl, ?_, by simp⟩
    rw [hx]
    simp
  | cons kt L ih =>
    intro h nx hx hwf hproc hkids hdis hkd fuel stack
    obtain ⟨k1, k2, k3, k4, k5⟩ := hkids kt (by simp)
    simp only [List.flatMap_cons, List.map_cons] at hdis hkd
    rw [List.nodup_append] at hdis
    rw [List.nodup_cons] at hkd
    have hatt : Attached h (some x) kt.2 := by
      intro q hq; cases hq
      exact ⟨k3, nx, hx, by rw [← k4]; exact k5⟩
    obtain ⟨h1, e1, hpr⟩ := hproc kt (by simp) h k1 k2 hatt (fuel + (L.map (fun kt => kt.2.rounds)).sum)
      (L.map (fun kt => (kt.2.ref, false)) ++ stack)
    -- the parent after the first child
    let nx1 : TNode := if kt.2.live p then nx else { nx with children := Dict.del nx.children kt.2.label }
    have hx1 : h1[x]? = some nx1 := by
      rw [hpr.parent x rfl, hx]; rfl
    have hch : nx1.children = nx.children.filter (fun e => !(!kt.2.live p && decide (kt.1 = e.1))) := by
      show (if kt.2.live p then nx else { nx with children := Dict.del nx.children kt.2.label }).children = _
      by_cases hl : kt.2.live p = true
      · rw [if_pos hl]; simp [hl]
      · rw [if_neg hl]
        have hl' : kt.2.live p = false := by simpa using hl
        simp only [hl', Bool.not_false, Bool.true_and, ← k4]
        rw [del_eq_filter _ hwf]
        apply List.filter_congr
        intro e _
        simp [eq_comm]
    have hother : ∀ kt' ∈ L, ∀ i ∈ kt'.2.refs, h1[i]? = h[i]? := by
      intro kt' hkt' i hi
      refine hpr.frame i ?_ ?_
      · intro hm
        exact hdis.2.2 i hm i (List.mem_flatMap.2 ⟨kt', hkt', hi⟩) rfl
      · intro e; cases e
        exact (hkids kt' (by simp [hkt'])).2.2.1 hi
    obtain ⟨h2, f1, f2, f3, f4, f5⟩ := ih h1 nx1 hx1 (by
        show Dict.WF nx1.children
        rw [hch]; unfold Dict.WF Dict.keys
        exact hwf.sublist (List.filter_sublist.map _))
      (fun kt' hkt' => hproc kt' (by simp [hkt']))
      (by
        intro kt' hkt'
        obtain ⟨m1, m2, m3, m4, m5⟩ := hkids kt' (by simp [hkt'])
        refine ⟨m1.frame kt'.2 (hother kt' hkt'), m2.frame kt'.2 (fun i hi => by rw [node_congr (hother kt' hkt' i hi)]), m3, m4, ?_⟩
        have hne : kt.1 ≠ kt'.1 := fun e => hkd.1 (by rw [e]; exact List.mem_map_of_mem hkt')
        show Dict.get? (if kt.2.live p then nx else { nx with children := Dict.del nx.children kt.2.label }).children _ = _
        by_cases hl : kt.2.live p = true
        · rw [if_pos hl]; exact m5
        · rw [if_neg hl]
          rw [Dict.get?_del hwf, ← k4, if_neg hne]; exact m5)
      hdis.2.1 hkd.2 fuel stack
    refine ⟨h2, ?_, by rw [f2, hpr.len], ?_, ?_, ?_⟩
    · have e : fuel + ((kt :: L).map (fun kt => kt.2.rounds)).sum = (fuel + (L.map (fun kt => kt.2.rounds)).sum) + kt.2.rounds := by
        simp only [List.map_cons, List.sum_cons]; omega
      rw [e, List.map_cons, List.cons_append, e1, f1]
    · intro i hi hix
      simp only [List.flatMap_cons, List.mem_append, not_or] at hi
      rw [f3 i hi.2 hix]
      exact hpr.frame i hi.1 (by intro e; cases e; exact hix rfl)
    · rw [f4]
      have hrest : nx1 = { nx with children := nx1.children } := by
        show (if kt.2.live p then nx else { nx with children := Dict.del nx.children kt.2.label }) = _
        by_cases hl : kt.2.live p = true <;> simp [nx1, hl]
      rw [hrest]
      simp only [hch, List.filter_filter, List.any_cons]
      congr 3
      funext e
      simp only [Bool.not_or]
      rw [Bool.and_comm]
    · intro kt' hkt' hl
      rcases List.mem_cons.1 hkt' with rfl | hkt'
      · obtain ⟨g1, g2⟩ := hpr.live hl
        -- the trimmed child is not touched any more
        have hsub : ∀ i ∈ (kt'.2.trim p).refs, h2[i]? = h1[i]? := by
          intro i hi
          have hi' : i ∈ kt'.2.refs := by
            have := congrArg (List.map Prod.fst) (C50_trim_nodes p kt'.2 hl)
            simp only [List.map_map, Function.comp_def] at this
            unfold ATree.refs at hi ⊢
            rw [show (kt'.2.trim p).subs.map ATree.ref = (kt'.2.trim p).subs.map (fun s => s.ref) from rfl, this] at hi
            obtain ⟨s, hs, rfl⟩ := List.mem_map.1 hi
            exact List.mem_map_of_mem (List.mem_of_mem_filter hs)
          refine f3 i ?_ ?_
          · intro hm; exact hdis.2.2 i hi' i hm rfl
          · intro e; rw [e] at hi'; exact k3 hi'
        exact ⟨g1.frame _ hsub, g2.frame _ (fun i hi => by rw [node_congr (hsub i hi)])⟩
      · exact f5 kt' hkt' hl

theorem prune_tree (p : Str → Attrib → Bool) (t : ATree) : ∀ (h : Heap) (par : Option Nat), Rep h t → t.refs.Nodup →
    t.keysDistinct → t.keysAreLabels → Par h par t → Attached h par t → ∀ fuel stack,
    ∃ h1, pruneLoop p (fuel + t.rounds) h ((t.ref, false) :: stack) = pruneLoop p fuel h1 stack ∧ Pruned p h h1 par t := by
  induction t using ATree.ind with
  | h r l a k ih =>
    intro h par hrep hnd hkd hkl hpar hatt fuel stack
    obtain ⟨⟨par', hr⟩, hk⟩ := hrep
    rw [RepF_iff] at hk
    obtain ⟨hp1, hp2⟩ := hpar
    have hpe : par' = par := by
      have : h.node r = ⟨l, k.dict, a, par'⟩ := by unfold Heap.node; rw [hr]; rfl
      rw [this] at hp1; exact hp1
    subst hpe
    have hp2' := hp2
    rw [ParF_iff] at hp2
    rw [ATree.refs_node, List.nodup_cons] at hnd
    obtain ⟨hkd1, hkd2⟩ := hkd
    rw [AForest.keysDistinct_iff] at hkd2
    have hkl' := (AForest.keysAreLabels_iff k).1 hkl
    rw [ATree.rounds_node]
    by_cases he : k.items = []
    · have htrim : k.trim p = k := by
        apply AForest.items_injective; rw [AForest.trim_items, he]; rfl
      have e : fuel + ((if k.items.isEmpty then 1 else 2) + (k.items.map (fun kt => kt.2.rounds)).sum) = fuel + 1 := by
        rw [he]; simp
      rw [e]
      exact prune_decide p h par' r l a k k hr htrim.symm hatt ((RepF_iff h k).2 hk) hp2' fuel stack false (Or.inr he)
    · have e : fuel + ((if k.items.isEmpty then 1 else 2) + (k.items.map (fun kt => kt.2.rounds)).sum) =
          ((fuel + 1) + (k.items.reverse.map (fun kt => kt.2.rounds)).sum) + 1 := by
        rw [if_neg (by simpa using he), List.map_reverse, List.sum_reverse]; omega
      rw [e]
      have hnode : h.node r = ⟨l, k.dict, a, par'⟩ := by unfold Heap.node; rw [hr]; rfl
      show ∃ h1, pruneLoop p _ h ((r, false) :: stack) = _ ∧ _
      rw [pruneLoop]
      have hemp : k.dict.isEmpty = false := by rw [AForest.isEmpty_items]; simpa using he
      simp only [hnode, hemp, Bool.or_false, Bool.false_eq_true, if_false, AForest.values_dict]
      have e2 : (k.items.map (fun kt => kt.2.ref)).reverse.map (fun x => (x, false)) =
          k.items.reverse.map (fun kt => (kt.2.ref, false)) := by
        rw [← List.map_reverse, List.map_map]; rfl
      rw [e2]
      have hwf : Dict.WF k.dict := by unfold Dict.WF; rw [AForest.keys_dict]; exact hkd1
      obtain ⟨h1, f1, f2, f3, f4, f5⟩ := prune_list p r k.items.reverse h ⟨l, k.dict, a, par'⟩ hr hwf
        (by
          intro kt hkt h0 g1 g2 g3
          have hkt := List.mem_reverse.1 hkt
          exact ih kt hkt h0 (some r) g1 (hnd.2.sublist (by
            obtain ⟨pre, post, ee⟩ := List.append_of_mem hkt
            rw [ee, List.flatMap_append, List.flatMap_cons]
            exact (List.sublist_append_left _ _).trans (List.sublist_append_right _ _))) (hkd2 kt hkt) (hkl' kt hkt).2 g2 g3)
        (by
          intro kt hkt
          have hkt := List.mem_reverse.1 hkt
          refine ⟨hk kt hkt, hp2 kt hkt, ?_, (hkl' kt hkt).1, ?_⟩
          · intro hm; exact hnd.1 (List.mem_flatMap.2 ⟨kt, hkt, hm⟩)
          · rw [Dict.get?_eq_some_iff hwf]
            exact List.mem_map_of_mem (f := fun kt : Str × ATree => (kt.1, kt.2.ref)) hkt)
        ((reverse_flatMap_perm k.items _).nodup_iff.2 hnd.2)
        (by rw [List.map_reverse]; exact (List.reverse_perm _).nodup_iff.2 hkd1) (fuel + 1) ((r, true) :: stack)
      -- the children left are those of the trimmed tree
      have hch : k.dict.filter (fun e => !(k.items.reverse.any (fun kt => !kt.2.live p && decide (kt.1 = e.1)))) = (k.trim p).dict := by
        unfold AForest.dict
        rw [AForest.trim_items, List.map_map, List.filter_map]
        have : (Function.comp (fun e : Str × Nat => !(k.items.reverse.any (fun kt => !kt.2.live p && decide (kt.1 = e.1))))
            (fun kt : Str × ATree => (kt.1, kt.2.ref))) =
            fun kt' => !(k.items.reverse.any (fun kt => !kt.2.live p && decide (kt.1 = kt'.1))) := rfl
        rw [this]
        have hfe : k.items.filter (fun kt' => !(k.items.reverse.any (fun kt => !kt.2.live p && decide (kt.1 = kt'.1)))) =
            k.items.filter (fun kt => kt.2.live p) := by
          apply List.filter_congr
          intro kt' hkt'
          rw [Bool.eq_iff_iff]
          simp only [Bool.not_eq_true', List.any_eq_false, List.mem_reverse, Bool.and_eq_true, decide_eq_true_eq, not_and]
          constructor
          · intro hh
            by_contra hl
            exact hh kt' hkt' (by simpa using hl) rfl
          · intro hl kt hkt hd hkey
            have hinj := List.inj_on_of_nodup_map hkd1 hkt hkt' hkey
            rw [hinj] at hd; rw [hl] at hd; cases hd
        rw [hfe]
        apply List.map_congr_left
        intro kt _
        obtain ⟨key, ⟨r1, l1, a1, k1⟩⟩ := kt
        rfl
      rw [hch] at f4
      have hrep1 : RepF h1 (k.trim p) := by
        rw [RepF_iff, AForest.trim_items]
        intro kt hkt
        obtain ⟨kt0, hkt0, rfl⟩ := List.mem_map.1 hkt
        obtain ⟨hm, hl⟩ := List.mem_filter.1 hkt0
        exact (f5 kt0 (List.mem_reverse.2 hm) hl).1
      have hpar1 : ParF h1 r (k.trim p) := by
        rw [ParF_iff, AForest.trim_items]
        intro kt hkt
        obtain ⟨kt0, hkt0, rfl⟩ := List.mem_map.1 hkt
        obtain ⟨hm, hl⟩ := List.mem_filter.1 hkt0
        exact (f5 kt0 (List.mem_reverse.2 hm) hl).2
      have hnotin : ∀ i, i ∉ (ATree.node r l a k).refs → h1[i]? = h[i]? := by
        intro i hi
        rw [ATree.refs_node, List.mem_cons, not_or] at hi
        refine f3 i ?_ hi.1
        rw [(reverse_flatMap_perm k.items _).mem_iff]; exact hi.2
      have hatt1 : Attached h1 par' (.node r l a k) := by
        intro q hq
        obtain ⟨g1, nq, g2, g3⟩ := hatt q hq
        exact ⟨g1, nq, by rw [hnotin q g1]; exact g2, g3⟩
      obtain ⟨h2, g1, g2⟩ := prune_decide p h1 par' r l a k (k.trim p) f4 rfl hatt1 hrep1 hpar1 fuel stack true (Or.inl rfl)
      refine ⟨h2, by rw [f1, g1], by rw [g2.len, f2], ?_, ?_, g2.live, g2.dead⟩
      · intro i h1' h2'
        rw [g2.frame i h1' h2', hnotin i h1']
      · intro q hq
        rw [g2.parent q hq, hnotin q (hatt q hq).1]

theorem keysAreLabels_of_bare (t t' : ATree) (hb : t'.bare = t.bare) (h : t.keysAreLabels) : t'.keysAreLabels := by
  induction t using ATree.ind generalizing t' with
  | h r l a k ih =>
    obtain ⟨r', l', a', k'⟩ := t'
    simp only [ATree.bare, ATree.node.injEq, true_and] at hb
    have hi := items_bare_eq hb.2.2
    have h' := (AForest.keysAreLabels_iff k).1 h
    show k'.keysAreLabels
    rw [AForest.keysAreLabels_iff]
    intro kt hkt
    have hm : (kt.1, kt.2.bare) ∈ k.items.map (fun kt => (kt.1, kt.2.bare)) := by
      rw [← hi]; exact List.mem_map_of_mem (f := fun kt => (kt.1, ATree.bare kt.2)) hkt
    obtain ⟨kt', hkt', e⟩ := List.mem_map.1 hm
    simp only [Prod.mk.injEq] at e
    obtain ⟨h1, h2⟩ := h' kt' hkt'
    refine ⟨?_, ih kt' hkt' kt.2 e.2.symm h2⟩
    rw [← e.1, h1]
    have := e.2
    generalize kt'.2 = c at *
    generalize kt.2 = c' at *
    obtain ⟨r1, l1, a1, k1⟩ := c
    obtain ⟨r2, l2, a2, k2⟩ := c'
    simp only [ATree.bare, ATree.node.injEq] at this
    exact this.2.1

theorem trim_keysDistinct (p : Str → Attrib → Bool) (t : ATree) (h : t.keysDistinct) : (t.trim p).keysDistinct := by
  induction t using ATree.ind with
  | h r l a k ih =>
    obtain ⟨h1, h2⟩ := h
    rw [AForest.keysDistinct_iff] at h2
    refine ⟨?_, ?_⟩
    · rw [AForest.trim_items, List.map_map]
      exact h1.sublist (List.filter_sublist.map _)
    · rw [AForest.keysDistinct_iff, AForest.trim_items]
      intro kt hkt
      obtain ⟨kt0, hkt0, rfl⟩ := List.mem_map.1 hkt
      have hm := List.mem_of_mem_filter hkt0
      exact ih kt0 hm (h2 kt0 hm)

theorem size_bare (t t' : ATree) (hb : t'.bare = t.bare) : t'.size = t.size := by
  induction t using ATree.ind generalizing t' with
  | h r l a k ih =>
    obtain ⟨r', l', a', k'⟩ := t'
    simp only [ATree.bare, ATree.node.injEq, true_and] at hb
    have hi := items_bare_eq hb.2.2
    rw [ATree.size_node, ATree.size_node]
    congr 1
    have : ∀ items' items : List (Str × ATree), (∀ kt ∈ items, kt ∈ k.items) →
        items'.map (fun kt => (kt.1, kt.2.bare)) = items.map (fun kt => (kt.1, kt.2.bare)) →
        (items'.map (fun kt => kt.2.size)).sum = (items.map (fun kt => kt.2.size)).sum := by
      intro items'
      induction items' with
      | nil => intro items _ e; cases items with
        | nil => rfl
        | cons _ _ => cases e
      | cons kt' items' ih2 =>
        intro items hsub e
        cases items with
        | nil => cases e
        | cons kt items =>
          simp only [List.map_cons, List.cons.injEq, Prod.mk.injEq] at e
          simp only [List.map_cons, List.sum_cons, ih2 items (fun x hx => hsub x (by simp [hx])) e.2,
            ih kt (hsub kt (by simp)) kt'.2 e.1.2]
    exact this _ _ (fun _ h => h) hi

/-- C50: on the root of any tree, `prune` terminates without an exception.  If some node satisfies the predicate, the
result is a proper tree with right parent links whose shape, labels and attributes are those of the trimmed original (see
`C50_trim_nodes` for its nodes); if none does, the result is `None`.  The original is unchanged. -/
theorem C50_prune (p : Str → Attrib → Bool) (h : Heap) (t : ATree) (hr : Rep h t) (hk : t.keysDistinct)
    (hl : t.keysAreLabels) (hroot : parentTruthy h t.ref = false) (fuel : Nat) (hf : 2 * t.size < fuel) :
    ∃ h' res, treePrune p h fuel t.ref = some (.ok (h', res)) ∧ (∀ x < h.length, h'[x]? = h[x]?) ∧
      ((∃ s ∈ t.subs, p s.label s.attrib = true) → ∃ t', res = some t'.ref ∧ IsTree h' t' ∧ t'.bare = (t.trim p).bare ∧
        Par h' none t') ∧
      ((∀ s ∈ t.subs, p s.label s.attrib = false) → res = none) := by
  obtain ⟨h1, t1, e1, e2, e3, e4, e5, e6⟩ := C49_copy h t hr hk hl hroot fuel (by have := t.size_pos; omega)
  have hsz := size_bare t t1 e3
  have hrl := t1.rounds_le
  obtain ⟨f, hfe⟩ : ∃ f, fuel = (f + 1) + t1.rounds := ⟨fuel - 1 - t1.rounds, by omega⟩
  obtain ⟨h2, g1, g2⟩ := prune_tree p t1 h1 none e2.rep e2.distinct e2.keys (keysAreLabels_of_bare t t1 e3 hl) e4
    (by intro q hq; cases hq) (f + 1) []
  have hlive := (trim_bare p t t1 e3).2
  have hpl : pruneLoop p fuel h1 [(t1.ref, false)] = some (.ok h2) := by rw [hfe, g1, pruneLoop]
  refine ⟨h2, pruneResult p h2 t1.ref, ?_, ?_, ?_, ?_⟩
  · unfold treePrune; rw [e1]; simp only [hpl]
  · intro x hx
    rw [g2.frame x (fun hm => by have := e5 x hm; omega) (by intro e; cases e), e6 x hx]
  · intro hs
    have hl1 : t1.live p = true := by rw [hlive]; exact (live_iff p t).2 hs
    obtain ⟨k1, k2⟩ := g2.live hl1
    refine ⟨t1.trim p, ?_, ⟨k1, ?_, trim_keysDistinct p t1 e2.keys⟩, (trim_bare p t t1 e3).1, k2⟩
    · have hroot' : (t1.trim p).ref = t1.ref := by cases t1; rfl
      have hlk := k1.lookup
      rw [hroot'] at hlk ⊢
      unfold pruneResult
      rw [if_pos]
      rw [hlk.1, hlk.2.1, hlk.2.2, AForest.isEmpty_items]
      obtain ⟨r, l, a, k⟩ := t1
      simp only [ATree.trim, ATree.kids, ATree.label, ATree.attrib]
      rw [ATree.live, AForest.live_eq] at hl1
      rw [AForest.trim_items]
      rw [Bool.or_eq_true] at hl1 ⊢
      rcases hl1 with hl1 | hl1
      · exact Or.inr hl1
      · left
        obtain ⟨kt, hkt, hkl⟩ := List.any_eq_true.1 hl1
        simp only [Bool.not_eq_true', List.isEmpty_eq_false_iff, ne_eq, List.map_eq_nil_iff, List.filter_eq_nil_iff, not_forall]
        exact ⟨kt, hkt, by simpa using hkl⟩
    · have hsub : (t1.trim p).refs.Sublist t1.refs := by
        have := congrArg (List.map Prod.fst) (C50_trim_nodes p t1 hl1)
        simp only [List.map_map, Function.comp_def] at this
        have e : (t1.trim p).refs = (t1.subs.filter (fun s => s.subs.any (fun d => p d.label d.attrib))).map ATree.ref := this
        rw [e]
        exact List.filter_sublist.map _
      exact e2.distinct.sublist hsub
  · intro hs
    have hl1 : t1.live p = false := by
      rw [hlive, Bool.eq_false_iff, ne_eq, live_iff]
      rintro ⟨s, h1', h2'⟩
      rw [hs s h1'] at h2'; cases h2'
    obtain ⟨par', hd⟩ := g2.dead hl1
    have hnode : h2.node t1.ref = ⟨t1.label, [], t1.attrib, par'⟩ := by unfold Heap.node; rw [hd]; rfl
    unfold pruneResult
    rw [if_neg]
    rw [hnode]
    obtain ⟨r, l, a, k⟩ := t1
    rw [ATree.live, Bool.or_eq_false_iff] at hl1
    simp [ATree.label, ATree.attrib, hl1.1]

end Cjk
