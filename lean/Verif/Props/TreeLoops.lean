import Verif.Spec.TreeLoops
import Verif.Lemmas.Graph
import Verif.Props.TreeOps
import Verif.Props.TreeCopy
import Mathlib.Data.List.Nodup
/-!
# C121: tree nodes that contain themselves
-/

namespace Cjk
open Py
open Spec (Leads Circular nodeKids nodeUp NodesOk)

theorem mem_values_iff {h : Heap} {r c : Nat} : c ∈ Dict.values (h.node r).children ↔ ∃ k, (k, c) ∈ nodeKids h r := by
  unfold Dict.values nodeKids
  simp

/-! ### If a walk ends, the ways down are bounded -/

theorem preLoop_bound (h : Heap) : ∀ (fuel : Nat) (stack out : List Nat), preLoop h fuel stack = some out →
    ∀ r ∈ stack, ∀ ks x, Leads (nodeKids h) r ks x → ks.length < fuel := by
  intro fuel
  induction fuel with
  | zero => intro stack out e; cases e
  | succ fuel ih =>
    intro stack out e r hr ks x hl
    cases stack with
    | nil => cases hr
    | cons r0 stack =>
      simp only [preLoop] at e
      obtain ⟨out', e', _⟩ := Option.map_eq_some_iff.1 e
      rcases List.mem_cons.1 hr with rfl | hr
      · cases hl with
        | here => simp
        | step hm h2 =>
          have := ih _ _ e' _ (List.mem_append_left _ (List.mem_reverse.2 (mem_values_iff.2 ⟨_, hm⟩))) _ _ h2
          simp only [List.length_cons]; omega
      · have := ih _ _ e' r (List.mem_append_right _ hr) ks x hl
        omega

theorem postLoop_bound (h : Heap) : ∀ (fuel : Nat) (stack : List (Nat × Bool)) (out : List Nat), postLoop h fuel stack = some out →
    ∀ r, (r, false) ∈ stack → ∀ ks x, Leads (nodeKids h) r ks x → ks.length < fuel := by
  intro fuel
  induction fuel with
  | zero => intro stack out e; cases e
  | succ fuel ih =>
    intro stack out e r hr ks x hl
    cases stack with
    | nil => cases hr
    | cons s stack =>
      obtain ⟨r0, v⟩ := s
      simp only [postLoop] at e
      split at e
      · rename_i hc
        obtain ⟨out', e', _⟩ := Option.map_eq_some_iff.1 e
        rcases List.mem_cons.1 hr with e2 | hr
        · cases e2
          simp only [Bool.false_or] at hc
          cases hl with
          | here => simp
          | step hm _ =>
            have := List.isEmpty_iff.1 hc
            unfold nodeKids at hm
            rw [this] at hm
            cases hm
        · have := ih _ _ e' r hr ks x hl
          omega
      · rcases List.mem_cons.1 hr with e2 | hr
        · cases e2
          cases hl with
          | here => simp
          | step hm h2 =>
            have := ih _ _ e _ (List.mem_append_left _ (List.mem_map.2 ⟨_, List.mem_reverse.2 (mem_values_iff.2 ⟨_, hm⟩), rfl⟩)) _ _ h2
            simp only [List.length_cons]; omega
        · have := ih _ _ e r (List.mem_append_right _ (List.mem_cons_of_mem _ hr)) ks x hl
          omega

theorem bfsLoop_bound (shuffle : Nat → List Nat → List Nat) (hs : ∀ n l, (shuffle n l).Perm l) (h : Heap) :
    ∀ (fuel n : Nat) (fr next out : List Nat), (fr = [] → next = []) → bfsLoop shuffle h fuel n fr next = some out →
    ∀ r ∈ fr ++ next, ∀ ks x, Leads (nodeKids h) r ks x → ks.length < fuel := by
  intro fuel
  induction fuel with
  | zero => intro n fr next out _ e; cases e
  | succ fuel ih =>
    intro n fr next out hne e r hr ks x hl
    cases fr with
    | nil => rw [hne rfl] at hr; cases hr
    | cons r0 fr =>
      simp only [bfsLoop] at e
      have key : ∀ r ∈ fr ++ (next ++ Dict.values (h.node r0).children), ∀ ks x, Leads (nodeKids h) r ks x → ks.length < fuel := by
        split at e
        · rename_i he
          obtain ⟨out', e', _⟩ := Option.map_eq_some_iff.1 e
          intro r hr ks x hl
          refine ih _ _ _ _ (fun _ => rfl) e' r ?_ ks x hl
          rw [List.isEmpty_iff.1 he, List.nil_append] at hr
          rw [List.append_nil, List.mem_reverse, (hs _ _).mem_iff]
          exact hr
        · rename_i he
          obtain ⟨out', e', _⟩ := Option.map_eq_some_iff.1 e
          intro r hr ks x hl
          exact ih _ _ _ _ (fun e => absurd (by rw [e]; rfl) he) e' r hr ks x hl
      rcases List.mem_append.1 hr with hr | hr
      · rcases List.mem_cons.1 hr with rfl | hr
        · cases hl with
          | here => simp
          | step hm h2 =>
            have := key _ (List.mem_append_right _ (List.mem_append_right _ (mem_values_iff.2 ⟨_, hm⟩))) _ _ h2
            simp only [List.length_cons]; omega
        · have := key r (List.mem_append_left _ hr) ks x hl
          omega
      · have := key r (List.mem_append_right _ (List.mem_append_left _ hr)) ks x hl
        omega

theorem not_circular_of_bound {kids : Nat → List (Str × Nat)} {r m : Nat} (h : ∀ ks x, Leads kids r ks x → ks.length < m) : ¬ Circular kids r := by
  intro hc
  obtain ⟨ks, x, h1, h2⟩ := Spec.Circular.paths hc m
  have := h ks x h1
  omega

/-! ### Without loops the nodes unfold to a tree -/

theorem unfold_tree {h : Heap} (hok : NodesOk h) (r : Nat) (hr : r < h.length) (hc : ¬ Circular (nodeKids h) r) :
    ∃ t, t.ref = r ∧ Rep h t ∧ t.keysDistinct ∧ t.keysAreLabels := by
  refine Spec.Circular.induct h.length (fun r hr kc hm => ((hok r hr).2.1 kc hm).1)
    (fun r => ∃ t, t.ref = r ∧ Rep h t ∧ t.keysDistinct ∧ t.keysAreLabels) ?_ r hr hc
  intro r hr ih
  have : ∀ d : List (Str × Nat), (∀ kc ∈ d, kc ∈ nodeKids h r) → ∃ k : AForest, k.dict = d ∧ ∀ kt ∈ k.items, Rep h kt.2 ∧ kt.2.keysDistinct ∧ kt.2.keysAreLabels ∧ kt.1 = kt.2.label := by
    intro d
    induction d with
    | nil => intro _; exact ⟨.nil, rfl, by simp [AForest.items]⟩
    | cons kc d ihd =>
      intro hsub
      obtain ⟨t, e, h1, h2, h3⟩ := ih kc (hsub kc (by simp))
      obtain ⟨k, ek, hk⟩ := ihd (fun x hx => hsub x (by simp [hx]))
      refine ⟨.cons kc.1 t k, ?_, ?_⟩
      · simp only [AForest.dict, AForest.items, List.map_cons] at ek ⊢
        rw [ek, e]
      · intro kt hkt
        simp only [AForest.items, List.mem_cons] at hkt
        rcases hkt with rfl | hkt
        · refine ⟨h1, h2, h3, ?_⟩
          rw [← h1.lookup.1, e]
          exact ((hok r hr).2.1 kc (hsub kc (by simp))).2.symm
        · exact hk kt hkt
  obtain ⟨k, ek, hk⟩ := this (nodeKids h r) (fun _ hx => hx)
  refine ⟨.node r (h.node r).label (h.node r).attrib k, rfl, ⟨⟨(h.node r).parent, ?_⟩, (RepF_iff h k).2 fun kt hkt => (hk kt hkt).1⟩,
    ⟨?_, (AForest.keysDistinct_iff k).2 fun kt hkt => (hk kt hkt).2.1⟩, ?_⟩
  · rw [ek, node_eq_of_lt hr]; rfl
  · rw [← AForest.keys_dict, ek]; exact (hok r hr).1
  · exact (AForest.keysAreLabels_iff k).2 fun kt hkt => ⟨(hk kt hkt).2.2.2, (hk kt hkt).2.2.1⟩

/-- C121: the walks end exactly if no node below (or the node itself) contains itself, directly or not. -/
theorem C121_walks_end_iff (h : Heap) (hok : NodesOk h) (r : Nat) (hr : r < h.length) (shuffle : Nat → List Nat → List Nat)
    (hs : ∀ n l, (shuffle n l).Perm l) :
    ((∃ fuel out, walkPre h fuel r = some out) ↔ ¬ Circular (nodeKids h) r) ∧
    ((∃ fuel out, walkPost h fuel r = some out) ↔ ¬ Circular (nodeKids h) r) ∧
    ((∃ fuel out, walkBfs shuffle h fuel r = some out) ↔ ¬ Circular (nodeKids h) r) := by
  refine ⟨⟨?_, ?_⟩, ⟨?_, ?_⟩, ⟨?_, ?_⟩⟩
  · rintro ⟨fuel, out, e⟩
    exact not_circular_of_bound fun ks x hl => preLoop_bound h fuel _ _ e r (by simp) ks x hl
  · intro hc
    obtain ⟨t, rfl, h1, _⟩ := unfold_tree hok r hr hc
    exact ⟨t.size + 1, _, preLoop_eq h _ [t] (by simpa using h1) (by simp)⟩
  · rintro ⟨fuel, out, e⟩
    exact not_circular_of_bound fun ks x hl => postLoop_bound h fuel _ _ e r (by simp) ks x hl
  · intro hc
    obtain ⟨t, rfl, h1, _⟩ := unfold_tree hok r hr hc
    exact ⟨2 * t.size + 1, _, walkPost_eq h t h1 _ (by omega)⟩
  · rintro ⟨fuel, out, e⟩
    exact not_circular_of_bound fun ks x hl => bfsLoop_bound shuffle hs h fuel 0 _ _ _ (by simp) e r (by simp) ks x hl
  · intro hc
    obtain ⟨t, rfl, h1, _⟩ := unfold_tree hok r hr hc
    obtain ⟨parts, e1, _⟩ := bfs_levels shuffle hs h t h1 (t.size + 1) 0 0 [t] (by rw [level_zero]) (by simp)
    exact ⟨t.size + 1, _, e1⟩

/-! ### The ways down -/

mutual
/-- The ways down a tree with the nodes to which they lead. -/
def ATree.waysDown : ATree → List (List Str × Nat)
  | .node r _ _ k => ([], r) :: k.waysDown
def AForest.waysDown : AForest → List (List Str × Nat)
  | .nil => []
  | .cons key t rest => t.waysDown.map (fun w => (key :: w.1, w.2)) ++ rest.waysDown
end

theorem AForest.waysDown_eq : ∀ k : AForest, k.waysDown = k.items.flatMap (fun kt => kt.2.waysDown.map (fun w => (kt.1 :: w.1, w.2)))
  | .nil => rfl
  | .cons key t rest => by simp only [AForest.waysDown, AForest.items, List.flatMap_cons, AForest.waysDown_eq rest]

theorem waysDown_refs (t : ATree) : t.waysDown.map Prod.snd = t.refs := by
  induction t using ATree.ind with
  | h r l a k ih =>
    rw [ATree.refs_node]
    simp only [ATree.waysDown, AForest.waysDown_eq, List.map_cons, List.map_flatMap, List.map_map, List.cons.injEq, true_and]
    rw [List.flatMap_def, List.flatMap_def]
    congr 1
    refine List.map_congr_left fun kt hkt => ?_
    exact ih kt hkt

theorem waysDown_level (t : ATree) : ∀ d, (t.waysDown.filter (fun w => w.1.length = d)).map Prod.snd = (t.level d).map ATree.ref := by
  induction t using ATree.ind with
  | h r l a k ih =>
    intro d
    cases d with
    | zero =>
      simp only [ATree.waysDown, AForest.waysDown_eq, ATree.level]
      rw [List.filter_cons_of_pos (by simp), List.filter_eq_nil_iff.2]
      · rfl
      · intro w hw
        simp only [List.mem_flatMap, List.mem_map] at hw
        obtain ⟨kt, _, w', _, rfl⟩ := hw
        simp
    | succ d =>
      simp only [ATree.waysDown, AForest.waysDown_eq, ATree.level, AForest.level_eq]
      rw [List.filter_cons_of_neg (by simp), List.filter_flatMap, List.map_flatMap, List.map_flatMap, List.flatMap_def, List.flatMap_def]
      congr 1
      refine List.map_congr_left fun kt hkt => ?_
      have e : ((fun w : List Str × Nat => decide (w.1.length = d + 1)) ∘ fun w : List Str × Nat => (kt.1 :: w.1, w.2)) =
          fun w => decide (w.1.length = d) := by
        funext w; simp
      rw [← ih kt hkt d, List.filter_map, List.map_map, e]
      rfl

theorem waysDown_iff (h : Heap) (t : ATree) (hr : Rep h t) : ∀ ks x, (ks, x) ∈ t.waysDown ↔ Leads (nodeKids h) t.ref ks x := by
  induction t using ATree.ind with
  | h r l a k ih =>
    intro ks x
    have hk : nodeKids h r = k.dict := hr.lookup.2.1
    simp only [ATree.waysDown, AForest.waysDown_eq, List.mem_cons, List.mem_flatMap, List.mem_map, ATree.ref]
    constructor
    · rintro (e | ⟨kt, hkt, w, hw, e⟩)
      · cases e; exact .here r
      · cases e
        refine .step (c := kt.2.ref) ?_ ((ih kt hkt (hr.kids kt hkt) w.1 w.2).1 hw)
        rw [hk]
        exact List.mem_map.2 ⟨kt, hkt, rfl⟩
    · intro hl
      cases hl with
      | here => exact Or.inl rfl
      | step hm h2 =>
        rw [hk] at hm
        obtain ⟨kt, hkt, e⟩ := List.mem_map.1 hm
        cases e
        exact Or.inr ⟨kt, hkt, (_, x), (ih kt hkt (hr.kids kt hkt) _ _).2 h2, rfl⟩

theorem waysDown_nodup (t : ATree) (hk : t.keysDistinct) : (t.waysDown.map Prod.fst).Nodup := by
  induction t using ATree.ind with
  | h r l a k ih =>
    obtain ⟨h1, h2⟩ := keysDistinct_of_mem hk
    simp only [ATree.kids] at h1 h2
    simp only [ATree.waysDown, AForest.waysDown_eq, List.map_cons, List.nodup_cons]
    constructor
    · simp
    · rw [List.map_flatMap]
      generalize k.items = items at h1 h2 ih
      induction items with
      | nil => simp
      | cons kt items ihi =>
        simp only [List.map_cons, List.nodup_cons] at h1
        rw [List.flatMap_cons, List.nodup_append]
        refine ⟨?_, ihi h1.2 (fun x hx => h2 x (by simp [hx])) (fun x hx => ih x (by simp [hx])), ?_⟩
        · rw [List.map_map]
          have := ih kt (by simp) (h2 kt (by simp))
          have e : (Prod.fst ∘ fun w : List Str × Nat => (kt.1 :: w.1, w.2)) = (fun ks => kt.1 :: ks) ∘ Prod.fst := rfl
          rw [e, ← List.map_map]
          exact this.map (fun a b e => (List.cons.inj e).2)
        · intro a ha b hb e
          subst e
          simp only [List.map_map, List.mem_map, Function.comp_apply, List.mem_flatMap] at ha hb
          obtain ⟨w, _, rfl⟩ := ha
          obtain ⟨kt', hkt', w', _, e⟩ := hb
          exact h1.1 (List.mem_map.2 ⟨kt', hkt', (List.cons.inj e).1⟩)

/-- C121: without loops, however nodes are shared: every walk ends and yields a node once for every way down to it (a sequence of labels), the
breadth-first walk in the order of the lengths of the ways; the orders are those of the tree to which the nodes unfold. -/
theorem C121_walks (h : Heap) (hok : NodesOk h) (r : Nat) (hr : r < h.length) (hc : ¬ Circular (nodeKids h) r) :
    ∃ (t : ATree) (ways : List (List Str × Nat)), t.ref = r ∧ Rep h t ∧ t.keysDistinct ∧ t.keysAreLabels ∧
      (ways.map Prod.fst).Nodup ∧ (∀ ks x, (ks, x) ∈ ways ↔ Leads (nodeKids h) r ks x) ∧ t.pre.Perm (ways.map Prod.snd) ∧ t.post.Perm (ways.map Prod.snd) ∧
      ∀ fuel, 2 * ways.length < fuel → walkPre h fuel r = some t.pre ∧ walkPost h fuel r = some t.post ∧
        ∀ shuffle : Nat → List Nat → List Nat, (∀ n l, (shuffle n l).Perm l) → ∃ parts : List (List Nat), walkBfs shuffle h fuel r = some parts.flatten ∧
          ∀ d, ((parts[d]?).getD []).Perm ((ways.filter (fun w => w.1.length = d)).map Prod.snd) := by
  obtain ⟨t, rfl, h1, h2, h3⟩ := unfold_tree hok r hr hc
  have hlen : t.waysDown.length = t.size := by
    have := congrArg List.length (waysDown_refs t)
    simpa [ATree.refs, ATree.size] using this
  refine ⟨t, t.waysDown, rfl, h1, h2, h3, waysDown_nodup t h2, waysDown_iff h t h1, by rw [waysDown_refs]; exact pre_perm t,
    by rw [waysDown_refs]; exact post_perm t, ?_⟩
  intro fuel hf
  rw [hlen] at hf
  refine ⟨by simpa [walkPre] using preLoop_eq h fuel [t] (by simpa using h1) (by simp; omega), walkPost_eq h t h1 _ hf, ?_⟩
  intro shuffle hs
  obtain ⟨parts, e1, e2⟩ := bfs_levels shuffle hs h t h1 fuel 0 0 [t] (by rw [level_zero]) (by simp; omega)
  refine ⟨parts, e1, fun d => ?_⟩
  rw [waysDown_level]
  simpa using e2 d

/-! ### `find_node` -/

theorem bfsFind_more (shuffle : Nat → List Nat → List Nat) (h : Heap) (label : Str) : ∀ (fuel n : Nat) (fr next : List Nat) (res : Except PyErr Nat),
    bfsFind shuffle h label fuel n fr next = some res → ∀ fuel', fuel ≤ fuel' → bfsFind shuffle h label fuel' n fr next = some res := by
  intro fuel
  induction fuel with
  | zero => intro n fr next res e; cases e
  | succ fuel ih =>
    intro n fr next res e fuel' hle
    obtain ⟨f, rfl⟩ : ∃ f, fuel' = f + 1 := ⟨fuel' - 1, by omega⟩
    cases fr with
    | nil => exact e
    | cons r fr =>
      simp only [bfsFind] at e ⊢
      split at e
      · rename_i hl; rw [if_pos hl]; exact e
      · rename_i hl
        rw [if_neg hl]
        split at e
        · rename_i he; rw [if_pos he]; exact ih _ _ _ _ e f (by omega)
        · rename_i he; rw [if_neg he]; exact ih _ _ _ _ e f (by omega)

theorem bfsFind_error (shuffle : Nat → List Nat → List Nat) (h : Heap) (label : Str) : ∀ (fuel n : Nat) (fr next : List Nat) (e : PyErr),
    bfsFind shuffle h label fuel n fr next = some (.error e) → e = .keyError ∧ ∃ out, bfsLoop shuffle h fuel n fr next = some out := by
  intro fuel
  induction fuel with
  | zero => intro n fr next e he; cases he
  | succ fuel ih =>
    intro n fr next e he
    cases fr with
    | nil => cases he; exact ⟨rfl, _, rfl⟩
    | cons r fr =>
      simp only [bfsFind] at he
      simp only [bfsLoop]
      split at he
      · cases he
      · split at he
        · rename_i hc
          obtain ⟨h1, out, h2⟩ := ih _ _ _ _ he
          exact ⟨h1, _, by rw [if_pos hc, h2]; rfl⟩
        · rename_i hc
          obtain ⟨h1, out, h2⟩ := ih _ _ _ _ he
          exact ⟨h1, _, by rw [if_neg hc, h2]; rfl⟩

theorem bfsFind_ok (shuffle : Nat → List Nat → List Nat) (hs : ∀ n l, (shuffle n l).Perm l) (h : Heap) (label : Str) (r : Nat) :
    ∀ (fuel n : Nat) (fr next : List Nat) (x : Nat), (∀ y ∈ fr ++ next, ∃ ks, Leads (nodeKids h) r ks y) →
    bfsFind shuffle h label fuel n fr next = some (.ok x) → ∃ way, Spec.LabelAt h r label way x := by
  intro fuel
  induction fuel with
  | zero => intro n fr next x _ he; cases he
  | succ fuel ih =>
    intro n fr next x hall he
    cases fr with
    | nil => cases he
    | cons r0 fr =>
      simp only [bfsFind] at he
      have hkids : ∀ y ∈ Dict.values (h.node r0).children, ∃ ks, Leads (nodeKids h) r ks y := by
        intro y hy
        obtain ⟨ks, h1⟩ := hall r0 (by simp)
        obtain ⟨k, hk⟩ := mem_values_iff.1 hy
        exact ⟨ks ++ [k], Spec.Leads.snoc.2 ⟨r0, h1, hk⟩⟩
      have hnext : ∀ y ∈ fr ++ (next ++ Dict.values (h.node r0).children), ∃ ks, Leads (nodeKids h) r ks y := by
        intro y hy
        rcases List.mem_append.1 hy with hy | hy
        · exact hall y (by simp [hy])
        · rcases List.mem_append.1 hy with hy | hy
          · exact hall y (by simp [hy])
          · exact hkids y hy
      split at he
      · rename_i hl
        cases he
        obtain ⟨ks, h1⟩ := hall x (by simp)
        exact ⟨ks, hl, h1⟩
      · split at he
        · refine ih _ _ _ _ ?_ he
          intro y hy
          rw [List.append_nil, List.mem_reverse, (hs _ _).mem_iff] at hy
          exact hnext y (List.mem_append_right _ hy)
        · exact ih _ _ _ _ hnext he

/-- Finishing a level of the search. -/
theorem bfsFind_level (shuffle : Nat → List Nat → List Nat) (h : Heap) (label : Str) (fuel n : Nat) : ∀ (fr : List Nat) (next : List Nat), fr ≠ [] →
    bfsFind shuffle h label (fuel + fr.length) n fr next =
      match fr.find? (fun x => (h.node x).label = label) with
      | some x => some (.ok x)
      | none => bfsFind shuffle h label fuel (n + 1) (shuffle n (next ++ fr.flatMap (fun x => Dict.values (h.node x).children))).reverse [] := by
  intro fr
  induction fr with
  | nil => intro _ hne; exact absurd rfl hne
  | cons r fr ih =>
    intro next _
    rw [List.length_cons, ← Nat.add_assoc]
    simp only [bfsFind]
    by_cases hl : (h.node r).label = label
    · simp [hl]
    · rw [if_neg hl, List.find?_cons_of_neg (by simpa using hl)]
      cases fr with
      | nil => simp
      | cons r' fr =>
        rw [if_neg (by simp), ih _ (by simp)]
        simp only [List.flatMap_cons, List.append_assoc]

theorem bfsFind_hit (shuffle : Nat → List Nat → List Nat) (hs : ∀ n l, (shuffle n l).Perm l) (h : Heap) (label : Str) (r : Nat) :
    ∀ (k d n : Nat) (fr : List Nat), (∀ x, x ∈ fr ↔ ∃ ks, Leads (nodeKids h) r ks x ∧ ks.length = d) →
    (∀ way x, Spec.LabelAt h r label way x → d ≤ way.length) → (∃ way x, Spec.LabelAt h r label way x ∧ way.length = d + k) →
    ∃ fuel x way, bfsFind shuffle h label fuel n fr [] = some (.ok x) ∧ Spec.LabelAt h r label way x ∧
      ∀ way' x', Spec.LabelAt h r label way' x' → way.length ≤ way'.length := by
  intro k
  induction k with
  | zero =>
    rintro d n fr hfr hd ⟨way, x, hx, hlen⟩
    have hxm : x ∈ fr := (hfr x).2 ⟨way, hx.2, by omega⟩
    have hne : fr ≠ [] := by rintro rfl; cases hxm
    cases hf : fr.find? (fun x => (h.node x).label = label) with
    | none =>
      have := List.find?_eq_none.1 hf x hxm
      simp [hx.1] at this
    | some y =>
      obtain ⟨ks, h1, h2⟩ := (hfr y).1 (List.mem_of_find?_eq_some hf)
      refine ⟨0 + fr.length, y, ks, ?_, ⟨by simpa using List.find?_some hf, h1⟩, ?_⟩
      · rw [bfsFind_level _ _ _ _ _ _ _ hne, hf]
      · intro way' x' h'
        have := hd way' x' h'
        omega
  | succ k ih =>
    rintro d n fr hfr hd ⟨way, x, hx, hlen⟩
    have hne : fr ≠ [] := by
      rintro rfl
      have h5 := hx.2
      rw [← List.take_append_drop d way] at h5
      obtain ⟨y, h6, _⟩ := h5.split
      have := (hfr y).2 ⟨_, h6, by simp only [List.length_take]; omega⟩
      cases this
    cases hf : fr.find? (fun x => (h.node x).label = label) with
    | some y =>
      obtain ⟨ks, h1, h2⟩ := (hfr y).1 (List.mem_of_find?_eq_some hf)
      refine ⟨0 + fr.length, y, ks, ?_, ⟨by simpa using List.find?_some hf, h1⟩, ?_⟩
      · rw [bfsFind_level _ _ _ _ _ _ _ hne, hf]
      · intro way' x' h'
        have := hd way' x' h'
        omega
    | none =>
      have hfr' : ∀ x, x ∈ (shuffle n ([] ++ fr.flatMap (fun x => Dict.values (h.node x).children))).reverse ↔
          ∃ ks, Leads (nodeKids h) r ks x ∧ ks.length = d + 1 := by
        intro x
        rw [List.mem_reverse, (hs _ _).mem_iff, List.nil_append, List.mem_flatMap]
        constructor
        · rintro ⟨y, hy, hx⟩
          obtain ⟨ks, h1, h2⟩ := (hfr y).1 hy
          obtain ⟨k, hk⟩ := mem_values_iff.1 hx
          exact ⟨ks ++ [k], Spec.Leads.snoc.2 ⟨y, h1, hk⟩, by simp [h2]⟩
        · rintro ⟨ks, h1, h2⟩
          rcases List.eq_nil_or_concat ks with rfl | ⟨path, k, rfl⟩
          · simp at h2
          · rw [List.concat_eq_append] at h1 h2
            obtain ⟨y, h3, h4⟩ := Spec.Leads.snoc.1 h1
            exact ⟨y, (hfr y).2 ⟨path, h3, by simpa using h2⟩, mem_values_iff.2 ⟨k, h4⟩⟩
      have hd' : ∀ way x, Spec.LabelAt h r label way x → d + 1 ≤ way.length := by
        intro way' x' h'
        have := hd way' x' h'
        by_cases e : way'.length = d
        · have hm := (hfr x').2 ⟨way', h'.2, e⟩
          have := List.find?_eq_none.1 hf x' hm
          simp [h'.1] at this
        · omega
      obtain ⟨fuel, y, way', e, h1, h2⟩ := ih (d + 1) (n + 1) _ hfr' hd' ⟨way, x, hx, by omega⟩
      refine ⟨fuel + fr.length, y, way', ?_, h1, h2⟩
      rw [bfsFind_level _ _ _ _ _ _ _ hne, hf]
      exact e

/-- C121: `find_node` on any nodes whatsoever and for every outcome of the shuffles: it returns a node with the label at the end of a shortest way to one,
if there is one, also when there are loops; else it raises `KeyError` if there is no loop; else it never ends. -/
theorem C121_find_node (h : Heap) (hok : NodesOk h) (r : Nat) (hr : r < h.length) (shuffle : Nat → List Nat → List Nat)
    (hs : ∀ n l, (shuffle n l).Perm l) (label : Str) :
    ((∃ way x, Spec.LabelAt h r label way x) → ∃ rounds way x, Spec.LabelAt h r label way x ∧
      (∀ way' x', Spec.LabelAt h r label way' x' → way.length ≤ way'.length) ∧ ∀ n, rounds ≤ n → treeFindNode shuffle h n r label = some (.ok x)) ∧
    ((¬ ∃ way x, Spec.LabelAt h r label way x) → ¬ Circular (nodeKids h) r →
      ∃ rounds, ∀ n, rounds ≤ n → treeFindNode shuffle h n r label = some (.error .keyError)) ∧
    ((¬ ∃ way x, Spec.LabelAt h r label way x) → Circular (nodeKids h) r → ∀ n, treeFindNode shuffle h n r label = none) := by
  have hok1 : ∀ n x, treeFindNode shuffle h n r label = some (.ok x) → ∃ way, Spec.LabelAt h r label way x := fun n x e =>
    bfsFind_ok shuffle hs h label r n 0 [r] [] x (by
      intro y hy
      obtain rfl : y = r := by simpa using hy
      exact ⟨[], .here y⟩) e
  refine ⟨?_, ?_, ?_⟩
  · rintro ⟨way, x, hx⟩
    obtain ⟨fuel, y, way', e, h1, h2⟩ := bfsFind_hit shuffle hs h label r way.length 0 0 [r] (by
      intro z
      constructor
      · intro hz
        obtain rfl : z = r := by simpa using hz
        exact ⟨[], .here z, rfl⟩
      · rintro ⟨ks, h1, h2⟩
        obtain rfl := List.length_eq_zero_iff.1 h2
        cases h1
        simp) (fun _ _ _ => Nat.zero_le _) ⟨way, x, hx, by omega⟩
    exact ⟨fuel, way', y, h1, h2, fun n hn => bfsFind_more shuffle h label fuel 0 _ _ _ e n hn⟩
  · intro hno hc
    obtain ⟨fuel, out, e⟩ := (C121_walks_end_iff h hok r hr shuffle hs).2.2.2 hc
    have e1 := bfsFind_eq shuffle h label fuel 0 [r] [] out e
    cases hf : out.find? (fun x => (h.node x).label = label) with
    | some x =>
      rw [hf] at e1
      obtain ⟨way, hx⟩ := hok1 fuel x e1
      exact absurd ⟨way, x, hx⟩ hno
    | none =>
      rw [hf] at e1
      exact ⟨fuel, fun n hn => bfsFind_more shuffle h label fuel 0 _ _ _ e1 n hn⟩
  · intro hno hc n
    cases e : treeFindNode shuffle h n r label with
    | none => rfl
    | some res =>
      cases res with
      | ok x =>
        obtain ⟨way, hx⟩ := hok1 n x e
        exact absurd ⟨way, x, hx⟩ hno
      | error err =>
        obtain ⟨_, out, e2⟩ := bfsFind_error shuffle h label n 0 [r] [] err e
        exact absurd hc ((C121_walks_end_iff h hok r hr shuffle hs).2.2.1 ⟨n, out, e2⟩)

/-! ### Paths -/

theorem pathLoop_bound (h : Heap) : ∀ (fuel : Nat) (path out : List Nat) (x : Nat), path.getLast? = some x → pathLoop h fuel path = some out →
    ∀ ks y, Leads (nodeUp h) x ks y → ks.length < fuel := by
  intro fuel
  induction fuel with
  | zero => intro path out x _ e; cases e
  | succ fuel ih =>
    intro path out x hx e ks y hl
    simp only [pathLoop, hx, Option.getD_some] at e
    cases hl with
    | here => simp
    | step hm h2 =>
      unfold nodeUp at hm
      cases hp : (h.node x).parent with
      | none => rw [hp] at hm; cases hm
      | some p =>
        rw [hp] at hm e
        simp only [List.mem_singleton, Prod.mk.injEq] at hm
        obtain ⟨_, rfl⟩ := hm
        have := ih _ _ _ (by simp) e _ _ h2
        simp only [List.length_cons]; omega

theorem pathLoop_ends (h : Heap) : ∀ (fuel : Nat) (path : List Nat) (x : Nat), path.getLast? = some x →
    (∀ ks y, Leads (nodeUp h) x ks y → ks.length < fuel) → ∃ out, pathLoop h fuel path = some out := by
  intro fuel
  induction fuel with
  | zero => intro path x _ hb; exact absurd (hb [] x (.here x)) (by simp)
  | succ fuel ih =>
    intro path x hx hb
    simp only [pathLoop, hx, Option.getD_some]
    cases hp : (h.node x).parent with
    | none => exact ⟨_, rfl⟩
    | some p =>
      refine ih _ p (by simp) ?_
      intro ks y hl
      have := hb ([] :: ks) y (.step (by unfold nodeUp; rw [hp]; simp) hl)
      simpa using this

/-- C121: `path` and `ancestors` end exactly if no node above is its own ancestor. -/
theorem C121_path_ends_iff (h : Heap) (hok : NodesOk h) (r : Nat) (hr : r < h.length) :
    ((∃ fuel out, pathFromRoot h fuel r = some out) ↔ ¬ Circular (nodeUp h) r) ∧
    ((∃ fuel out, ancestors h fuel r = some out) ↔ ¬ Circular (nodeUp h) r) := by
  have key : (∃ fuel out, pathFromRoot h fuel r = some out) ↔ ¬ Circular (nodeUp h) r := by
    constructor
    · rintro ⟨fuel, out, e⟩
      exact not_circular_of_bound fun ks x hl => pathLoop_bound h fuel [r] out r rfl e ks x hl
    · intro hc
      obtain ⟨m, hm⟩ := Spec.Circular.bound h.length (fun r hr => (hok r hr).2.2) r hr hc
      exact ⟨m, pathLoop_ends h m [r] r rfl hm⟩
  exact ⟨key, by simpa only [C52_same] using key⟩

end Cjk
