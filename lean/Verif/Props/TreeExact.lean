import Verif.Props.TreeDist
import Mathlib.Tactic.Linarith
/-!
# C51, C75: the exact conditions
-/

namespace Cjk
open Py

/-- C51, exactly: along a history about existing nodes the links are consistent at every moment iff no node is added while it is a child of
another node. -/
theorem C51_links_exact (ops : List TreeOp) (h1 : TreeOp.allInHeap [] ops) :
    (∀ done rest, ops = done ++ rest → LinksOk (TreeOp.run [] done)) ↔ TreeOp.allFresh [] ops := by
  have ok : LinkInv [] := ⟨by intro p hp; simp at hp, by simp⟩
  suffices H : ∀ (ops : List TreeOp) (h : Heap), LinkInv h → TreeOp.allInHeap h ops →
      ((∀ done rest, ops = done ++ rest → LinksOk (TreeOp.run h done)) ↔ TreeOp.allFresh h ops) from H ops [] ok h1
  intro ops
  induction ops with
  | nil =>
    intro h hi _
    refine ⟨fun _ => trivial, ?_⟩
    intro _ done rest e
    obtain ⟨rfl, rfl⟩ := List.append_eq_nil_iff.1 e.symm
    exact hi.links
  | cons op ops ih =>
    intro h hi hin
    constructor
    · intro hall
      have hfresh : op.fresh h := by
        cases op with
        | add p c =>
          intro q hq hqp hc
          have hl := hall [.add p c] ops rfl
          obtain ⟨⟨l, c'⟩, hm, rfl⟩ := List.mem_map.1 hc
          have hg := (Dict.get?_eq_some_iff (hi.wf_node q) l c').2 hm
          have hcl := (hi.links q hq l c' hg).1
          have hlen : (TreeOp.run h [TreeOp.add p c']).length = h.length := by simp [TreeOp.run, TreeOp.step, addChild]
          have hch : ((TreeOp.run h [TreeOp.add p c']).node q).children = (h.node q).children := by
            simp only [TreeOp.run, TreeOp.step, addChild]
            rw [node_upd _ _ _ _ (by simpa using hcl)]
            split <;> rw [upd_node_ne _ _ (Ne.symm hqp)]
          have hpar : ((TreeOp.run h [TreeOp.add p c']).node c').parent = some p := by
            simp only [TreeOp.run, TreeOp.step, addChild]
            rw [upd_node_eq _ _ (by simpa using hcl)]
          have := (hl q (by rw [hlen]; exact hq) l c' (by rw [hch]; exact hg)).2.2
          rw [hpar] at this
          cases this
          exact hqp rfl
        | _ => trivial
      exact ⟨hfresh, (ih _ (hi.step op hin.1 hfresh) hin.2).1 (fun done rest e => hall (op :: done) rest (by rw [e]; rfl))⟩
    · rintro ⟨hf, hfs⟩ done rest e
      cases done with
      | nil => exact hi.links
      | cons d done =>
        simp only [List.cons_append, List.cons.injEq] at e
        obtain ⟨rfl, e⟩ := e
        exact (ih _ (hi.step op hin.1 hf) hin.2).2 hfs done rest e

/-! ### C75 -/

theorem countBelow_node (m : Str → Attrib → Nat → ℚ) (t : ATree) :
    t.countBelow m = t.count m + (t.kids.items.map (fun kt => kt.2.countBelow m)).sum := by
  obtain ⟨r, l, a, k⟩ := t
  unfold ATree.countBelow
  rw [ATree.subs_node, List.map_cons, List.sum_cons]
  congr 1
  simp only [ATree.kids]
  generalize k.items = items
  induction items with
  | nil => rfl
  | cons kt items ih => rw [List.flatMap_cons, List.map_append, List.sum_append, ih, List.map_cons, List.sum_cons]

theorem sum_map_le {α : Type} (f g : α → ℚ) (l : List α) (h : ∀ x ∈ l, f x ≤ g x) : (l.map f).sum ≤ (l.map g).sum := by
  induction l with
  | nil => exact le_refl _
  | cons x l ih =>
    simp only [List.map_cons, List.sum_cons]
    have h1 := h x (by simp)
    have h2 := ih (fun y hy => h y (by simp [hy]))
    linarith

theorem sum_map_eq_iff {α : Type} (f g : α → ℚ) (l : List α) (h : ∀ x ∈ l, f x ≤ g x) :
    (l.map f).sum = (l.map g).sum ↔ ∀ x ∈ l, f x = g x := by
  induction l with
  | nil => simp
  | cons x l ih =>
    have h1 := h x (by simp)
    have h2 := sum_map_le f g l (fun y hy => h y (by simp [hy]))
    simp only [List.map_cons, List.sum_cons, List.forall_mem_cons, ← ih (fun y hy => h y (by simp [hy]))]
    constructor
    · intro e
      constructor <;> linarith
    · rintro ⟨e1, e2⟩
      rw [e1, e2]

theorem sum_map_zero {α : Type} (l : List α) : (l.map (fun _ => (0 : ℚ))).sum = 0 := by
  induction l with
  | nil => rfl
  | cons x l ih => rw [List.map_cons, List.sum_cons, ih, add_zero]

theorem countBelow_nonneg (m : Str → Attrib → Nat → ℚ) (hm : ∀ l a n, 0 ≤ m l a n) (t : ATree) : 0 ≤ t.countBelow m := by
  have := sum_map_le (fun _ => 0) (ATree.count m) t.subs (fun s _ => hm _ _ _)
  rwa [sum_map_zero] at this

theorem count_le_countBelow (m : Str → Attrib → Nat → ℚ) (hm : ∀ l a n, 0 ≤ m l a n) (t : ATree) : t.count m ≤ t.countBelow m := by
  rw [countBelow_node]
  have := sum_map_le (fun _ => 0) (fun kt : Str × ATree => kt.2.countBelow m) t.kids.items (fun kt _ => countBelow_nonneg m hm kt.2)
  rw [sum_map_zero] at this
  linarith

theorem countBelow_zero (m : Str → Attrib → Nat → ℚ) (hm : ∀ l a n, 0 ≤ m l a n) (t : ATree) :
    t.countBelow m = 0 ↔ ∀ s ∈ t.subs, s.count m = 0 := by
  have := sum_map_eq_iff (fun _ => 0) (ATree.count m) t.subs (fun s _ => hm _ _ _)
  rw [sum_map_zero] at this
  unfold ATree.countBelow
  rw [eq_comm, this]
  exact forall₂_congr (fun _ _ => eq_comm)

/-- `cum_count` is right at a node iff all counts two or more levels below it are 0. -/
theorem count1_eq_countBelow_iff (m : Str → Attrib → Nat → ℚ) (hm : ∀ l a n, 0 ≤ m l a n) (t : ATree) :
    t.count1 m = t.countBelow m ↔ ∀ d, 2 ≤ d → ∀ s ∈ t.level d, s.count m = 0 := by
  have h1 : t.count1 m = t.countBelow m ↔ ∀ kt ∈ t.kids.items, ∀ kt' ∈ kt.2.kids.items, kt'.2.countBelow m = 0 := by
    rw [countBelow_node]
    unfold ATree.count1
    rw [add_right_inj, sum_map_eq_iff _ _ _ (fun kt _ => count_le_countBelow m hm kt.2)]
    refine forall₂_congr (fun kt _ => ?_)
    rw [countBelow_node]
    have := sum_map_eq_iff (fun _ => 0) (fun kt : Str × ATree => kt.2.countBelow m) kt.2.kids.items (fun kt _ => countBelow_nonneg m hm kt.2)
    rw [sum_map_zero] at this
    constructor
    · intro e kt' hkt'
      exact (this.1 (by linarith) kt' hkt').symm
    · intro e
      have := this.2 (fun kt' h => (e kt' h).symm)
      linarith
  rw [h1]
  obtain ⟨r, l, a, k⟩ := t
  simp only [ATree.kids]
  constructor
  · intro h d hd s hs
    obtain ⟨d, rfl⟩ : ∃ d', d = d' + 2 := ⟨d - 2, by omega⟩
    simp only [ATree.level, AForest.level_eq] at hs
    obtain ⟨kt, hkt, hs⟩ := List.mem_flatMap.1 hs
    obtain ⟨key, ⟨r', l', a', k'⟩⟩ := kt
    simp only [ATree.level, AForest.level_eq] at hs
    obtain ⟨kt', hkt', hs⟩ := List.mem_flatMap.1 hs
    exact (countBelow_zero m hm _).1 (h _ hkt kt' hkt') s (level_subset _ _ s hs)
  · intro h kt hkt kt' hkt'
    rw [countBelow_zero m hm]
    intro s hs
    obtain ⟨d, hd⟩ := mem_level_of_mem_subs _ s hs
    refine h (d + 2) (by omega) s ?_
    simp only [ATree.level, AForest.level_eq]
    refine List.mem_flatMap.2 ⟨kt, hkt, ?_⟩
    obtain ⟨key, ⟨r', l', a', k'⟩⟩ := kt
    simp only [ATree.level, AForest.level_eq]
    exact List.mem_flatMap.2 ⟨kt', hkt', hd⟩

/-- Two annotations of a tree agree only if they agree at every node. -/
theorem mapAttrib_bare_inj (f g : ATree → Attrib) (t : ATree) (h : (t.mapAttrib f).bare = (t.mapAttrib g).bare) :
    ∀ s ∈ t.subs, f s = g s := by
  induction t using ATree.ind with
  | h r l a k ih =>
    simp only [ATree.mapAttrib, ATree.bare, ATree.node.injEq, true_and] at h
    obtain ⟨h1, h2⟩ := h
    intro s hs
    rw [ATree.subs_node] at hs
    rcases List.mem_cons.1 hs with rfl | hs
    · exact h1
    · obtain ⟨kt, hkt, hs⟩ := List.mem_flatMap.1 hs
      refine ih kt hkt ?_ s hs
      have h3 := congrArg AForest.items h2
      rw [AForest.bare_items, AForest.bare_items, AForest.mapAttrib_items, AForest.mapAttrib_items, List.map_map, List.map_map] at h3
      have h4 := List.map_inj_left.1 h3 kt hkt
      exact (Prod.mk.inj h4).2

theorem level_level (t : ATree) (e : Nat) (s : ATree) (hs : s ∈ t.level e) (d : Nat) : ∀ x ∈ s.level d, x ∈ t.level (e + d) := by
  induction d with
  | zero =>
    intro x hx
    rw [level_zero, List.mem_singleton] at hx
    subst hx
    exact hs
  | succ d ih =>
    intro x hx
    rw [level_succ] at hx
    obtain ⟨y, hy, hx⟩ := List.mem_flatMap.1 hx
    rw [← Nat.add_assoc, level_succ]
    exact List.mem_flatMap.2 ⟨y, ih y hy, hx⟩

/-- C75, exactly: with counts that are not negative, the attributes that `TreeDist` gives the nodes (`C75_dist_partial`) are the claimed ones
iff every node two or more levels below the root has count 0. -/
theorem C75_exact (m : Str → Attrib → Nat → ℚ) (hm : ∀ l a n, 0 ≤ m l a n) (t : ATree) :
    (t.mapAttrib (distAttrib m (ATree.count1 m) (t.count1 m))).bare = (t.mapAttrib (distAttrib m (ATree.countBelow m) (t.countBelow m))).bare ↔
      ∀ d, 2 ≤ d → ∀ s ∈ t.level d, s.count m = 0 := by
  constructor
  · intro h
    have := mapAttrib_bare_inj _ _ t h t (by obtain ⟨r, l, a, k⟩ := t; rw [ATree.subs_node]; simp)
    have h2 := congrArg (fun d => Dict.get? d (.str u!"cum_count")) this
    simp only [distAttrib] at h2
    rw [Dict.get?_set_ne _ _ (by decide), Dict.get?_set_self, Dict.get?_set_ne _ _ (by decide), Dict.get?_set_self] at h2
    simp only [Option.some.injEq, AVal.num.injEq] at h2
    exact (count1_eq_countBelow_iff m hm t).1 h2
  · intro h
    rw [(count1_eq_countBelow_iff m hm t).2 h]
    congr 1
    apply mapAttrib_congr
    intro s hs
    have : s.count1 m = s.countBelow m := by
      rw [count1_eq_countBelow_iff m hm]
      intro d hd x hx
      obtain ⟨e, he⟩ := mem_level_of_mem_subs t s hs
      exact h (e + d) (by omega) x (level_level t e s he d x hx)
    simp only [distAttrib, this]

/-- Histories of both kinds: `demoOps` adds no child twice, this one does. -/
example : TreeOp.allInHeap [] demoOps ∧ TreeOp.allFresh [] demoOps := by decide +kernel
example : TreeOp.allInHeap [] [.new u!"a" [], .new u!"b" [], .new u!"c" [], .add 0 2, .add 1 2] ∧
    ¬ TreeOp.allFresh [] [.new u!"a" [], .new u!"b" [], .new u!"c" [], .add 0 2, .add 1 2] := by decide +kernel

/-- The number of children, which is the count that `TreeDist` uses by default, is not negative. -/
example : ∀ (_ : Str) (_ : Attrib) (n : Nat), (0 : ℚ) ≤ n := fun _ _ n => by exact_mod_cast Nat.zero_le n

end Cjk
