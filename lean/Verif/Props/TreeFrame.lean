import Verif.Props.TreeCopy
import Verif.Props.TreeOps
/-!
# C110: what is done to one tree does not show in another
-/

namespace Cjk
open Py

/-- The nodes named in an operation. -/
def TreeOp.named : TreeOp → List Nat
  | .new _ _ => []
  | .add p c => [p, c]
  | .unlink c => [c]
  | .del p c => [p, c]
  | .set r _ _ => [r]
  | .unset r _ => [r]

/-! #### Frame -/

/-- The nodes `B`, and everything created later, have their parents among themselves. -/
def ClosedUp (n : Nat) (B : Nat → Prop) (h : Heap) : Prop :=
  ∀ r p, B r ∨ n ≤ r → (h.node r).parent = some p → B p ∨ n ≤ p

theorem upd_other (h : Heap) {r x : Nat} (f : TNode → TNode) (e : r ≠ x) : (h.upd r f)[x]? = h[x]? := by
  rw [upd_getElem?, if_neg e]

/-- One step: the nodes outside `B` are as before, and `B` stays closed. -/
theorem TreeOp.step_frame {n : Nat} {B : Nat → Prop} {h : Heap} (hn : n ≤ h.length) (hc : ClosedUp n B h) (op : TreeOp)
    (hop : ∀ r ∈ op.named, B r ∨ n ≤ r) :
    n ≤ (op.step h).length ∧ ClosedUp n B (op.step h) ∧ ∀ x < n, ¬ B x → (op.step h)[x]? = h[x]? := by
  have hne : ∀ r x, (B r ∨ n ≤ r) → x < n → ¬ B x → r ≠ x := by
    rintro r x (hb | hb) hx hnb rfl
    · exact hnb hb
    · omega
  -- a change that keeps the parent, or sets it to something allowed
  have upd1 : ∀ (h : Heap) (r : Nat) (f : TNode → TNode), n ≤ h.length → ClosedUp n B h → (B r ∨ n ≤ r) →
      (∀ m p, (f m).parent = some p → m.parent = some p ∨ (B p ∨ n ≤ p)) →
      n ≤ (h.upd r f).length ∧ ClosedUp n B (h.upd r f) ∧ ∀ x < n, ¬ B x → (h.upd r f)[x]? = h[x]? := by
    intro h r f hn hc hr hf
    refine ⟨by simpa using hn, ?_, fun x hx hb => upd_other h f (hne r x hr hx hb)⟩
    intro x p hx hp
    by_cases e : r = x
    · subst e
      by_cases hl : r < h.length
      · rw [upd_node_eq _ _ hl] at hp
        rcases hf _ p hp with h1 | h1
        · exact hc r p hx h1
        · exact h1
      · unfold Heap.node at hp
        rw [List.getElem?_eq_none (by simpa using Nat.le_of_not_lt hl)] at hp
        cases hp
    · rw [upd_node_ne _ _ e] at hp
      exact hc x p hx hp
  have upd2 : ∀ (r s : Nat) (f g : TNode → TNode), (B r ∨ n ≤ r) → (B s ∨ n ≤ s) →
      (∀ m p, (f m).parent = some p → m.parent = some p ∨ (B p ∨ n ≤ p)) →
      (∀ m p, (g m).parent = some p → m.parent = some p ∨ (B p ∨ n ≤ p)) →
      n ≤ ((h.upd r f).upd s g).length ∧ ClosedUp n B ((h.upd r f).upd s g) ∧
        ∀ x < n, ¬ B x → ((h.upd r f).upd s g)[x]? = h[x]? := by
    intro r s f g hr hs hf hg
    obtain ⟨a1, a2, a3⟩ := upd1 h r f hn hc hr hf
    obtain ⟨b1, b2, b3⟩ := upd1 _ s g a1 a2 hs hg
    exact ⟨b1, b2, fun x hx hb => (b3 x hx hb).trans (a3 x hx hb)⟩
  have same : n ≤ h.length ∧ ClosedUp n B h ∧ ∀ x < n, ¬ B x → h[x]? = h[x]? := ⟨hn, hc, fun _ _ _ => rfl⟩
  cases op with
  | new l a =>
    simp only [TreeOp.step, newNode]
    refine ⟨by simp; omega, ?_, fun x hx _ => List.getElem?_append_left (by omega)⟩
    intro r p hr hp
    by_cases hl : r < h.length
    · rw [node_append _ _ hl] at hp; exact hc r p hr hp
    · unfold Heap.node at hp
      rw [List.getElem?_append_right (by omega)] at hp
      cases e : r - h.length with
      | zero => rw [e] at hp; simp at hp
      | succ k => rw [e] at hp; simp at hp
  | add p c =>
    simp only [TreeOp.step, addChild]
    have hp := hop p (by simp [TreeOp.named])
    refine upd2 p c _ _ hp (hop c (by simp [TreeOp.named])) (fun m q e => Or.inl e) ?_
    intro m q e
    cases e; exact Or.inr hp
  | unlink c =>
    have hcc := hop c (by simp [TreeOp.named])
    simp only [TreeOp.step, Cjk.unlink]
    cases hp : (h.node c).parent with
    | none => exact upd1 h c _ hn hc hcc (fun m q e => by cases e)
    | some p =>
      simp only
      split
      · rename_i h' e1
        split at e1
        · cases e1; exact upd1 h c _ hn hc hcc (fun m q e => by cases e)
        · split at e1
          · cases e1
          · cases e1
            exact upd2 p c _ _ (hc c p hcc hp) hcc (fun m q e => Or.inl e) (fun m q e => by cases e)
      · exact same
  | del p c =>
    simp only [TreeOp.step, delChild]
    cases delItem (h.node p).children (h.node c).label with
    | error e => exact same
    | ok d =>
      exact upd2 p c _ _ (hop p (by simp [TreeOp.named])) (hop c (by simp [TreeOp.named])) (fun m q e => Or.inl e)
        (fun m q e => Or.inl e)
  | set r k v =>
    exact upd1 h r _ hn hc (hop r (by simp [TreeOp.named])) (fun m q e => Or.inl e)
  | unset r k =>
    simp only [TreeOp.step, delAttr]
    cases Dict.get? (h.node r).attrib k with
    | none => exact same
    | some _ => exact upd1 h r _ hn hc (hop r (by simp [TreeOp.named])) (fun m q e => Or.inl e)

/-- C110: a history of operations on nodes of `B` and on nodes created meanwhile, where the parents of nodes of `B` are in
`B`, does not change any other node: not its label, its children, its attributes or its parent. -/
theorem C110_frame (B : Nat → Prop) (h : Heap) (ops : List TreeOp)
    (hc : ∀ r p, B r → (h.node r).parent = some p → B p)
    (hops : ∀ op ∈ ops, ∀ r ∈ op.named, B r ∨ h.length ≤ r) :
    ∀ x < h.length, ¬ B x → (TreeOp.run h ops)[x]? = h[x]? := by
  have key : ∀ (ops : List TreeOp) (g : Heap), h.length ≤ g.length → ClosedUp h.length B g →
      (∀ op ∈ ops, ∀ r ∈ op.named, B r ∨ h.length ≤ r) →
      ∀ x < h.length, ¬ B x → (TreeOp.run g ops)[x]? = g[x]? := by
    intro ops
    induction ops with
    | nil => intro g _ _ _ x _ _; rfl
    | cons op ops ih =>
      intro g hg hcl ho x hx hb
      obtain ⟨a1, a2, a3⟩ := TreeOp.step_frame hg hcl op (ho op (by simp))
      rw [← a3 x hx hb]
      exact ih _ a1 a2 (fun o hm => ho o (by simp [hm])) x hx hb
  refine key ops h (Nat.le_refl _) ?_ hops
  rintro r p (hr | hr) hp
  · exact Or.inl (hc r p hr hp)
  · unfold Heap.node at hp
    rw [List.getElem?_eq_none hr] at hp; cases hp

/-- The parent of a node of a tree whose root has no parent is a node of the tree. -/
theorem Par.closed {h : Heap} (t : ATree) : ∀ {par : Option Nat}, Par h par t → ∀ r ∈ t.refs, ∀ p,
    (h.node r).parent = some p → p ∈ t.refs ∨ par = some p := by
  induction t using ATree.ind with
  | h r l a k ih =>
    intro par hp x hx p hxp
    rw [ATree.refs_node] at hx ⊢
    rcases List.mem_cons.1 hx with rfl | hx
    · right; rw [← hxp]; exact hp.parent.symm
    · left
      obtain ⟨kt, hkt, hxk⟩ := List.mem_flatMap.1 hx
      rcases ih kt hkt (hp.kids kt hkt) x hxk p hxp with h1 | h1
      · exact List.mem_cons_of_mem _ (List.mem_flatMap.2 ⟨kt, hkt, h1⟩)
      · cases h1; simp [ATree.ref]

/-- C110: two trees with no node in common, the first with a root that has no parent: whatever is done to the nodes of the
first (and to nodes created meanwhile), the second stays as it is, with its parent links. -/
theorem C110_disjoint (h : Heap) (t u : ATree) (par : Option Nat) (ht : Par h none t) (hu : Rep h u) (hup : Par h par u)
    (hd : ∀ x ∈ u.refs, x ∉ t.refs) (ops : List TreeOp) (hops : ∀ op ∈ ops, ∀ r ∈ op.named, r ∈ t.refs ∨ h.length ≤ r) :
    Rep (TreeOp.run h ops) u ∧ Par (TreeOp.run h ops) par u := by
  have hf : ∀ x ∈ u.refs, (TreeOp.run h ops)[x]? = h[x]? := fun x hx =>
    C110_frame (· ∈ t.refs) h ops (fun r p hr hp => by
      rcases ht.closed t r hr p hp with h1 | h1
      · exact h1
      · cases h1) hops x (hu.refs_lt x hx) (hd x hx)
  exact ⟨hu.frame u hf, hup.frame u (fun x hx => by rw [node_congr (hf x hx)])⟩

/-- C110: whatever is done to a copy, its nodes and nodes created meanwhile, every node that existed before the copying is
as it was. -/
theorem C110_original (h : Heap) (t : ATree) (hr : Rep h t) (hk : t.keysDistinct) (hl : t.keysAreLabels)
    (hroot : parentTruthy h t.ref = false) (fuel : Nat) (hf : t.size < fuel) :
    ∃ h' t', treeCopy h fuel t.ref = some (.ok (h', t'.ref)) ∧ IsTree h' t' ∧ t'.bare = t.bare ∧
      ∀ ops : List TreeOp, (∀ op ∈ ops, ∀ r ∈ op.named, r ∈ t'.refs ∨ h'.length ≤ r) →
        (∀ x < h.length, (TreeOp.run h' ops)[x]? = h[x]?) ∧ Rep (TreeOp.run h' ops) t := by
  obtain ⟨h', t', e1, e2, e3, e4, e5, e6⟩ := C49_copy h t hr hk hl hroot fuel hf
  refine ⟨h', t', e1, e2, e3, ?_⟩
  intro ops hops
  have hle : h.length ≤ h'.length := by
    by_contra hlt
    have := e5 t'.ref t'.ref_mem_refs
    have := e2.rep.lt
    omega
  have key : ∀ x < h.length, (TreeOp.run h' ops)[x]? = h[x]? := by
    intro x hx
    rw [← e6 x hx]
    exact C110_frame (· ∈ t'.refs) h' ops (fun r p hr hp => by
      rcases e4.closed t' r hr p hp with h1 | h1
      · exact h1
      · cases h1) hops x (by omega) (fun hm => by have := e5 x hm; omega)
  exact ⟨key, hr.frame t (fun x hx => key x (hr.refs_lt x hx))⟩

/-- C110: whatever is done to nodes that existed before the copying (all of whose parents existed too) and to nodes created
afterwards, the copy is as it was, with its parent links. -/
theorem C110_copy (h : Heap) (t : ATree) (hr : Rep h t) (hk : t.keysDistinct) (hl : t.keysAreLabels)
    (hroot : parentTruthy h t.ref = false) (hpar : ∀ r p, (h.node r).parent = some p → p < h.length)
    (fuel : Nat) (hf : t.size < fuel) :
    ∃ h' t', treeCopy h fuel t.ref = some (.ok (h', t'.ref)) ∧ IsTree h' t' ∧ t'.bare = t.bare ∧
      ∀ ops : List TreeOp, (∀ op ∈ ops, ∀ r ∈ op.named, r < h.length ∨ h'.length ≤ r) →
        IsTree (TreeOp.run h' ops) t' ∧ Par (TreeOp.run h' ops) none t' := by
  obtain ⟨h', t', e1, e2, e3, e4, e5, e6⟩ := C49_copy h t hr hk hl hroot fuel hf
  refine ⟨h', t', e1, e2, e3, ?_⟩
  intro ops hops
  have key : ∀ x ∈ t'.refs, (TreeOp.run h' ops)[x]? = h'[x]? := by
    intro x hx
    refine C110_frame (· < h.length) h' ops ?_ hops x (e2.rep.refs_lt x hx) (by have := e5 x hx; omega)
    intro r p hr hp
    rw [node_congr (e6 r hr)] at hp
    exact hpar r p hp
  exact ⟨⟨e2.rep.frame t' key, e2.distinct, e2.keys⟩, e4.frame t' (fun x hx => by rw [node_congr (key x hx)])⟩

/-- A tree, its copy (nodes 3, 4, 5), and a history on the copy and a node created meanwhile. -/
def frameDemo : Heap :=
  [⟨u!"r", [(u!"a", 1), (u!"b", 2)], [], none⟩, ⟨u!"a", [], [(.str u!"k", .num 1)], some 0⟩, ⟨u!"b", [], [], some 0⟩]

/-- The operations: take the copied `a` away, delete its attribute, hang a new node below the copied root. -/
def frameOps : List TreeOp := [.unlink 4, .unset 4 (.str u!"k"), .new u!"z" [], .add 3 6, .set 3 (.str u!"x") (.num 2)]

/-- The hypotheses of the theorems can be met, and the history does something. -/
example : treeCopy frameDemo 4 0 = some (.ok (frameDemo ++
      [⟨u!"r", [(u!"a", 4), (u!"b", 5)], [], none⟩, ⟨u!"a", [], [(.str u!"k", .num 1)], some 3⟩, ⟨u!"b", [], [], some 3⟩], 3)) ∧
    (∀ r p, (frameDemo.node r).parent = some p → p < frameDemo.length) ∧
    TreeOp.run (frameDemo ++
      [⟨u!"r", [(u!"a", 4), (u!"b", 5)], [], none⟩, ⟨u!"a", [], [(.str u!"k", .num 1)], some 3⟩, ⟨u!"b", [], [], some 3⟩]) frameOps =
    frameDemo ++ [⟨u!"r", [(u!"b", 5), (u!"z", 6)], [(.str u!"x", .num 2)], none⟩, ⟨u!"a", [], [], none⟩, ⟨u!"b", [], [], some 3⟩,
      ⟨u!"z", [], [], some 3⟩] := by
  refine ⟨by decide +kernel, ?_, by decide +kernel⟩
  intro r p hp
  match r with
  | 0 => simp [frameDemo, Heap.node] at hp
  | 1 => simp [frameDemo, Heap.node] at hp; subst hp; decide
  | 2 => simp [frameDemo, Heap.node] at hp; subst hp; decide
  | r + 3 => simp [frameDemo, Heap.node] at hp

end Cjk
