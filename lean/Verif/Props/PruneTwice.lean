import Verif.Props.TreePrune
/-!
# C173: pruning in several steps
-/

namespace Cjk
open Py

mutual
theorem trim_live_left (p q : Str → Attrib → Bool) (hpq : ∀ l a, p l a = true → q l a = true) :
    ∀ t : ATree, (t.trim q).live p = t.live p
  | .node r l a k => by rw [ATree.trim, ATree.live, ATree.live, trim_live_left_kids p q hpq k]
theorem trim_live_left_kids (p q : Str → Attrib → Bool) (hpq : ∀ l a, p l a = true → q l a = true) :
    ∀ k : AForest, (k.trim q).live p = k.live p
  | .nil => rfl
  | .cons key t rest => by
    rw [AForest.trim, AForest.live]
    split
    · rw [AForest.live, trim_live_left p q hpq t, trim_live_left_kids p q hpq rest]
    · rename_i hn
      have : t.live p = false := by
        rw [Bool.eq_false_iff]
        intro hl
        rw [live_iff] at hl
        obtain ⟨s, hs, hp⟩ := hl
        exact hn ((live_iff q t).2 ⟨s, hs, hpq _ _ hp⟩)
      rw [this, Bool.false_or, trim_live_left_kids p q hpq rest]
end

mutual
theorem trim_trim_left (p q : Str → Attrib → Bool) (hpq : ∀ l a, p l a = true → q l a = true) :
    ∀ t : ATree, (t.trim q).trim p = t.trim p
  | .node r l a k => by rw [ATree.trim, ATree.trim, ATree.trim, trim_trim_left_kids p q hpq k]
theorem trim_trim_left_kids (p q : Str → Attrib → Bool) (hpq : ∀ l a, p l a = true → q l a = true) :
    ∀ k : AForest, (k.trim q).trim p = k.trim p
  | .nil => rfl
  | .cons key t rest => by
    rw [AForest.trim]
    split
    · rw [AForest.trim, AForest.trim, trim_live_left p q hpq t, trim_trim_left p q hpq t, trim_trim_left_kids p q hpq rest]
    · rename_i hn
      have : t.live p ≠ true := by
        intro hl
        rw [live_iff] at hl
        obtain ⟨s, hs, hp⟩ := hl
        exact hn ((live_iff q t).2 ⟨s, hs, hpq _ _ hp⟩)
      rw [AForest.trim, if_neg this, trim_trim_left_kids p q hpq rest]
end

theorem trim_live_right (p q : Str → Attrib → Bool) (hpq : ∀ l a, p l a = true → q l a = true) (t : ATree) (h : t.live p = true) :
    (t.trim p).live q = true := by
  have : (t.trim p).live p = true := by rw [trim_live_left p p (fun _ _ h => h), h]
  rw [live_iff] at this ⊢
  obtain ⟨s, hs, hp⟩ := this
  exact ⟨s, hs, hpq _ _ hp⟩

mutual
theorem trim_trim_right (p q : Str → Attrib → Bool) (hpq : ∀ l a, p l a = true → q l a = true) :
    ∀ t : ATree, (t.trim p).trim q = t.trim p
  | .node r l a k => by rw [ATree.trim, ATree.trim, trim_trim_right_kids p q hpq k]
theorem trim_trim_right_kids (p q : Str → Attrib → Bool) (hpq : ∀ l a, p l a = true → q l a = true) :
    ∀ k : AForest, (k.trim p).trim q = k.trim p
  | .nil => rfl
  | .cons key t rest => by
    rw [AForest.trim]
    split
    · rename_i hl
      rw [AForest.trim, if_pos (trim_live_right p q hpq t hl), trim_trim_right p q hpq t, trim_trim_right_kids p q hpq rest]
    · exact trim_trim_right_kids p q hpq rest
end

mutual
theorem trim_all (p : Str → Attrib → Bool) (hp : ∀ l a, p l a = true) : ∀ t : ATree, t.trim p = t
  | .node r l a k => by rw [ATree.trim, trim_all_kids p hp k]
theorem trim_all_kids (p : Str → Attrib → Bool) (hp : ∀ l a, p l a = true) : ∀ k : AForest, k.trim p = k
  | .nil => rfl
  | .cons key t rest => by
    have : t.live p = true := by obtain ⟨r, l, a, k⟩ := t; rw [ATree.live, hp]; rfl
    rw [AForest.trim, if_pos this, trim_all p hp t, trim_all_kids p hp rest]
end

mutual
theorem trim_labels (p : Str → Attrib → Bool) : ∀ t : ATree, t.keysAreLabels → (t.trim p).keysAreLabels
  | .node r l a k => fun h => trim_labels_kids p k h
theorem trim_labels_kids (p : Str → Attrib → Bool) : ∀ k : AForest, k.keysAreLabels → (k.trim p).keysAreLabels
  | .nil => fun h => h
  | .cons key t rest => fun h => by
    rw [AForest.trim]
    split
    · refine ⟨?_, trim_labels p t h.2.1, trim_labels_kids p rest h.2.2⟩
      rw [h.1]
      cases t
      rfl
    · exact trim_labels_kids p rest h.2.2
end

mutual
theorem trim_count (p : Str → Attrib → Bool) : ∀ t : ATree, (t.trim p).subs.length ≤ t.subs.length
  | .node r l a k => by
    have := trim_count_kids p k
    simp only [ATree.trim, ATree.subs, List.length_cons]
    omega
theorem trim_count_kids (p : Str → Attrib → Bool) : ∀ k : AForest, (k.trim p).subs.length ≤ k.subs.length
  | .nil => Nat.le_refl _
  | .cons key t rest => by
    have h1 := trim_count p t
    have h2 := trim_count_kids p rest
    rw [AForest.trim]
    split <;> simp only [AForest.subs, List.length_append] <;> omega
end

/-- What a call of `prune` gives: a proper tree with right parent links, or nothing, beside all older nodes. -/
def Spec.Pruned (p : Str → Attrib → Bool) (h : Heap) (t : ATree) (fuel : Nat) (h' : Heap) (t' : ATree) : Prop :=
  treePrune p h fuel t.ref = some (.ok (h', some t'.ref)) ∧ IsTree h' t' ∧ Par h' none t'

/-- **C173** (two predicates).  Let every node that `p` accepts be accepted by `q`.  Then pruning with `q` and pruning the result with `p`, or the
other way round, gives the same tree as pruning with `p` alone: the same labels, attributes and shape. -/
theorem C173_steps (p q : Str → Attrib → Bool) (hpq : ∀ l a, p l a = true → q l a = true) (h : Heap) (t : ATree) (hr : Rep h t)
    (hk : t.keysDistinct) (hl : t.keysAreLabels) (hroot : parentTruthy h t.ref = false) (fuel : Nat) (hf : 2 * t.size < fuel)
    (hlive : ∃ s ∈ t.subs, p s.label s.attrib = true) :
    ∃ h' t', Spec.Pruned p h t fuel h' t' ∧
      (∃ h1 t1 h2 t2, Spec.Pruned q h t fuel h1 t1 ∧ Spec.Pruned p h1 t1 fuel h2 t2 ∧ t2.bare = t'.bare) ∧
      ∃ h2 t2, Spec.Pruned q h' t' fuel h2 t2 ∧ t2.bare = t'.bare := by
  have step : ∀ (p : Str → Attrib → Bool) (h : Heap) (t : ATree), Rep h t → t.keysDistinct → t.keysAreLabels →
      parentTruthy h t.ref = false → 2 * t.size < fuel → (t.live p = true) →
      ∃ h' t', Spec.Pruned p h t fuel h' t' ∧ t'.bare = (t.trim p).bare := by
    intro p h t hr hk hl hroot hf hlive
    obtain ⟨h', res, h1, _, h3, _⟩ := C50_prune p h t hr hk hl hroot fuel hf
    obtain ⟨t', rfl, h5, h6, h7⟩ := h3 ((live_iff p t).1 hlive)
    exact ⟨h', t', ⟨h1, h5, h7⟩, h6⟩
  have next : ∀ (p q : Str → Attrib → Bool) (t : ATree) (h' : Heap) (t' : ATree), t.keysAreLabels → 2 * t.size < fuel → IsTree h' t' → Par h' none t' →
      t'.bare = (t.trim p).bare → (t.trim p).live q = true →
      ∃ h2 t2, Spec.Pruned q h' t' fuel h2 t2 ∧ t2.bare = ((t.trim p).trim q).bare := by
    intro p q t h' t' hl hf ht hpar hb hlv
    obtain ⟨h2, t2, h3, h4⟩ := step q h' t' ht.rep ht.keys (keysAreLabels_of_bare _ _ hb (trim_labels p t hl)) (by
        obtain ⟨r, l, a, k⟩ := t'
        have := hpar.1
        simp [parentTruthy, ATree.ref, this])
      (by
        rw [size_bare _ _ hb]
        have := trim_count p t
        unfold ATree.size at hf ⊢
        omega)
      (by rw [(trim_bare q _ _ hb).2]; exact hlv)
    exact ⟨h2, t2, h3, by rw [h4, (trim_bare q _ _ hb).1]⟩
  have hlp : t.live p = true := (live_iff p t).2 hlive
  have hlq : t.live q = true := by
    obtain ⟨s, hs, h1⟩ := hlive
    exact (live_iff q t).2 ⟨s, hs, hpq _ _ h1⟩
  obtain ⟨h', t', hp1, hb1⟩ := step p h t hr hk hl hroot hf hlp
  obtain ⟨h1, t1, hq1, hb2⟩ := step q h t hr hk hl hroot hf hlq
  refine ⟨h', t', hp1, ?_, ?_⟩
  · obtain ⟨h2, t2, h3, h4⟩ := next q p t h1 t1 hl hf hq1.2.1 hq1.2.2 hb2 (by rw [trim_live_left p q hpq, hlp])
    exact ⟨h1, t1, h2, t2, hq1, h3, by rw [h4, trim_trim_left p q hpq, hb1]⟩
  · obtain ⟨h2, t2, h3, h4⟩ := next p q t h' t' hl hf hp1.2.1 hp1.2.2 hb1 (trim_live_right p q hpq t hlp)
    exact ⟨h2, t2, h3, by rw [h4, trim_trim_right p q hpq, hb1]⟩

/-- **C173** (again).  Pruning the result again with the same predicate only copies it. -/
theorem C173_again (p : Str → Attrib → Bool) (h : Heap) (t : ATree) (hr : Rep h t) (hk : t.keysDistinct) (hl : t.keysAreLabels)
    (hroot : parentTruthy h t.ref = false) (fuel : Nat) (hf : 2 * t.size < fuel) (hlive : ∃ s ∈ t.subs, p s.label s.attrib = true) :
    ∃ h' t' h2 t2, Spec.Pruned p h t fuel h' t' ∧ Spec.Pruned p h' t' fuel h2 t2 ∧ t2.bare = t'.bare := by
  obtain ⟨h', t', h1, _, h2, t2, h3, h4⟩ := C173_steps p p (fun _ _ h => h) h t hr hk hl hroot fuel hf hlive
  exact ⟨h', t', h2, t2, h1, h3, h4⟩

/-- **C173** (nothing left).  If the second predicate accepts no node of the original tree, the second call gives `None`, as it does on the original
tree. -/
theorem C173_none (p q : Str → Attrib → Bool) (h : Heap) (t : ATree) (hr : Rep h t) (hk : t.keysDistinct) (hl : t.keysAreLabels)
    (hroot : parentTruthy h t.ref = false) (fuel : Nat) (hf : 2 * t.size < fuel) (hlive : ∃ s ∈ t.subs, q s.label s.attrib = true)
    (hno : ∀ s ∈ t.subs, p s.label s.attrib = false) :
    ∃ h1 t1 h2, Spec.Pruned q h t fuel h1 t1 ∧ treePrune p h1 fuel t1.ref = some (.ok (h2, none)) := by
  obtain ⟨h1, res, e1, _, e3, _⟩ := C50_prune q h t hr hk hl hroot fuel hf
  obtain ⟨t1, rfl, e4, e5, e6⟩ := e3 hlive
  have hroot1 : parentTruthy h1 t1.ref = false := by
    obtain ⟨r, l, a, k⟩ := t1
    have := e6.1
    simp [parentTruthy, ATree.ref, this]
  have hsz : 2 * t1.size < fuel := by
    rw [size_bare _ _ e5]
    have := trim_count q t
    unfold ATree.size at hf ⊢
    omega
  obtain ⟨h2, res, f1, _, _, f4⟩ := C50_prune p h1 t1 e4.rep e4.keys (keysAreLabels_of_bare _ _ e5 (trim_labels q t hl)) hroot1 fuel hsz
  refine ⟨h1, t1, h2, ⟨e1, e4, e6⟩, ?_⟩
  rw [f1, f4]
  have hdead : t1.live p = false := by
    rw [(trim_bare p _ _ e5).2]
    apply Classical.byContradiction
    intro hl
    rw [Bool.not_eq_false, live_iff] at hl
    obtain ⟨s, hs, hps⟩ := hl
    have hlq : t.live q = true := (live_iff q t).2 hlive
    have := C50_trim_nodes q t hlq
    have hmem : (s.ref, s.label, s.attrib) ∈ (t.trim q).subs.map (fun s => (s.ref, s.label, s.attrib)) := List.mem_map_of_mem (f := fun s : ATree => (s.ref, s.label, s.attrib)) hs
    rw [this] at hmem
    obtain ⟨s', hs', e⟩ := List.mem_map.1 hmem
    have hs' := List.mem_of_mem_filter hs'
    simp only [Prod.mk.injEq] at e
    have hn := hno s' hs'
    rw [e.2.1, e.2.2, hps] at hn
    cases hn
  intro s hs
  apply Classical.byContradiction
  intro hn
  have : t1.live p = true := (live_iff p t1).2 ⟨s, hs, by simpa using hn⟩
  rw [hdead] at this
  cases this

/-- **C173** (everything accepted).  Pruning with a predicate that accepts every node of any tree is copying. -/
theorem C173_all (p : Str → Attrib → Bool) (hp : ∀ l a, p l a = true) (h : Heap) (t : ATree) (hr : Rep h t) (hk : t.keysDistinct)
    (hl : t.keysAreLabels) (hroot : parentTruthy h t.ref = false) (fuel : Nat) (hf : 2 * t.size < fuel) :
    ∃ h' t' h2 t2, Spec.Pruned p h t fuel h' t' ∧ treeCopy h fuel t.ref = some (.ok (h2, t2.ref)) ∧ IsTree h2 t2 ∧ t'.bare = t2.bare ∧ t'.bare = t.bare := by
  obtain ⟨h', res, e1, _, e3, _⟩ := C50_prune p h t hr hk hl hroot fuel hf
  obtain ⟨t', rfl, e4, e5, e6⟩ := e3 ⟨t, by obtain ⟨r, l, a, k⟩ := t; simp [ATree.subs], hp _ _⟩
  obtain ⟨h2, t2, f1, f2, f3, _⟩ := C49_copy h t hr hk hl hroot fuel (by omega)
  rw [trim_all p hp] at e5
  exact ⟨h', t', h2, t2, ⟨e1, e4, e6⟩, f1, f2, by rw [e5, f3], e5⟩

/-! ### A case that meets the hypotheses -/

/-- A root with a child `a`, which has a child `b`, and a child `c`. -/
def pruneDemo : ATree := .node 0 u!"r" [] (.cons u!"a" (.node 1 u!"a" [] (.cons u!"b" (.node 2 u!"b" [] .nil) .nil)) (.cons u!"c" (.node 3 u!"c" [] .nil) .nil))

/-- The nodes of it. -/
def pruneDemoHeap : Heap := [⟨u!"r", [(u!"a", 1), (u!"c", 3)], [], none⟩, ⟨u!"a", [(u!"b", 2)], [], some 0⟩, ⟨u!"b", [], [], some 1⟩, ⟨u!"c", [], [], some 0⟩]

example : Rep pruneDemoHeap pruneDemo ∧ pruneDemo.keysDistinct ∧ pruneDemo.keysAreLabels ∧ parentTruthy pruneDemoHeap pruneDemo.ref = false := by
  refine ⟨?_, ?_, ?_, by decide +kernel⟩
  · refine ⟨⟨none, rfl⟩, ⟨⟨some 0, rfl⟩, ⟨⟨some 1, rfl⟩, trivial⟩, trivial⟩, ⟨⟨some 0, rfl⟩, trivial⟩, trivial⟩
  · exact ⟨by decide +kernel, ⟨by decide +kernel, ⟨by decide +kernel, trivial⟩, trivial⟩, ⟨by decide +kernel, trivial⟩, trivial⟩
  · exact ⟨rfl, ⟨rfl, trivial, trivial⟩, rfl, trivial, trivial⟩
example : (pruneDemo.trim (fun l _ => l = u!"b")).subs.map ATree.label = [u!"r", u!"a", u!"b"] ∧
    (pruneDemo.trim (fun l _ => l = u!"b" ∨ l = u!"c")).subs.map ATree.label = [u!"r", u!"a", u!"b", u!"c"] := by decide +kernel

end Cjk
