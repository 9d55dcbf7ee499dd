import Verif.Props.EntryHeap
/-!
# C97: exactly which other entries `update` changes
-/

namespace Cjk
open Py Spec

/-- What padding does when entries may share lists. -/
theorem padAt_shared {h : EHeap} (hex : ∀ a, Owned h a → a < h.next) {i : Nat} {e : ERef} (hi : h.entries[i]? = some e) :
    ∃ r, (h.padAt i).entries[i]? = some { e with readings := r } ∧
      (∀ k, k ≠ i → (h.padAt i).entries[k]? = h.entries[k]?) ∧
      (∀ a, a < h.next → (h.padAt i).lists a = h.lists a) ∧
      h.next ≤ (h.padAt i).next ∧ (∀ a, Owned (h.padAt i) a → a < (h.padAt i).next) ∧
      (((h.lists e.readings).length = 1 ∧ h.next ≤ r) ∨ ((h.lists e.readings).length ≠ 1 ∧ r = e.readings)) ∧
      (h.lists e.readings ≠ [] → h.lists e.senses ≠ [] → (h.padAt i).lists r ≠ []) := by
  have hm := List.mem_of_getElem? hi
  obtain ⟨hil, hie⟩ := List.getElem?_eq_some_iff.1 hi
  unfold EHeap.padAt
  rw [hi]
  simp only
  by_cases h1 : (h.lists e.readings).length = 1
  · rw [if_pos h1]
    refine ⟨h.next, by simp [hil], ?_, ?_, Nat.le_succ _, ?_, Or.inl ⟨h1, Nat.le_refl _⟩, ?_⟩
    · intro k hk
      exact List.getElem?_set_ne (Ne.symm hk)
    · intro a ha
      simp [EHeap.alloc, EHeap.put, Nat.ne_of_lt ha]
    · rintro a ⟨f, hf, ha⟩
      show a < h.next + 1
      rcases List.mem_or_eq_of_mem_set hf with hf | rfl
      · exact Nat.lt_succ_of_lt (hex a ⟨f, hf, ha⟩)
      · rcases ha with rfl | rfl
        · exact Nat.lt_succ_self _
        · exact Nat.lt_succ_of_lt (hex _ ⟨e, hm, Or.inr rfl⟩)
    · intro h2 h3
      obtain ⟨x, hx⟩ := List.length_eq_one_iff.1 h1
      cases hs : h.lists e.senses with
      | nil => exact absurd hs h3
      | cons y ys => simp [EHeap.alloc, EHeap.put, repeatList, hx, List.replicate_succ]
  · rw [if_neg h1]
    exact ⟨e.readings, hi, fun _ _ => rfl, fun _ _ => rfl, Nat.le_refl _, hex, Or.inr ⟨h1, rfl⟩, fun h2 _ => h2⟩

/-- Appending something to one list object changes exactly that object. -/
theorem extend_at {h : EHeap} {a b : Nat} (hb : h.lists b ≠ []) (c : Nat) :
    ((h.extend a b).lists c = h.lists c ↔ c ≠ a) ∧ (h.lists c).length ≤ ((h.extend a b).lists c).length := by
  unfold EHeap.extend EHeap.put
  by_cases hc : c = a
  · subst hc
    simp [hb]
  · simp [hc]

/-- Two lists extended one after the other. -/
theorem extend_twice {h : EHeap} {a b a' b' : Nat} (hb : h.lists b ≠ []) (hb' : h.lists b' ≠ []) (c : Nat) :
    ((h.extend a b).extend a' b').lists c = h.lists c ↔ c ≠ a ∧ c ≠ a' := by
  have hb2 : (h.extend a b).lists b' ≠ [] := by
    intro hn
    have := (extend_at (a := a) hb b').2
    rw [hn] at this
    exact hb' (List.eq_nil_of_length_eq_zero (Nat.le_zero.1 this))
  have h1 := extend_at (a := a) hb c
  have h2 := extend_at (h := h.extend a b) (a := a') hb2 c
  constructor
  · intro heq
    have hl : ((h.extend a b).lists c).length ≤ (h.lists c).length := by rw [← heq]; exact h2.2
    constructor
    · rintro rfl
      have : ((h.extend c b).lists c).length = (h.lists c).length + (h.lists b).length := by simp [EHeap.extend, EHeap.put]
      have hp : 0 < (h.lists b).length := List.length_pos_iff.2 hb
      omega
    · rintro rfl
      have : (((h.extend a b).extend c b').lists c).length = ((h.extend a b).lists c).length + ((h.extend a b).lists b').length := by
        simp [EHeap.extend, EHeap.put]
      have hp : 0 < ((h.extend a b).lists b').length := List.length_pos_iff.2 hb2
      have := h1.2
      rw [heq] at *
      omega
  · rintro ⟨hc1, hc2⟩
    rw [h2.1.2 hc2, h1.1.2 hc1]

/-- The exact condition: `entries[i].update(entries[j])` changes another entry exactly if that entry holds the list of senses of the updated
one, or its list of readings when that is not padded. -/
theorem C97_update_exact (h h' : EHeap) (hex : ∀ a, Owned h a → a < h.next) (i j k : Nat) (e f g : ERef)
    (hi : h.entries[i]? = some e) (hj : h.entries[j]? = some f) (hk : h.entries[k]? = some g) (hki : k ≠ i) (hkj : k ≠ j)
    (hr : h.lists f.readings ≠ []) (hs : h.lists f.senses ≠ []) (hu : h.update i j = .ok h') :
    h'.entries[k]? = some g ∧
      (h'.view g = h.view g ↔ ¬ (HoldsList g e.senses ∨ (HoldsList g e.readings ∧ (h.lists e.readings).length ≠ 1))) := by
  have hgm := List.mem_of_getElem? hk
  have hg1 := hex _ ⟨g, hgm, Or.inl rfl⟩
  have hg2 := hex _ ⟨g, hgm, Or.inr rfl⟩
  have hes := hex _ ⟨e, List.mem_of_getElem? hi, Or.inr rfl⟩
  have hfr := hex _ ⟨f, List.mem_of_getElem? hj, Or.inl rfl⟩
  have hfs := hex _ ⟨f, List.mem_of_getElem? hj, Or.inr rfl⟩
  unfold EHeap.update at hu
  rw [hi, hj] at hu
  simp only at hu
  split at hu
  case isFalse => cases hu
  injection hu with hu
  obtain ⟨r1, p1, p2, p3, p4, p5, p6, p7⟩ := padAt_shared hex hi
  -- the entry `j` after the first padding
  have hj1 : ∃ s, (h.padAt i).entries[j]? = some { f with readings := s } ∧ (h.padAt i).lists s ≠ [] ∧ (j ≠ i → s = f.readings) ∧
      (j = i → s = r1) := by
    by_cases hji : j = i
    · subst hji
      rw [hi] at hj
      injection hj with hj
      subst hj
      exact ⟨r1, p1, p7 hr hs, fun hn => absurd rfl hn, fun _ => rfl⟩
    · exact ⟨f.readings, by rw [p2 j hji, hj], by rw [p3 _ hfr]; exact hr, fun _ => rfl, fun hn => absurd hn hji⟩
  obtain ⟨s, q0, q1, q2, q3⟩ := hj1
  obtain ⟨r2, o1, o2, o3, o4, o5, o6, o7⟩ := padAt_shared p5 q0
  have hfs' : (h.padAt i).lists f.senses ≠ [] := by rw [p3 _ hfs]; exact hs
  have hr2 : ((h.padAt i).padAt j).lists r2 ≠ [] := o7 q1 hfs'
  have hs2 : ((h.padAt i).padAt j).lists f.senses ≠ [] := by
    rw [o3 _ (Nat.lt_of_lt_of_le hfs p4)]
    exact hfs'
  -- the entry `i` after both paddings
  have hi2 : ∃ t, ((h.padAt i).padAt j).entries[i]? = some { e with readings := t } ∧
      (((h.lists e.readings).length = 1 ∧ h.next ≤ t) ∨ ((h.lists e.readings).length ≠ 1 ∧ t = e.readings)) := by
    by_cases hji : j = i
    · subst hji
      rw [hi] at hj
      injection hj with hj
      subst hj
      refine ⟨r2, o1, ?_⟩
      have hsr := q3 rfl
      subst hsr
      rcases o6 with ⟨_, x2⟩ | ⟨x1, x2⟩
      · rcases p6 with ⟨y1, _⟩ | ⟨y1, y2⟩
        · exact Or.inl ⟨y1, Nat.le_trans p4 x2⟩
        · rename_i x1
          simp only [y2, p3 _ hfr] at x1
          exact absurd x1 y1
      · simp only at x2
        subst x2
        exact p6
    · exact ⟨r1, by rw [o2 i (Ne.symm hji)]; exact p1, p6⟩
  obtain ⟨t, t1, t2⟩ := hi2
  have hjoin : h' = (((h.padAt i).padAt j).extend t r2).extend e.senses f.senses := by
    rw [← hu]
    unfold EHeap.join
    rw [t1, o1]
  have hlist : ∀ a, a < h.next → (h'.lists a = h.lists a ↔ a ≠ t ∧ a ≠ e.senses) := by
    intro a ha
    rw [hjoin, ← p3 a ha, ← o3 a (Nat.lt_of_lt_of_le ha p4)]
    exact extend_twice hr2 hs2 a
  constructor
  · rw [hjoin]
    show ((h.padAt i).padAt j).entries[k]? = some g
    rw [o2 k hkj, p2 k hki, hk]
  · have hview : h'.view g = h.view g ↔ h'.lists g.readings = h.lists g.readings ∧ h'.lists g.senses = h.lists g.senses := by
      simp [EHeap.view]
    rw [hview, hlist _ hg1, hlist _ hg2]
    unfold HoldsList
    rcases t2 with ⟨u1, u2⟩ | ⟨u1, rfl⟩
    · have a1 : g.readings ≠ t := by omega
      have a2 : g.senses ≠ t := by omega
      simp [a1, a2, u1]
    · constructor
      · rintro ⟨⟨a1, a2⟩, a3, a4⟩ (b | ⟨b, _⟩)
        · rcases b with b | b
          · exact a2 b
          · exact a4 b
        · rcases b with b | b
          · exact a1 b
          · exact a3 b
      · intro hn
        exact ⟨⟨fun b => hn (Or.inr ⟨Or.inl b, u1⟩), fun b => hn (Or.inl (Or.inl b))⟩,
          fun b => hn (Or.inr ⟨Or.inr b, u1⟩), fun b => hn (Or.inl (Or.inr b))⟩

/-! ### Programs -/

/-- Every list that an entry holds has been made. -/
def ListsExist (h : EHeap) : Prop := ∀ a, Owned h a → a < h.next

theorem ListsExist.mono {h h' : EHeap} (hx : ListsExist h) (he : h'.entries = h.entries) (hn : h.next ≤ h'.next) : ListsExist h' := by
  rintro a ⟨e, hm, ha⟩
  rw [he] at hm
  exact Nat.lt_of_lt_of_le (hx a ⟨e, hm, ha⟩) hn

theorem ListsExist.padAt {h : EHeap} (hx : ListsExist h) (i : Nat) : ListsExist (h.padAt i) := by
  cases hi : h.entries[i]? with
  | none =>
    have : h.padAt i = h := by unfold EHeap.padAt; rw [hi]
    rw [this]
    exact hx
  | some e =>
    obtain ⟨_, _, _, _, _, p5, _⟩ := padAt_shared hx hi
    exact p5

theorem join_same (h : EHeap) (i j : Nat) : (h.join i j).entries = h.entries ∧ (h.join i j).next = h.next := by
  unfold EHeap.join
  split <;> exact ⟨rfl, rfl⟩

theorem appendUnder_same (st : EHeap × Dict Str Nat) (rs : Str × Str) :
    (EHeap.appendUnder st rs).1.entries = st.1.entries ∧ st.1.next ≤ (EHeap.appendUnder st rs).1.next := by
  unfold EHeap.appendUnder
  split
  · exact ⟨rfl, Nat.le_refl _⟩
  · exact ⟨rfl, Nat.le_succ _⟩

theorem appendAll_same (l : List (Str × Str)) : ∀ st : EHeap × Dict Str Nat,
    (l.foldl EHeap.appendUnder st).1.entries = st.1.entries ∧ st.1.next ≤ (l.foldl EHeap.appendUnder st).1.next := by
  induction l with
  | nil => exact fun st => ⟨rfl, Nat.le_refl _⟩
  | cons rs l ih =>
    intro st
    have h1 := ih (EHeap.appendUnder st rs)
    have h2 := appendUnder_same st rs
    exact ⟨h1.1.trans h2.1, Nat.le_trans h2.2 h1.2⟩

theorem ListsExist.step {h : EHeap} (hx : ListsExist h) (op : HeapOp) (ho : NamesLists h [op]) : ListsExist (op.step h) := by
  cases op with
  | list xs => exact hx.mono rfl (Nat.le_succ _)
  | write a xs => exact hx.mono rfl (Nat.le_refl _)
  | new w r s =>
    simp only [HeapOp.step, EHeap.newEntry]
    by_cases hc : (h.lists r).length = 1 ∨ (h.lists r).length = (h.lists s).length
    · rw [if_pos hc]
      rintro a ⟨e, hm, ha⟩
      rcases List.mem_append.1 hm with hm | hm
      · exact hx a ⟨e, hm, ha⟩
      · obtain rfl := List.mem_singleton.1 hm
        rcases ha with rfl | rfl
        · exact ho.1.1
        · exact ho.1.2
    · rw [if_neg hc]
      exact hx
  | update i j =>
    simp only [HeapOp.step, EHeap.update]
    cases h.entries[i]? with
    | none => exact hx
    | some e =>
      cases h.entries[j]? with
      | none => exact hx
      | some f =>
        simp only
        by_cases hw : e.word = f.word
        · rw [if_pos hw]
          have := join_same ((h.padAt i).padAt j) i j
          exact ((hx.padAt i).padAt j).mono this.1 (Nat.le_of_eq this.2.symm)
        · rw [if_neg hw]
          exact hx
  | byReading i =>
    simp only [HeapOp.step, EHeap.sensesByReading]
    cases h.entries[i]? with
    | none => exact hx
    | some e =>
      simp only
      by_cases h1 : (h.lists e.readings).length > 1
      · rw [if_pos h1]
        by_cases h2 : (h.lists e.senses).length = (h.lists e.readings).length
        · rw [if_pos h2]
          have := appendAll_same ((h.lists e.readings).zip (h.lists e.senses)) (h, [])
          exact hx.mono this.1 this.2
        · rw [if_neg h2]
          exact hx
      · rw [if_neg h1]
        rcases hl : h.lists e.readings with _ | ⟨r, _ | ⟨r', rs⟩⟩
        · exact hx
        · exact hx.mono rfl (Nat.le_succ _)
        · exact hx

theorem ListsExist.run (ops : List HeapOp) : ∀ {h : EHeap}, ListsExist h → NamesLists h ops → ListsExist (HeapOp.run h ops) := by
  induction ops with
  | nil => exact fun hx _ => hx
  | cons op ops ih => exact fun hx ho => ih (hx.step op ⟨ho.1, trivial⟩) ho.2

/-- The exact condition, after any program that makes entries from lists it has made: whatever was shared before, an `update` changes
another entry exactly if that entry holds the list of senses of the updated one, or its list of readings when that is not padded. -/
theorem C97_programs_exact (ops : List HeapOp) (ho : NamesLists .empty ops) (i j k : Nat) (e f g : ERef)
    (hi : (HeapOp.run .empty ops).entries[i]? = some e) (hj : (HeapOp.run .empty ops).entries[j]? = some f)
    (hk : (HeapOp.run .empty ops).entries[k]? = some g) (hki : k ≠ i) (hkj : k ≠ j) (hw : e.word = f.word)
    (hr : (HeapOp.run .empty ops).lists f.readings ≠ []) (hs : (HeapOp.run .empty ops).lists f.senses ≠ []) :
    (HeapOp.run .empty (ops ++ [.update i j])).entries[k]? = some g ∧
      ((HeapOp.run .empty (ops ++ [.update i j])).view g ≠ (HeapOp.run .empty ops).view g ↔
        HoldsList g e.senses ∨ (HoldsList g e.readings ∧ ((HeapOp.run .empty ops).lists e.readings).length ≠ 1)) := by
  have hx : ListsExist (HeapOp.run .empty ops) := ListsExist.run ops (by rintro a ⟨e, hm, _⟩; simp [EHeap.empty] at hm) ho
  have hrun : HeapOp.run .empty (ops ++ [.update i j]) = HeapOp.step (HeapOp.run .empty ops) (.update i j) := by
    simp [HeapOp.run, List.foldl_append]
  have hu : ∃ h', (HeapOp.run .empty ops).update i j = .ok h' := by
    unfold EHeap.update
    rw [hi, hj]
    simp only
    rw [if_pos hw]
    exact ⟨_, rfl⟩
  obtain ⟨h', hu⟩ := hu
  have hstep : HeapOp.step (HeapOp.run .empty ops) (.update i j) = h' := by simp only [HeapOp.step, hu]
  rw [hrun, hstep]
  obtain ⟨c1, c2⟩ := C97_update_exact _ h' hx i j k e f g hi hj hk hki hkj hr hs hu
  refine ⟨c1, ?_⟩
  exact (not_congr c2).trans Decidable.not_not

/-- A program with sharing: the entries 0 and 1 hold the same senses, the entry 2 holds the readings of entry 3. -/
def sharingOps : List HeapOp :=
  [.list [u!"r"], .list [u!"q"], .list [u!"x"], .new u!"a" 0 2, .new u!"b" 1 2, .list [u!"s", u!"t"], .list [u!"y", u!"z"], .new u!"c" 3 4,
    .list [u!"v", u!"w"], .new u!"a" 3 5]

/-- Its entries 0, 1 and 3 have the word `a`, `b` and `a`: updating entry 0 from entry 3 changes entry 1 (it holds the same senses), updating
entry 3 from entry 0 changes entry 2 (it holds the same two readings) and not entry 1. -/
example : NamesLists .empty sharingOps ∧
    (HeapOp.run .empty (sharingOps ++ [.update 0 3])).view ⟨u!"b", 1, 2⟩ ≠ (HeapOp.run .empty sharingOps).view ⟨u!"b", 1, 2⟩ ∧
    (HeapOp.run .empty (sharingOps ++ [.update 3 0])).view ⟨u!"c", 3, 4⟩ ≠ (HeapOp.run .empty sharingOps).view ⟨u!"c", 3, 4⟩ ∧
    (HeapOp.run .empty (sharingOps ++ [.update 3 0])).view ⟨u!"b", 1, 2⟩ = (HeapOp.run .empty sharingOps).view ⟨u!"b", 1, 2⟩ := by
  have ho : NamesLists .empty sharingOps := by decide
  refine ⟨ho, ?_, ?_, ?_⟩
  · exact (C97_programs_exact sharingOps ho 0 3 1 ⟨u!"a", 0, 2⟩ ⟨u!"a", 3, 5⟩ ⟨u!"b", 1, 2⟩ rfl rfl rfl (by decide) (by decide) rfl
      (by decide) (by decide)).2.2 (by decide)
  · exact (C97_programs_exact sharingOps ho 3 0 2 ⟨u!"a", 3, 5⟩ ⟨u!"a", 0, 2⟩ ⟨u!"c", 3, 4⟩ rfl rfl rfl (by decide) (by decide) rfl
      (by decide) (by decide)).2.2 (by decide)
  · exact Decidable.not_not.1 (fun hn => absurd ((C97_programs_exact sharingOps ho 3 0 1 ⟨u!"a", 3, 5⟩ ⟨u!"a", 0, 2⟩ ⟨u!"b", 1, 2⟩ rfl rfl
      rfl (by decide) (by decide) rfl (by decide) (by decide)).2.1 hn) (by decide))

end Cjk
