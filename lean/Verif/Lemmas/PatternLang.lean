import Verif.Spec.Regex
/-!
# The engine finds what the pattern describes
-/

namespace Cjk
open Py Spec

theorem lastOf_nil (prev : Option Nat) : lastOf prev [] = prev := rfl

theorem lastOf_append (prev : Option Nat) (u v : Str) : lastOf prev (u ++ v) = lastOf (lastOf prev u) v := by
  unfold lastOf
  rw [List.getLast?_append]
  cases v.getLast? <;> cases u.getLast? <;> rfl

theorem lastOf_cons (prev : Option Nat) (x : Nat) (v : Str) : lastOf prev (x :: v) = lastOf (some x) v :=
  lastOf_append prev [x] v

/-- The captures after some groups were set. -/
def setAll (c : GCaps) (ev : List (Nat × Str)) : GCaps := ev.foldl (fun c e => Dict.set c e.1 e.2) c

theorem setAll_append (c : GCaps) (e e' : List (Nat × Str)) : setAll c (e ++ e') = setAll (setAll c e) e' := by
  simp [setAll, List.foldl_append]

theorem get?_setAll (c : GCaps) (ev : List (Nat × Str)) (i : Nat) :
    Dict.get? (setAll c ev) i = (groupText ev i).or (Dict.get? c i) := by
  induction ev generalizing c with
  | nil => rfl
  | cons e ev ih =>
    show Dict.get? (setAll (Dict.set c e.1 e.2) ev) i = _
    rw [ih, Dict.get?_set]
    simp only [groupText, List.reverse_cons, List.find?_append, List.find?_cons, List.find?_nil]
    cases ev.reverse.find? (fun e => decide (e.1 = i)) with
    | some x => rfl
    | none => by_cases h : e.1 = i <;> simp [h]

/-- The states that a match leads to. -/
def After (p : Pat) (m m' : MState) : Prop :=
  ∃ u ev, m.rest = u ++ m'.rest ∧ Matches p m.prev u m'.rest ev ∧ m'.prev = lastOf m.prev u ∧ m'.caps = setAll m.caps ev

theorem After.length_le {p : Pat} {m m' : MState} (h : After p m m') : m'.rest.length ≤ m.rest.length := by
  obtain ⟨u, _, hu, _⟩ := h
  rw [hu]; simp

theorem after_star_cons {g : Bool} {a : Pat} {m m1 m2 : MState} (h1 : After a m m1) (hlt : m1.rest.length < m.rest.length)
    (h2 : After (.star g a) m1 m2) : After (.star g a) m m2 := by
  obtain ⟨u, e, hu, ha, hp, hc⟩ := h1
  obtain ⟨v, e', hv, hs, hp', hc'⟩ := h2
  refine ⟨u ++ v, e ++ e', by rw [hu, hv, List.append_assoc], ?_, by rw [hp', hp, lastOf_append], by rw [hc', hc, setAll_append]⟩
  refine .starCons ?_ (by rw [← hv]; exact ha) (by rw [← hp]; exact hs)
  rintro rfl
  simp at hu
  rw [hu] at hlt
  exact Nat.lt_irrefl _ hlt

theorem mem_repsOf {a : Pat} (ih : ∀ m m', m' ∈ a.run m ↔ After a m m') (g : Bool) (n : Nat) (m m' : MState)
    (hn : m.rest.length ≤ n) : m' ∈ repsOf a.run g n m ↔ After (.star g a) m m' := by
  have hself : ∀ m, After (.star g a) m m := fun m => ⟨[], [], rfl, .starNil, rfl, rfl⟩
  -- the first piece of a repetition
  have split : ∀ m m', After (.star g a) m m' → m' = m ∨
      ∃ m1, After a m m1 ∧ m1.rest.length < m.rest.length ∧ After (.star g a) m1 m' := by
    rintro m m' ⟨u, ev, hu, hs, hp, hc⟩
    obtain ⟨p1, r1, c1⟩ := m; obtain ⟨p2, r2, c2⟩ := m'
    simp only at hu hs hp hc
    generalize hq : Pat.star g a = q at hs
    cases hs with
    | starNil =>
      left
      simp only [List.nil_append] at hu
      simp only [lastOf_nil] at hp
      simp only [setAll, List.foldl_nil] at hc
      rw [hu, hp, hc]
    | @starCons g' a' _ u1 v1 _ e1 e2 hne h1 h2 =>
      cases hq
      right
      refine ⟨⟨lastOf p1 u1, v1 ++ r2, setAll c1 e1⟩, ⟨u1, e1, by rw [hu, List.append_assoc], h1, rfl, rfl⟩, ?_,
        ⟨v1, e2, rfl, h2, by rw [hp, lastOf_append], by rw [hc, setAll_append]⟩⟩
      have : 0 < u1.length := List.length_pos_iff.2 hne
      simp [hu]; omega
    | _ => cases hq
  induction n generalizing m with
  | zero =>
    simp only [repsOf, List.mem_singleton]
    constructor
    · rintro rfl; exact hself _
    · intro h
      rcases split m m' h with h | ⟨m1, _, hlt, _⟩
      · exact h
      · omega
  | succ n IH =>
    have hmore : m' ∈ (a.run m).flatMap (fun m1 => if m1.rest.length < m.rest.length then repsOf a.run g n m1 else []) ↔
        ∃ m1, After a m m1 ∧ m1.rest.length < m.rest.length ∧ After (.star g a) m1 m' := by
      simp only [List.mem_flatMap, ih]
      constructor
      · rintro ⟨m1, h1, h2⟩
        by_cases hlt : m1.rest.length < m.rest.length
        · rw [if_pos hlt] at h2; exact ⟨m1, h1, hlt, (IH m1 (by omega)).1 h2⟩
        · rw [if_neg hlt] at h2; simp at h2
      · rintro ⟨m1, h1, hlt, h2⟩
        exact ⟨m1, h1, by rw [if_pos hlt]; exact (IH m1 (by omega)).2 h2⟩
    have goal : (m' = m ∨ ∃ m1, After a m m1 ∧ m1.rest.length < m.rest.length ∧ After (.star g a) m1 m') ↔
        After (.star g a) m m' := by
      constructor
      · rintro (rfl | ⟨m1, h1, hlt, h2⟩)
        · exact hself _
        · exact after_star_cons h1 hlt h2
      · exact split m m'
    rw [← goal, ← hmore]
    simp only [repsOf]
    cases g
    · simp only [Bool.false_eq_true, if_false, List.mem_cons]
    · simp only [if_true, List.mem_append, List.mem_singleton]
      exact Or.comm

/-- The engine lists exactly the matches that the pattern describes. -/
theorem mem_run_iff (p : Pat) (m m' : MState) : m' ∈ p.run m ↔ After p m m' := by
  induction p generalizing m m' with
  | eps =>
    simp only [Pat.run, List.mem_singleton]
    constructor
    · rintro rfl; exact ⟨[], [], rfl, .eps, rfl, rfl⟩
    · rintro ⟨u, ev, hu, hs, hp, hc⟩
      cases hs
      obtain ⟨p1, r1, c1⟩ := m; obtain ⟨p2, r2, c2⟩ := m'
      simp only [List.nil_append] at hu
      simp only [lastOf_nil] at hp
      simp only [setAll, List.foldl_nil] at hc
      rw [hu, hp, hc]
  | chr k =>
    obtain ⟨p1, r1, c1⟩ := m; obtain ⟨p2, r2, c2⟩ := m'
    constructor
    · intro h
      cases r1 with
      | nil => simp [Pat.run] at h
      | cons x s =>
        simp only [Pat.run] at h
        split at h
        · rename_i hx
          simp only [List.mem_singleton, MState.mk.injEq] at h
          obtain ⟨rfl, rfl, rfl⟩ := h
          exact ⟨[x], [], rfl, .chr hx, rfl, rfl⟩
        · simp at h
    · rintro ⟨u, ev, hu, hs, hp, hc⟩
      cases hs with
      | chr hx =>
        simp only [List.cons_append, List.nil_append] at hu
        subst hu
        simp only [setAll, List.foldl_nil] at hc
        simp only [Pat.run, hx, if_true, List.mem_singleton, MState.mk.injEq]
        exact ⟨hp, trivial, hc⟩
  | cat a b iha ihb =>
    simp only [Pat.run, List.mem_flatMap, iha, ihb]
    constructor
    · rintro ⟨m1, ⟨u, e, hu, ha, hp, hc⟩, ⟨v, e', hv, hb, hp', hc'⟩⟩
      exact ⟨u ++ v, e ++ e', by rw [hu, hv, List.append_assoc], .cat (by rw [← hv]; exact ha) (by rw [← hp]; exact hb),
        by rw [hp', hp, lastOf_append], by rw [hc', hc, setAll_append]⟩
    · rintro ⟨w, ev, hu, hs, hp, hc⟩
      cases hs with
      | @cat _ _ _ u v _ e e' ha hb =>
        exact ⟨⟨lastOf m.prev u, v ++ m'.rest, setAll m.caps e⟩, ⟨u, e, by rw [hu, List.append_assoc], ha, rfl, rfl⟩,
          ⟨v, e', rfl, hb, by rw [hp, lastOf_append], by rw [hc, setAll_append]⟩⟩
  | alt a b iha ihb =>
    simp only [Pat.run, List.mem_append, iha, ihb]
    constructor
    · rintro (⟨u, e, hu, ha, hr⟩ | ⟨u, e, hu, ha, hr⟩)
      · exact ⟨u, e, hu, .altL ha, hr⟩
      · exact ⟨u, e, hu, .altR ha, hr⟩
    · rintro ⟨u, e, hu, hs, hr⟩
      cases hs with
      | altL h => exact Or.inl ⟨u, e, hu, h, hr⟩
      | altR h => exact Or.inr ⟨u, e, hu, h, hr⟩
  | star g a ih => exact mem_repsOf ih g _ m m' (Nat.le_refl _)
  | plus g a ih =>
    simp only [Pat.run, List.mem_flatMap, ih]
    constructor
    · rintro ⟨m1, ⟨u, e, hu, ha, hp, hc⟩, h2⟩
      obtain ⟨v, e', hv, hb, hp', hc'⟩ := (mem_repsOf ih g _ m1 m' (Nat.le_refl _)).1 h2
      exact ⟨u ++ v, e ++ e', by rw [hu, hv, List.append_assoc], .plus (by rw [← hv]; exact ha) (by rw [← hp]; exact hb),
        by rw [hp', hp, lastOf_append], by rw [hc', hc, setAll_append]⟩
    · rintro ⟨w, ev, hu, hs, hp, hc⟩
      cases hs with
      | @plus _ _ _ u v _ e e' ha hb =>
        refine ⟨⟨lastOf m.prev u, v ++ m'.rest, setAll m.caps e⟩, ⟨u, e, by rw [hu, List.append_assoc], ha, rfl, rfl⟩, ?_⟩
        exact (mem_repsOf ih g _ _ m' (Nat.le_refl _)).2 ⟨v, e', rfl, hb, by rw [hp, lastOf_append], by rw [hc, setAll_append]⟩
  | opt g a ih =>
    have goal : (m' ∈ a.run m ∨ m' = m) ↔ After (.opt g a) m m' := by
      rw [ih]
      constructor
      · rintro (⟨u, e, hu, ha, hr⟩ | rfl)
        · exact ⟨u, e, hu, .opt ha, hr⟩
        · exact ⟨[], [], rfl, .optNil, rfl, rfl⟩
      · rintro ⟨u, e, hu, hs, hp, hc⟩
        cases hs with
        | optNil =>
          right
          obtain ⟨p1, r1, c1⟩ := m; obtain ⟨p2, r2, c2⟩ := m'
          simp only [List.nil_append] at hu
          simp only [lastOf_nil] at hp
          simp only [setAll, List.foldl_nil] at hc
          rw [hu, hp, hc]
        | opt h => exact Or.inl ⟨u, e, hu, h, hp, hc⟩
    rw [← goal]
    simp only [Pat.run]
    cases g
    · simp only [Bool.false_eq_true, if_false, List.mem_cons]; exact Or.comm
    · simp only [if_true, List.mem_append, List.mem_singleton]
  | group i a ih =>
    simp only [Pat.run, List.mem_map, ih]
    constructor
    · rintro ⟨m1, ⟨u, e, hu, ha, hp, hc⟩, rfl⟩
      refine ⟨u, e ++ [(i, u)], hu, .group ha, hp, ?_⟩
      rw [setAll_append, ← hc]
      simp [setAll, hu]
    · rintro ⟨u, ev, hu, hs, hp, hc⟩
      cases hs with
      | @group _ _ _ _ _ e ha =>
        refine ⟨⟨m'.prev, m'.rest, setAll m.caps e⟩, ⟨u, e, hu, ha, hp, rfl⟩, ?_⟩
        obtain ⟨p2, r2, c2⟩ := m'
        simp only [MState.mk.injEq, true_and] at hc hu ⊢
        rw [hc, setAll_append]
        simp [setAll, hu]
  | bol =>
    obtain ⟨p1, r1, c1⟩ := m; obtain ⟨p2, r2, c2⟩ := m'
    simp only [Pat.run]
    constructor
    · intro h
      split at h
      · rename_i hn
        subst hn
        simp only [List.mem_singleton, MState.mk.injEq] at h
        obtain ⟨rfl, rfl, rfl⟩ := h
        exact ⟨[], [], rfl, .bol, rfl, rfl⟩
      · simp at h
    · rintro ⟨u, ev, hu, hs, hp, hc⟩
      simp only at hu hs hp hc
      cases hs
      simp only [List.nil_append] at hu
      simp only [lastOf_nil] at hp
      simp only [setAll, List.foldl_nil] at hc
      subst hu; subst hp; subst hc
      simp
  | eol =>
    obtain ⟨p1, r1, c1⟩ := m; obtain ⟨p2, r2, c2⟩ := m'
    simp only [Pat.run]
    constructor
    · intro h
      split at h
      · rename_i hn
        simp only [List.mem_singleton, MState.mk.injEq] at h
        obtain ⟨rfl, rfl, rfl⟩ := h
        exact ⟨[], [], rfl, .eol hn, rfl, rfl⟩
      · simp at h
    · rintro ⟨u, ev, hu, hs, hp, hc⟩
      cases hs with
      | eol hn =>
        simp only [List.nil_append] at hu
        simp only [lastOf_nil] at hp
        simp only [setAll, List.foldl_nil] at hc
        subst hu; subst hp; subst hc
        simp [hn]
  | behind k =>
    obtain ⟨p1, r1, c1⟩ := m; obtain ⟨p2, r2, c2⟩ := m'
    constructor
    · intro h
      cases p1 with
      | none => simp [Pat.run] at h
      | some x =>
        simp only [Pat.run] at h
        split at h
        · rename_i hx
          simp only [List.mem_singleton, MState.mk.injEq] at h
          obtain ⟨rfl, rfl, rfl⟩ := h
          exact ⟨[], [], rfl, .behind hx, rfl, rfl⟩
        · simp at h
    · rintro ⟨u, ev, hu, hs, hp, hc⟩
      simp only at hu hs hp hc
      cases hs with
      | behind hx =>
        simp only [List.nil_append] at hu
        simp only [lastOf_nil] at hp
        simp only [setAll, List.foldl_nil] at hc
        subst hu; subst hp; subst hc
        simp [Pat.run, hx]

/-- Something matches here exactly if the engine finds something here. -/
theorem begins_iff (p : Pat) (prev : Option Nat) (s : Str) (c : GCaps) : Begins p prev s ↔ p.run ⟨prev, s, c⟩ ≠ [] := by
  constructor
  · rintro ⟨u, t, ev, rfl, h⟩
    have : (⟨lastOf prev u, t, setAll c ev⟩ : MState) ∈ p.run ⟨prev, u ++ t, c⟩ :=
      (mem_run_iff _ _ _).2 ⟨u, ev, rfl, h, rfl, rfl⟩
    intro h0
    rw [h0] at this
    simp at this
  · intro h
    obtain ⟨m', hm⟩ := List.exists_mem_of_ne_nil _ h
    obtain ⟨u, ev, hu, hs, _⟩ := (mem_run_iff _ _ _).1 hm
    exact ⟨u, m'.rest, ev, hu, hs⟩

/-- A pattern that is not `nullable` matches no empty text. -/
theorem nullable_sound {p : Pat} {prev : Option Nat} {u t : Str} {ev : List (Nat × Str)} (h : Matches p prev u t ev)
    (hp : p.nullable = false) : u ≠ [] := by
  induction h with
  | cat _ _ iha ihb =>
    simp only [Pat.nullable, Bool.and_eq_false_iff] at hp
    rcases hp with hp | hp
    · have := iha hp; simp [this]
    · have := ihb hp; simp [this]
  | chr _ => simp
  | altL _ ih => simp only [Pat.nullable, Bool.or_eq_false_iff] at hp; exact ih hp.1
  | altR _ ih => simp only [Pat.nullable, Bool.or_eq_false_iff] at hp; exact ih hp.2
  | plus _ _ iha _ => have := iha (by simpa [Pat.nullable] using hp); simp [this]
  | group _ ih => exact ih (by simpa [Pat.nullable] using hp)
  | _ => simp [Pat.nullable] at hp

end Cjk
