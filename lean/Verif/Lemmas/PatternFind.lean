import Verif.Lemmas.PatternLang
/-!
# `match` and `finditer` in terms of what the pattern describes
-/

namespace Cjk
open Py Spec

theorem matchAt_none {r : Compiled} {i : Nat} {prev : Option Nat} {s : Str} :
    r.matchAt i prev s = none ↔ ¬ Begins r.pat prev s := by
  rw [begins_iff r.pat prev s []]
  simp only [Compiled.matchAt, Option.map_eq_none_iff, List.head?_eq_none_iff, ne_eq, Classical.not_not]

theorem matchAt_some {r : Compiled} {i : Nat} {prev : Option Nat} {s : Str} {m : MatchObj} {st : MState}
    (h : r.matchAt i prev s = some (m, st)) :
    ∃ ev, s = m.text ++ st.rest ∧ Matches r.pat prev m.text st.rest ev ∧ m.start = i ∧ st.prev = lastOf prev m.text ∧
      m.group = groupText ev := by
  simp only [Compiled.matchAt, Option.map_eq_some_iff, Prod.mk.injEq] at h
  obtain ⟨m0, h0, h1, rfl⟩ := h
  obtain ⟨u, ev, hu, hm, hp, hc⟩ := (mem_run_iff _ _ _).1 (List.mem_of_mem_head? (by rw [h0]; rfl))
  simp only at hu hm hp hc
  have hl : s.length - m0.rest.length = u.length := by rw [hu]; simp
  have ht : m.text = u := by rw [← h1]; show s.take _ = u; rw [hl, hu]; simp
  refine ⟨ev, by rw [ht]; exact hu, by rw [ht]; exact hm, by rw [← h1], by rw [ht]; exact hp, ?_⟩
  funext j
  rw [← h1]
  show Dict.get? m0.caps j = _
  rw [hc, get?_setAll]
  cases groupText ev j <;> rfl

theorem begins'_false {p : Pat} {prev : Option Nat} {s : Str} : Begins' p false prev s ↔ Begins p prev s := by
  simp [Begins', Begins]

theorem begins'_true {p : Pat} {prev : Option Nat} {s : Str} (h : Begins' p true prev s) : Begins p prev s := by
  obtain ⟨u, t, ev, h1, h2, _⟩ := h
  exact ⟨u, t, ev, h1, h2⟩

theorem matchMore_none {r : Compiled} {i : Nat} {prev : Option Nat} {s : Str} (h : r.matchMore i prev s = none) :
    ¬ Begins' r.pat true prev s := by
  rintro ⟨u, t, ev, rfl, hm, hne⟩
  simp only [Compiled.matchMore, Option.map_eq_none_iff, List.find?_eq_none, decide_eq_true_eq, Nat.not_lt] at h
  have hmem : (⟨lastOf prev u, t, setAll [] ev⟩ : MState) ∈ r.pat.run ⟨prev, u ++ t, []⟩ := (mem_run_iff _ _ _).2 ⟨u, ev, rfl, hm, rfl, rfl⟩
  have := h _ hmem
  have := List.length_pos_iff.2 (hne rfl)
  simp at *
  omega

theorem matchMore_some {r : Compiled} {i : Nat} {prev : Option Nat} {s : Str} {m : MatchObj} {st : MState}
    (h : r.matchMore i prev s = some (m, st)) :
    ∃ ev, s = m.text ++ st.rest ∧ Matches r.pat prev m.text st.rest ev ∧ m.text ≠ [] ∧ m.start = i ∧ st.prev = lastOf prev m.text ∧
      m.group = groupText ev := by
  simp only [Compiled.matchMore, Option.map_eq_some_iff, Prod.mk.injEq] at h
  obtain ⟨m0, h0, h1, rfl⟩ := h
  obtain ⟨u, ev, hu, hm, hp, hc⟩ := (mem_run_iff _ _ _).1 (List.mem_of_find?_eq_some h0)
  have hlt : m0.rest.length < s.length := by simpa using List.find?_some h0
  simp only at hu hm hp hc
  have hl : s.length - m0.rest.length = u.length := by rw [hu]; simp
  have ht : m.text = u := by rw [← h1]; show s.take _ = u; rw [hl, hu]; simp
  refine ⟨ev, by rw [ht]; exact hu, by rw [ht]; exact hm, ?_, by rw [← h1], by rw [ht]; exact hp, ?_⟩
  · rw [ht]
    rintro rfl
    rw [hu] at hlt
    simp at hlt
  · funext j
    rw [← h1]
    show Dict.get? m0.caps j = _
    rw [hc, get?_setAll]
    cases groupText ev j <;> rfl

/-- If no match begins at a position, the listing from the next position is the listing from this one. -/
theorem occurrences_step {p : Pat} {after : Bool} {prev : Option Nat} {x : Nat} {s : Str} {occ : List (Str × List (Nat × Str))}
    (h0 : ¬ Begins' p after prev (x :: s)) (h : Occurrences p false (some x) s occ) : Occurrences p after prev (x :: s) occ := by
  cases h with
  | nil hn =>
    refine .nil ?_
    intro u t hs
    cases u with
    | nil => simp only [List.nil_append] at hs; rw [← hs]; simpa [lastOf] using h0
    | cons y u =>
      simp only [List.cons_append, List.cons.injEq] at hs
      obtain ⟨rfl, hs⟩ := hs
      rw [lastOf_cons]
      simpa using hn u t hs
  | @cons _ _ u v w ev rest hn hm hv hr =>
    have : x :: (u ++ (v ++ w)) = (x :: u) ++ (v ++ w) := rfl
    rw [this]
    refine .cons ?_ (by rw [lastOf_cons]; exact hm) (by simp) (by rw [List.cons_append, lastOf_cons]; exact hr)
    intro u1 u2 hu hne
    cases u1 with
    | nil => simp only [List.nil_append] at hu; rw [← hu]; simpa [lastOf] using h0
    | cons y u1 =>
      simp only [List.cons_append, List.cons.injEq] at hu
      obtain ⟨rfl, hu⟩ := hu
      rw [lastOf_cons]
      simpa using hn u1 u2 hu hne

/-- A match at the front is the first of the listing. -/
theorem occurrences_front {p : Pat} {after : Bool} {prev : Option Nat} {v w : Str} {ev : List (Nat × Str)} {occ : List (Str × List (Nat × Str))}
    (hm : Matches p prev v w ev) (hv : after = true → v ≠ []) (hr : Occurrences p v.isEmpty (lastOf prev v) w occ) :
    Occurrences p after prev (v ++ w) ((v, ev) :: occ) := by
  have : v ++ w = [] ++ (v ++ w) := rfl
  rw [this]
  refine .cons ?_ (by simpa [lastOf] using hm) (by simpa using hv) (by simpa using hr)
  intro u1 u2 hu hne2
  have : u1 = [] ∧ u2 = [] := by simpa using hu.symm
  exact absurd this.2 hne2

theorem occurrences_end {p : Pat} {after : Bool} {prev : Option Nat} (h : ¬ Begins' p after prev []) : Occurrences p after prev [] [] := by
  refine .nil ?_
  intro u t hs
  have : u = [] ∧ t = [] := by simpa using hs.symm
  rw [this.1, this.2]
  simpa [lastOf] using h

theorem finditerAux_occ {r : Compiled} (fuel i : Nat) (prev : Option Nat) (s : Str)
    (hf : s.length < fuel) : ∃ occ, Occurrences r.pat false prev s occ ∧
      (r.finditerAux fuel i prev s).map (fun m => (m.text, m.group)) = occ.map (fun o => (o.1, groupText o.2)) := by
  induction fuel generalizing i prev s with
  | zero => omega
  | succ fuel ih =>
    simp only [Compiled.finditerAux]
    cases hm : r.matchAt i prev s with
    | none =>
      have h0 := matchAt_none.1 hm
      rw [← begins'_false] at h0
      cases s with
      | nil => exact ⟨[], occurrences_end h0, rfl⟩
      | cons x s =>
        obtain ⟨occ, ho, he⟩ := ih (i + 1) (some x) s (by simp at hf; omega)
        exact ⟨occ, occurrences_step h0 ho, he⟩
    | some q =>
      obtain ⟨m, st⟩ := q
      obtain ⟨ev, hs, hmt, hst, hp, hg⟩ := matchAt_some hm
      by_cases hlt : st.rest.length < s.length
      · have hne : m.text ≠ [] := by
          intro h
          rw [hs, h] at hlt
          simp at hlt
        simp only [hlt, if_true]
        obtain ⟨occ, ho, he⟩ := ih (i + (s.length - st.rest.length)) st.prev st.rest (by omega)
        refine ⟨(m.text, ev) :: occ, ?_, by rw [List.map_cons, List.map_cons, he, hg]⟩
        rw [hs]
        refine occurrences_front hmt (by simp) ?_
        have : m.text.isEmpty = false := by simpa using hne
        rw [this]
        rw [hp] at ho
        exact ho
      · have he0 : m.text = [] := by
          cases h : m.text with
          | nil => rfl
          | cons a b => rw [hs, h] at hlt; simp at hlt; omega
        rw [he0] at hs hmt
        simp only [List.nil_append] at hs
        simp only [hlt, if_false]
        have fin : ∀ ms : List MatchObj, (∃ occ, Occurrences r.pat true prev s occ ∧
            ms.map (fun m => (m.text, m.group)) = occ.map (fun o => (o.1, groupText o.2))) →
            ∃ occ, Occurrences r.pat false prev s occ ∧
              (m :: ms).map (fun m => (m.text, m.group)) = occ.map (fun o => (o.1, groupText o.2)) := by
          rintro ms ⟨occ, ho, he⟩
          refine ⟨([], ev) :: occ, ?_, by rw [List.map_cons, List.map_cons, he, hg, he0]⟩
          have := occurrences_front (after := false) hmt (by simp) (occ := occ)
          simp only [List.nil_append, List.isEmpty_nil] at this
          rw [← hs] at this
          exact this (by simpa [lastOf] using ho)
        apply fin
        cases hmm : r.matchMore i prev s with
        | some q =>
          obtain ⟨m', st'⟩ := q
          obtain ⟨ev', hs', hmt', hne', _, hp', hg'⟩ := matchMore_some hmm
          have hlt' : st'.rest.length < s.length := by
            have := List.length_pos_iff.2 hne'
            rw [hs']; simp; omega
          obtain ⟨occ, ho, he⟩ := ih (i + (s.length - st'.rest.length)) st'.prev st'.rest (by omega)
          refine ⟨(m'.text, ev') :: occ, ?_, by simp only [List.map_cons, he, hg']⟩
          rw [hs']
          refine occurrences_front hmt' (fun _ => hne') ?_
          have : m'.text.isEmpty = false := by simpa using hne'
          rw [this]
          rw [hp'] at ho
          exact ho
        | none =>
          have h0 := matchMore_none hmm
          cases s with
          | nil => exact ⟨[], occurrences_end h0, rfl⟩
          | cons x s =>
            obtain ⟨occ, ho, he⟩ := ih (i + 1) (some x) s (by simp at hf; omega)
            exact ⟨occ, occurrences_step h0 ho, he⟩

theorem finditer_occ {r : Compiled} (s : Str) : ∃ occ, Occurrences r.pat false none s occ ∧
    (r.finditer s).map (fun m => (m.text, m.group)) = occ.map (fun o => (o.1, groupText o.2)) :=
  finditerAux_occ _ _ _ _ (Nat.lt_succ_self _)

theorem pyMatch_none {r : Compiled} {s : Str} : r.pyMatch s = none ↔ ¬ Begins r.pat none s := by
  rw [← matchAt_none (i := 0)]
  simp [Compiled.pyMatch]

theorem pyMatch_some {r : Compiled} {s : Str} {m : MatchObj} (h : r.pyMatch s = some m) :
    ∃ t ev, s = m.text ++ t ∧ Matches r.pat none m.text t ev ∧ m.group = groupText ev := by
  simp only [Compiled.pyMatch, Option.map_eq_some_iff] at h
  obtain ⟨⟨m', st⟩, h0, rfl⟩ := h
  obtain ⟨ev, h1, h2, _, _, h5⟩ := matchAt_some h0
  exact ⟨st.rest, ev, h1, h2, h5⟩

/-- Nothing is listed exactly if nothing matches anywhere. -/
theorem occurrences_nil_iff {p : Pat} {prev : Option Nat} {s : Str} {occ : List (Str × List (Nat × Str))}
    (h : Occurrences p false prev s occ) : occ = [] ↔ ∀ u t, s = u ++ t → ¬ Begins p (lastOf prev u) t := by
  cases h with
  | nil h =>
    refine ⟨fun _ u t hs => ?_, fun _ => rfl⟩
    have := h u t hs
    rwa [Bool.false_and, begins'_false] at this
  | @cons _ _ u v w ev rest _ hm _ _ =>
    constructor
    · intro h; cases h
    · intro h; exact absurd ⟨v, w, ev, rfl, hm⟩ (h u (v ++ w) rfl)

end Cjk
