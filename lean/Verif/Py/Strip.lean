import Verif.Py.Base
/-!
# Facts about `strip`
-/

namespace Py

theorem lstrip_of_head {s : Str} (h : ∀ c, s.head? = some c → isSpace c = false) : lstrip s = s := by
  cases s with
  | nil => rfl
  | cons c s => simp [lstrip, h c rfl]

theorem rstrip_of_last {s : Str} (h : ∀ c, s.getLast? = some c → isSpace c = false) : rstrip s = s := by
  unfold rstrip
  have : s.reverse.dropWhile isSpace = s.reverse := by
    rcases hs : s.reverse with _ | ⟨c, t⟩
    · rfl
    · have : s.getLast? = some c := by rw [List.getLast?_eq_head?_reverse, hs]; rfl
      simp [h c this]
  rw [this, List.reverse_reverse]

theorem rstrip_append {s t : Str} (h : ∀ c ∈ t, isSpace c = true) : rstrip (s ++ t) = rstrip s := by
  unfold rstrip
  rw [List.reverse_append, List.dropWhile_append_of_pos (by simpa using h)]

theorem strip_of_ends {s : Str} (h1 : ∀ c, s.head? = some c → isSpace c = false)
    (h2 : ∀ c, s.getLast? = some c → isSpace c = false) : strip s = s := by
  unfold strip; rw [lstrip_of_head h1, rstrip_of_last h2]

/-- Trailing whitespace is removed, and nothing else if the rest begins and ends otherwise. -/
theorem strip_append {s t : Str} (hs : s ≠ []) (h1 : ∀ c, s.head? = some c → isSpace c = false)
    (h2 : ∀ c, s.getLast? = some c → isSpace c = false) (ht : ∀ c ∈ t, isSpace c = true) : strip (s ++ t) = s := by
  unfold strip
  rw [lstrip_of_head, rstrip_append ht, rstrip_of_last h2]
  intro c hc
  cases s with
  | nil => exact absurd rfl hs
  | cons x s => exact h1 c hc

theorem strip_of_no_space {s : Str} (h : ∀ c ∈ s, isSpace c = false) : strip s = s :=
  strip_of_ends (fun c hc => h c (List.mem_of_head? hc)) (fun c hc => h c (List.mem_of_getLast? hc))

theorem mem_strip {s : Str} {c : Nat} (h : c ∈ strip s) : c ∈ s := by
  unfold strip rstrip at h
  rw [List.mem_reverse] at h
  have := (List.dropWhile_sublist _).subset h
  rw [List.mem_reverse] at this
  exact (List.dropWhile_sublist _).subset this

theorem lstrip_append_space {s t : Str} (h : ∀ c ∈ s, isSpace c = true) : lstrip (s ++ t) = lstrip t := by
  unfold lstrip; exact List.dropWhile_append_of_pos h

/-- What `lstrip` leaves begins with a non-whitespace character. -/
theorem lstrip_head (s : Str) (c : Nat) (h : (lstrip s).head? = some c) : isSpace c = false := by
  unfold lstrip at h
  induction s with
  | nil => simp at h
  | cons x s ih =>
    rw [List.dropWhile_cons] at h
    split at h
    · exact ih h
    · rename_i hx
      simp only [List.head?_cons, Option.some.injEq] at h
      subst h; simpa using hx

theorem lstrip_decomp (s : Str) : ∃ u, s = u ++ lstrip s ∧ ∀ c ∈ u, isSpace c = true := by
  refine ⟨s.takeWhile isSpace, ?_, ?_⟩
  · unfold lstrip; exact (List.takeWhile_append_dropWhile).symm
  · intro c hc; exact List.all_eq_true.1 List.all_takeWhile c hc

theorem rstrip_decomp (s : Str) : ∃ u, s = rstrip s ++ u ∧ ∀ c ∈ u, isSpace c = true := by
  obtain ⟨u, h1, h2⟩ := lstrip_decomp s.reverse
  refine ⟨u.reverse, ?_, by simpa using h2⟩
  have := congrArg List.reverse h1
  rw [List.reverse_reverse, List.reverse_append] at this
  exact this

theorem rstrip_last (s : Str) (c : Nat) (h : (rstrip s).getLast? = some c) : isSpace c = false := by
  unfold rstrip at h
  rw [List.getLast?_reverse] at h
  exact lstrip_head _ _ h

theorem splitWsAux_spaces (cur : Str) {t : Str} (h : ∀ c ∈ t, isSpace c = true) : splitWsAux cur t = splitWsAux cur [] := by
  induction t generalizing cur with
  | nil => rfl
  | cons x t ih =>
    have hx := h x (by simp)
    have ht : ∀ c ∈ t, isSpace c = true := fun c hc => h c (by simp [hc])
    simp only [splitWsAux, hx, if_true, ih [] ht]
    rfl

theorem splitWsAux_append_spaces (cur s : Str) {t : Str} (h : ∀ c ∈ t, isSpace c = true) :
    splitWsAux cur (s ++ t) = splitWsAux cur s := by
  induction s generalizing cur with
  | nil => exact splitWsAux_spaces cur h
  | cons x s ih => simp only [List.cons_append, splitWsAux, ih]

theorem splitWs_rstrip (s : Str) : splitWs (rstrip s) = splitWs s := by
  obtain ⟨u, h1, h2⟩ := rstrip_decomp s
  conv => rhs; rw [h1]
  exact (splitWsAux_append_spaces [] _ h2).symm

theorem lstrip_append_of_ne {s : Str} (t : Str) (h : lstrip s ≠ []) : lstrip (s ++ t) = lstrip s ++ t := by
  induction s with
  | nil => exact absurd rfl h
  | cons x s ih =>
    unfold lstrip at *
    rw [List.cons_append, List.dropWhile_cons, List.dropWhile_cons]
    rw [List.dropWhile_cons] at h
    split
    · rename_i hx; rw [if_pos hx] at h; exact ih h
    · rfl

theorem lstrip_eq_nil {s : Str} (h : lstrip s = []) : ∀ c ∈ s, isSpace c = true := by
  obtain ⟨u, h1, h2⟩ := lstrip_decomp s
  rw [h, List.append_nil] at h1
  rwa [h1]

theorem strip_rstrip (s : Str) : strip (rstrip s) = strip s := by
  obtain ⟨u, h1, h2⟩ := rstrip_decomp s
  conv => rhs; rw [h1]
  unfold strip
  by_cases h : lstrip (rstrip s) = []
  · have := lstrip_eq_nil h
    have e : lstrip (rstrip s ++ u) = [] := by
      rw [lstrip_append_space this]
      have := lstrip_append_space (t := []) h2
      rw [List.append_nil] at this
      exact this
    rw [h, e]
  · rw [lstrip_append_of_ne u h, rstrip_append h2]

/-- The first character survives `rstrip` if it is not whitespace, and none is made up. -/
theorem rstrip_head (s : Str) {c : Nat} (hc : isSpace c = false) : (rstrip s).head? = some c ↔ s.head? = some c := by
  obtain ⟨u, h1, h2⟩ := rstrip_decomp s
  constructor
  · intro h
    rw [h1]
    cases hr : rstrip s with
    | nil => rw [hr] at h; cases h
    | cons x t => rw [hr] at h; exact h
  · intro h
    cases hr : rstrip s with
    | nil =>
      rw [hr, List.nil_append] at h1
      rw [h1] at h
      have := h2 c (List.mem_of_head? h)
      rw [hc] at this; cases this
    | cons x t =>
      rw [h1, hr] at h; exact h

theorem splitWsAux_word (cur u t : Str) (h : ∀ c ∈ u, isSpace c = false) :
    splitWsAux cur (u ++ t) = splitWsAux (u.reverse ++ cur) t := by
  induction u generalizing cur with
  | nil => rfl
  | cons x u ih =>
    have hx := h x (by simp)
    simp only [List.cons_append, splitWsAux, hx, Bool.false_eq_true, if_false]
    rw [ih _ (fun c hc => h c (by simp [hc]))]
    simp

/-- A word: not empty, no whitespace. -/
def Word (s : Str) : Prop := s ≠ [] ∧ ∀ c ∈ s, isSpace c = false
instance (s : Str) : Decidable (Word s) := by unfold Word; infer_instance

/-- Words joined by single spaces are split again. -/
theorem splitWs_join (ws : List Str) (h : ∀ w ∈ ws, Word w) : splitWs (join [0x20] ws) = ws := by
  have hsp : isSpace 0x20 = true := by decide
  unfold splitWs
  induction ws with
  | nil => rfl
  | cons w ws ih =>
    obtain ⟨hne, hw⟩ := h w (by simp)
    have hr : w.reverse.isEmpty = false := by simpa using hne
    cases ws with
    | nil =>
      have := splitWsAux_word [] w [] hw
      rw [List.append_nil, List.append_nil] at this
      simp only [join, this, splitWsAux, hr, Bool.false_eq_true, if_false, List.reverse_reverse]
    | cons v ws =>
      simp only [join, List.append_assoc, splitWsAux_word [] w _ hw, List.append_nil, List.singleton_append, splitWsAux,
        hsp, if_true, hr, Bool.false_eq_true, if_false, List.reverse_reverse]
      rw [ih (fun x hx => h x (by simp [hx]))]

end Py
