import Verif.Py.Base
/-!
# Facts about `str.split(sep)` and `sep.join`
-/

namespace Py

theorem splitChr_ne_nil (sep : Chr) (s : Str) : splitChr sep s ≠ [] := by
  cases s with
  | nil => simp [splitChr]
  | cons c s =>
    simp only [splitChr]
    split
    · simp
    · split <;> simp

theorem splitChr_cons_ne (sep : Chr) {c : Chr} (h : c ≠ sep) (s : Str) :
    ∃ p ps, splitChr sep s = p :: ps ∧ splitChr sep (c :: s) = (c :: p) :: ps := by
  cases hs : splitChr sep s with
  | nil => exact absurd hs (splitChr_ne_nil sep s)
  | cons p ps => exact ⟨p, ps, rfl, by simp only [splitChr, if_neg h, hs]⟩

theorem splitChr_append_sep (sep : Chr) (a b : Str) :
    splitChr sep (a ++ sep :: b) = splitChr sep a ++ splitChr sep b := by
  induction a with
  | nil => simp [splitChr]
  | cons c a ih =>
    by_cases h : c = sep
    · subst h; simp only [List.cons_append, splitChr, if_true, ih]
    · obtain ⟨p, ps, h1, h2⟩ := splitChr_cons_ne sep h a
      obtain ⟨q, qs, h3, h4⟩ := splitChr_cons_ne sep h (a ++ sep :: b)
      rw [List.cons_append, h4, h2]
      rw [ih, h1, List.cons_append, List.cons.injEq] at h3
      rw [h3.1, ← h3.2]; rfl

theorem splitChr_of_not_mem {sep : Chr} {a : Str} (h : sep ∉ a) : splitChr sep a = [a] := by
  induction a with
  | nil => rfl
  | cons c a ih =>
    have hc : c ≠ sep := by rintro rfl; exact h (by simp)
    have := ih (fun hm => h (by simp [hm]))
    simp only [splitChr, if_neg hc, this]

theorem join_cons_cons (sep p q : Str) (ps : List Str) : join sep (p :: q :: ps) = p ++ sep ++ join sep (q :: ps) := rfl

theorem join_append (sep : Str) (a b : List Str) (ha : a ≠ []) (hb : b ≠ []) :
    join sep (a ++ b) = join sep a ++ sep ++ join sep b := by
  induction a with
  | nil => exact absurd rfl ha
  | cons p a ih =>
    cases a with
    | nil =>
      cases b with
      | nil => exact absurd rfl hb
      | cons q b => rfl
    | cons p' a =>
      have := ih (by simp)
      simp only [List.cons_append, join_cons_cons] at *
      rw [this]; simp

theorem join_splitChr (sep : Chr) (s : Str) : join [sep] (splitChr sep s) = s := by
  induction s with
  | nil => rfl
  | cons c s ih =>
    by_cases h : c = sep
    · subst h
      simp only [splitChr, if_true]
      cases hs : splitChr c s with
      | nil => exact absurd hs (splitChr_ne_nil c s)
      | cons p ps => rw [join_cons_cons, ← hs, ih]; rfl
    · obtain ⟨p, ps, h1, h2⟩ := splitChr_cons_ne sep h s
      rw [h2]
      rw [h1] at ih
      cases ps with
      | nil => simp only [join] at *; rw [ih]
      | cons q ps => rw [join_cons_cons] at *; simp only [List.cons_append]; rw [ih]

theorem splitChr_join (sep : Chr) (parts : List Str) (hne : parts ≠ []) (h : ∀ p ∈ parts, sep ∉ p) :
    splitChr sep (join [sep] parts) = parts := by
  induction parts with
  | nil => exact absurd rfl hne
  | cons p ps ih =>
    cases ps with
    | nil => exact splitChr_of_not_mem (h p (by simp))
    | cons q ps =>
      rw [join_cons_cons, List.append_assoc, List.singleton_append, splitChr_append_sep,
        splitChr_of_not_mem (h p (by simp)), ih (by simp) (fun x hx => h x (by simp [hx]))]
      rfl

theorem not_mem_of_mem_splitChr {sep : Chr} {s p : Str} (h : p ∈ splitChr sep s) : sep ∉ p := by
  induction s generalizing p with
  | nil => simp [splitChr] at h; subst h; simp
  | cons c s ih =>
    by_cases hc : c = sep
    · subst hc
      simp only [splitChr, if_true, List.mem_cons] at h
      rcases h with rfl | h
      · simp
      · exact ih h
    · obtain ⟨q, qs, h1, h2⟩ := splitChr_cons_ne sep hc s
      rw [h2, List.mem_cons] at h
      rcases h with rfl | h
      · intro hm
        rcases List.mem_cons.1 hm with hm | hm
        · exact hc hm.symm
        · exact ih (by rw [h1]; simp) hm
      · exact ih (by rw [h1]; simp [h])

/-- The parts that `split(sep)` gives. -/
theorem mem_splitChr (sep : Chr) (g p : Str) :
    p ∈ splitChr sep g ↔ sep ∉ p ∧ ∃ pre post, g = pre ++ p ++ post ∧
      (pre = [] ∨ pre.getLast? = some sep) ∧ (post = [] ∨ post.head? = some sep) := by
  constructor
  · intro h
    refine ⟨not_mem_of_mem_splitChr h, ?_⟩
    obtain ⟨l1, l2, hl⟩ := List.append_of_mem h
    have hg := join_splitChr sep g
    rw [hl] at hg
    refine ⟨if l1 = [] then [] else join [sep] l1 ++ [sep], if l2 = [] then [] else sep :: join [sep] l2, ?_, ?_, ?_⟩
    · by_cases h1 : l1 = []
      · by_cases h2 : l2 = []
        · subst h1; subst h2; simpa [join] using hg.symm
        · subst h1
          obtain ⟨q, qs, rfl⟩ := List.exists_cons_of_ne_nil h2
          rw [← hg]; simp [join_cons_cons]
      · rw [join_append _ _ _ h1 (by simp)] at hg
        by_cases h2 : l2 = []
        · subst h2
          rw [← hg]; simp [h1, join]
        · obtain ⟨q, qs, rfl⟩ := List.exists_cons_of_ne_nil h2
          rw [← hg]; simp [h1, join_cons_cons]
    · by_cases h1 : l1 = []
      · simp [h1]
      · simp [h1]
    · by_cases h2 : l2 = []
      · simp [h2]
      · simp [h2]
  · rintro ⟨hp, pre, post, rfl, hpre, hpost⟩
    have hmid : p ∈ splitChr sep (p ++ post) := by
      rcases hpost with rfl | hpost
      · rw [List.append_nil, splitChr_of_not_mem hp]; simp
      · obtain ⟨t, rfl⟩ : ∃ t, post = sep :: t := by
          cases post with
          | nil => cases hpost
          | cons a t => cases hpost; exact ⟨t, rfl⟩
        rw [splitChr_append_sep, splitChr_of_not_mem hp]; simp
    rcases hpre with rfl | hpre
    · simpa using hmid
    · obtain ⟨t, rfl⟩ : ∃ t, pre = t ++ [sep] := by
        obtain ⟨t, ht⟩ := List.getLast?_eq_some_iff.1 hpre
        exact ⟨t, ht⟩
      have : t ++ [sep] ++ p ++ post = t ++ sep :: (p ++ post) := by simp
      rw [this, splitChr_append_sep, List.mem_append]
      exact Or.inr hmid

end Py
