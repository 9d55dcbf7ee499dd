import Verif.Props.LongVowels
/-!
# C171: expanding again
-/

namespace Cjk
open Py
open Spec (longMark IsKana Lengthens Expands iterationMark)

/-- **C171** (repeated kanji).  The result of `insert_duplicate_kanji` does not change when it is expanded again. -/
theorem C171_kanji (s t : Str) (n m : Nat) (h : insertDuplicateLoop n s = some t) : insertDuplicateLoop (m + 1) t = some t := by
  have : ∀ n s, insertDuplicateLoop n s = some t → insertDuplicateLoop (m + 1) t = some t := by
    intro n
    induction n with
    | zero => intro s h; cases h
    | succ n ih =>
      intro s h
      unfold insertDuplicateLoop at h
      split at h
      · rename_i hf
        cases h
        unfold insertDuplicateLoop
        rw [hf]
      · rename_i hf
        cases h
        unfold insertDuplicateLoop
        rw [hf]
      · exact ih _ h
  exact this n s h

theorem kana_range {p : Chr} (h : IsKana p) : p < 0x3100 ∧ p ≠ longMark := by
  have key : (0x3041 ≤ p ∧ p ≤ 0x3096) ∨ (0x30a1 ≤ p ∧ p ≤ 0x30f6) := h
  unfold Spec.longMark
  omega

theorem expands_kana {p : Chr} (h : IsKana p) (d : Chr) : Expands (some p) longMark d ↔ Lengthens p d := by
  constructor
  · rintro (⟨_, q, hq, _, hl⟩ | ⟨hn, _⟩)
    · cases hq; exact hl
    · exact absurd ⟨rfl, p, rfl, h⟩ hn
  · intro hl
    exact Or.inl ⟨rfl, p, rfl, h, hl⟩

theorem lengthens_kana {p d : Chr} (h : Lengthens p d) : IsKana p := by
  rcases h with ⟨h, _⟩ | ⟨h, _⟩
  · exact Or.inl h
  · exact Or.inr h

theorem lengthens_vowel {p d : Chr} (h : Lengthens p d) : IsKana d ∧ Lengthens d d := by
  have hp := lengthens_kana h
  have hg := (gstep_ok_iff (some p) longMark d).2 ((expands_kana hp d).2 h)
  have key : ∀ k < 0xbf, IsKana (0x3041 + k) → ∀ d ∈ (gstep (some (0x3041 + k)) longMark).toOption.toList,
      IsKana d ∧ gstep (some d) longMark = .ok d := by
    decide +kernel
  obtain ⟨hr, _⟩ := kana_range hp
  have hlow : 0x3041 ≤ p := by
    have key : (0x3041 ≤ p ∧ p ≤ 0x3096) ∨ (0x30a1 ≤ p ∧ p ≤ 0x30f6) := hp
    omega
  obtain ⟨k, rfl⟩ := Nat.exists_eq_add_of_le hlow
  obtain ⟨h1, h2⟩ := key k (by omega) hp d (by simp [hg, Except.toOption])
  exact ⟨h1, (expands_kana h1 d).1 ((gstep_ok_iff _ _ _).1 h2)⟩

theorem lengthens_unique {p d e : Chr} (h : Lengthens p d) (h' : Lengthens p e) : d = e := by
  have hp := lengthens_kana h
  have h1 := (gstep_ok_iff (some p) longMark d).2 ((expands_kana hp d).2 h)
  have h2 := (gstep_ok_iff (some p) longMark e).2 ((expands_kana hp e).2 h')
  rw [h1] at h2
  exact Except.ok.inj h2

/-- The mark at position `i` belongs to a row of marks that stands directly behind the kana `p` at position `j`. -/
def Spec.Base (s : Str) (i j : Nat) (p : Chr) : Prop :=
  j < i ∧ s[j]? = some p ∧ IsKana p ∧ ∀ k : Nat, j < k → k ≤ i → s[k]? = some longMark

/-- The text `t` is `s` with the first `k` marks of each row replaced by the vowel of the kana before the row. -/
def Spec.Passed (s : Str) (k : Nat) (t : Str) : Prop :=
  t.length = s.length ∧ ∀ (i : Nat) (c : Chr), s[i]? = some c → ∃ d, t[i]? = some d ∧
    ((∃ j p, Spec.Base s i j p ∧ i ≤ j + k ∧ Lengthens p d) ∨ ((∀ j p, Spec.Base s i j p → j + k < i) ∧ d = c))

/-- The text `t` is `s` with all marks replaced that belong to a row behind a kana. -/
def Spec.FullyExpanded (s t : Str) : Prop :=
  t.length = s.length ∧ ∀ (i : Nat) (c : Chr), s[i]? = some c → ∃ d, t[i]? = some d ∧
    ((∃ j p, Spec.Base s i j p ∧ Lengthens p d) ∨ ((∀ j p, ¬ Spec.Base s i j p) ∧ d = c))

theorem base_mark {s : Str} {i j : Nat} {p : Chr} (h : Spec.Base s i j p) : s[i]? = some longMark := h.2.2.2 i h.1 (Nat.le_refl _)

theorem base_unique {s : Str} {i j j' : Nat} {p p' : Chr} (h : Spec.Base s i j p) (h' : Spec.Base s i j' p') : j = j' ∧ p = p' := by
  have hj : j = j' := by
    rcases Nat.lt_trichotomy j j' with hl | hl | hl
    · have := h.2.2.2 j' hl (Nat.le_of_lt h'.1)
      rw [h'.2.1] at this
      exact absurd (Option.some.inj this) (kana_range h'.2.2.1).2
    · exact hl
    · have := h'.2.2.2 j hl (Nat.le_of_lt h.1)
      rw [h.2.1] at this
      exact absurd (Option.some.inj this) (kana_range h.2.2.1).2
  subst hj
  refine ⟨rfl, ?_⟩
  have := h.2.1
  rw [h'.2.1] at this
  exact (Option.some.inj this).symm

theorem passed_zero (s : Str) : Spec.Passed s 0 s := by
  refine ⟨rfl, fun i c hc => ⟨c, hc, Or.inr ⟨fun j p hb => by simpa using hb.1, rfl⟩⟩⟩

theorem lengthens_not_mark {p d : Chr} (h : Lengthens p d) : d ≠ longMark := (kana_range (lengthens_vowel h).1).2

theorem get_of_get {s t : Str} (h : t.length = s.length) {i : Nat} {d : Chr} (ht : t[i]? = some d) : ∃ c, s[i]? = some c := by
  obtain ⟨hi, _⟩ := List.getElem?_eq_some_iff.1 ht
  exact ⟨s[i]'(by omega), by simp [List.getElem?_eq_getElem (show i < s.length by omega)]⟩

theorem passed_step {s t : Str} {k : Nat} (hl : ∀ i j p, Spec.Base s i j p → ∃ v, Lengthens p v) (h : Spec.Passed s k t) :
    ∃ u, expandLongVowels t = .ok u ∧ Spec.Passed s (k + 1) u := by
  cases hu : expandLongVowels t with
  | error e =>
    exfalso
    obtain ⟨_, i, q, h1, h2, h3, h4⟩ := (C21_expand_long_vowels_fails t e).1 hu
    obtain ⟨c, hc⟩ := get_of_get h.1 h1
    obtain ⟨c', hc'⟩ := get_of_get h.1 h2
    obtain ⟨d, hd, hd2⟩ := h.2 _ _ hc
    obtain ⟨d', hd', hd2'⟩ := h.2 _ _ hc'
    rw [h1] at hd; cases hd
    rw [h2] at hd'; cases hd'
    rcases hd2' with ⟨j, p, _, _, hlen⟩ | ⟨_, rfl⟩
    · exact lengthens_not_mark hlen rfl
    · rcases hd2 with ⟨j, p, _, _, hlen⟩ | ⟨_, rfl⟩
      · exact h4 q (lengthens_vowel hlen).2
      · obtain ⟨v, hv⟩ := hl (i + 1) i q ⟨by omega, hc, h3, fun k h1 h2 => by
          have : k = i + 1 := by omega
          subst this; exact hc'⟩
        exact h4 v hv
  | ok u =>
    obtain ⟨hlen, hpos⟩ := (C21_expand_long_vowels_local t u).1 hu
    refine ⟨u, rfl, by rw [hlen, h.1], ?_⟩
    intro i c hc
    obtain ⟨d, hd, hd2⟩ := h.2 i c hc
    obtain ⟨e, he, hex⟩ := hpos i d hd
    refine ⟨e, he, ?_⟩
    rcases hd2 with ⟨j, p, hb, hik, hlp⟩ | ⟨hno, rfl⟩
    · left
      refine ⟨j, p, hb, by omega, ?_⟩
      rcases hex with ⟨hm, _⟩ | ⟨_, rfl⟩
      · exact absurd hm (lengthens_not_mark hlp)
      · exact hlp
    · rcases hex with ⟨hm, q, hq, hk, hlq⟩ | ⟨hn, rfl⟩
      · left
        cases i with
        | zero => cases hq
        | succ i =>
          simp only [Spec.before] at hq
          obtain ⟨c', hc'⟩ := get_of_get h.1 hq
          obtain ⟨d', hd', hd2'⟩ := h.2 _ _ hc'
          rw [hq] at hd'; cases hd'
          rcases hd2' with ⟨j, p, hb, hik, hlp⟩ | ⟨_, rfl⟩
          · refine ⟨j, p, ⟨by have := hb.1; omega, hb.2.1, hb.2.2.1, ?_⟩, by omega, ?_⟩
            · intro k h1 h2
              by_cases hki : k = i + 1
              · subst hki; rw [hc, hm]
              · exact hb.2.2.2 k h1 (by omega)
            · rw [lengthens_unique hlq (lengthens_vowel hlp).2]; exact hlp
          · refine ⟨i, q, ⟨by omega, hc', hk, ?_⟩, by omega, hlq⟩
            intro k h1 h2
            have : k = i + 1 := by omega
            subst this; rw [hc, hm]
      · right
        refine ⟨?_, rfl⟩
        intro j p hb
        have h1 := hno j p hb
        apply Classical.byContradiction
        intro h2
        have hi : i = j + k + 1 := by omega
        subst hi
        apply hn
        have hm := base_mark hb
        rw [hc] at hm
        refine ⟨Option.some.inj hm, ?_⟩
        simp only [Spec.before]
        by_cases hk : k = 0
        · subst hk
          obtain ⟨d', hd', hd2'⟩ := h.2 _ _ hb.2.1
          rcases hd2' with ⟨j', p', hb', _, _⟩ | ⟨_, rfl⟩
          · have := base_mark hb'
            rw [hb.2.1] at this
            exact absurd (Option.some.inj this) (kana_range hb.2.2.1).2
          · exact ⟨_, hd', hb.2.2.1⟩
        · have hb' : Spec.Base s (j + k) j p := ⟨by omega, hb.2.1, hb.2.2.1, fun x h1 h2 => hb.2.2.2 x h1 (by omega)⟩
          obtain ⟨d', hd', hd2'⟩ := h.2 _ _ (base_mark hb')
          rcases hd2' with ⟨j', p', _, _, hl'⟩ | ⟨hno', _⟩
          · exact ⟨_, hd', (lengthens_vowel hl').1⟩
          · exact absurd (hno' j p hb') (by omega)

theorem bases_lengthen {s t : Str} (h : expandLongVowels s = .ok t) : ∀ i j p, Spec.Base s i j p → ∃ v, Lengthens p v := by
  intro i j p hb
  apply Classical.byContradiction
  intro hn
  have := (C21_expand_long_vowels_fails s .typeError).2 ⟨rfl, j, p, hb.2.1, hb.2.2.2 (j + 1) (by omega) hb.1, hb.2.2.1, fun v hv => hn ⟨v, hv⟩⟩
  rw [h] at this
  cases this

/-- Applying `expand_long_vowels` a number of times. -/
def Spec.expandTimes : Nat → Str → Except PyErr Str
  | 0, s => .ok s
  | n + 1, s => match expandLongVowels s with
    | .error e => .error e
    | .ok t => Spec.expandTimes n t

theorem expandTimes_passed {s : Str} (hl : ∀ i j p, Spec.Base s i j p → ∃ v, Lengthens p v) (n k : Nat) (t : Str) (h : Spec.Passed s k t) :
    ∃ u, Spec.expandTimes n t = .ok u ∧ Spec.Passed s (k + n) u := by
  induction n generalizing k t with
  | zero => exact ⟨t, rfl, h⟩
  | succ n ih =>
    obtain ⟨u, hu, hp⟩ := passed_step hl h
    obtain ⟨w, hw, hp2⟩ := ih (k + 1) u hp
    refine ⟨w, ?_, by rw [show k + (n + 1) = k + 1 + n by omega]; exact hp2⟩
    simp only [Spec.expandTimes, hu, hw]

/-- **C171** (long vowels, partial).  If the first call returns, then so do further ones, and `n` calls replace the first `n` marks of each row of
marks behind a kana; after as many calls as the text has characters all of them are replaced, and another call changes nothing.
Missing: one call is not enough (`C171_again_iff`). -/
theorem C171_passes_partial (s t : Str) (h : expandLongVowels s = .ok t) :
    (∀ n, ∃ u, Spec.expandTimes n s = .ok u ∧ Spec.Passed s n u) ∧
    ∀ n, s.length ≤ n → ∃ u, Spec.expandTimes n s = .ok u ∧ Spec.FullyExpanded s u ∧ expandLongVowels u = .ok u := by
  have hl := bases_lengthen h
  have h1 : ∀ n, ∃ u, Spec.expandTimes n s = .ok u ∧ Spec.Passed s n u := by
    intro n
    obtain ⟨u, hu, hp⟩ := expandTimes_passed hl n 0 s (passed_zero s)
    exact ⟨u, hu, by simpa using hp⟩
  have full : ∀ n u, s.length ≤ n → Spec.Passed s n u → Spec.FullyExpanded s u := by
    intro n u hn hp
    refine ⟨hp.1, fun i c hc => ?_⟩
    obtain ⟨d, hd, hd2⟩ := hp.2 i c hc
    refine ⟨d, hd, ?_⟩
    rcases hd2 with ⟨j, p, hb, _, hlp⟩ | ⟨hno, rfl⟩
    · exact Or.inl ⟨j, p, hb, hlp⟩
    · refine Or.inr ⟨fun j p hb => ?_, rfl⟩
      have := hno j p hb
      obtain ⟨hi, _⟩ := List.getElem?_eq_some_iff.1 hc
      omega
  refine ⟨h1, ?_⟩
  intro n hn
  obtain ⟨u, hu, hp⟩ := h1 n
  refine ⟨u, hu, full n u hn hp, ?_⟩
  obtain ⟨w, hw, hp2⟩ := passed_step hl hp
  rw [hw]
  have fu := full n u hn hp
  have fw := full (n + 1) w (by omega) hp2
  congr 1
  apply List.ext_getElem?
  intro i
  cases hs : s[i]? with
  | none =>
    have hi := List.getElem?_eq_none_iff.1 hs
    rw [List.getElem?_eq_none (by rw [fw.1]; exact hi), List.getElem?_eq_none (by rw [fu.1]; exact hi)]
  | some c =>
    obtain ⟨d, hd, hd2⟩ := fu.2 i c hs
    obtain ⟨e, he, he2⟩ := fw.2 i c hs
    rw [hd, he]
    rcases hd2 with ⟨j, p, hb, hlp⟩ | ⟨hno, rfl⟩
    · rcases he2 with ⟨j', p', hb', hlp'⟩ | ⟨hno', _⟩
      · obtain ⟨rfl, rfl⟩ := base_unique hb hb'
        rw [lengthens_unique hlp hlp']
      · exact absurd hb (hno' j p)
    · rcases he2 with ⟨j', p', hb', _⟩ | ⟨_, rfl⟩
      · exact absurd hb' (hno j' p')
      · rfl

/-- **C171** (long vowels).  A second call changes nothing exactly if no kana is followed by two marks. -/
theorem C171_again_iff (s t : Str) (h : expandLongVowels s = .ok t) :
    expandLongVowels t = .ok t ↔ ∀ (i : Nat) p, s[i]? = some p → IsKana p → s[i + 1]? = some longMark → s[i + 2]? ≠ some longMark := by
  have hl := bases_lengthen h
  obtain ⟨t', ht', hp1⟩ := passed_step hl (passed_zero s)
  rw [h] at ht'
  cases ht'
  obtain ⟨u, hu, hp2⟩ := passed_step hl hp1
  rw [hu]
  constructor
  · intro he i p hi hk h1 h2
    cases he
    have hb : Spec.Base s (i + 2) i p := ⟨by omega, hi, hk, fun k ha hb => by
      rcases (show k = i + 1 ∨ k = i + 2 by omega) with rfl | rfl
      · exact h1
      · exact h2⟩
    obtain ⟨d, hd, hd2⟩ := hp1.2 _ _ h2
    obtain ⟨e, he, he2⟩ := hp2.2 _ _ h2
    rw [hd] at he
    cases he
    rcases hd2 with ⟨j, q, hb', hle, _⟩ | ⟨_, rfl⟩
    · obtain ⟨rfl, rfl⟩ := base_unique hb hb'
      omega
    · rcases he2 with ⟨j, q, _, _, hlq⟩ | ⟨hno, _⟩
      · exact lengthens_not_mark hlq rfl
      · have := hno i p hb
        omega
  · intro hno
    congr 1
    apply List.ext_getElem?
    intro i
    cases hs : s[i]? with
    | none =>
      have hi := List.getElem?_eq_none_iff.1 hs
      rw [List.getElem?_eq_none (by rw [hp2.1]; exact hi), List.getElem?_eq_none (by rw [hp1.1]; exact hi)]
    | some c =>
      obtain ⟨d, hd, hd2⟩ := hp1.2 i c hs
      obtain ⟨e, he, he2⟩ := hp2.2 i c hs
      rw [hd, he]
      rcases he2 with ⟨j, p, hb, hle, hlp⟩ | ⟨hn2, rfl⟩
      · have hij : i = j + 1 := by
          have := hb.1
          apply Classical.byContradiction
          intro hne
          have hi : i = j + 2 := by omega
          subst hi
          exact hno j p hb.2.1 hb.2.2.1 (hb.2.2.2 (j + 1) (by omega) (by omega)) (base_mark hb)
        rcases hd2 with ⟨j', p', hb', _, hlp'⟩ | ⟨hn1, _⟩
        · obtain ⟨rfl, rfl⟩ := base_unique hb hb'
          rw [lengthens_unique hlp hlp']
        · have := hn1 j p hb
          omega
      · rcases hd2 with ⟨j', p', hb', hle, _⟩ | ⟨_, rfl⟩
        · have := hn2 j' p' hb'
          omega
        · rfl

/-- **C171** (refuted).  One call leaves the second of two marks, the next one expands it. -/
theorem C171_refuted : expandLongVowels u!"すーぱーー" = .ok u!"すうぱあー" ∧ expandLongVowels u!"すうぱあー" = .ok u!"すうぱああ" := by
  decide +kernel

/-- The hypotheses are met, with and without a change by a second call. -/
example : expandLongVowels u!"らーめん" = .ok u!"らあめん" ∧ expandLongVowels u!"らあめん" = .ok u!"らあめん" ∧
    insertDuplicateLoop 4 u!"時々様々" = some u!"時時様様" := by decide +kernel

end Cjk
