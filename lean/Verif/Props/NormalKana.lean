import Verif.Props.Scripts
/-!
# C164: normalising and kana conversion together
-/

namespace Cjk
open Py

/-- The half-width katakana that stand for katakana letters (all but the punctuation, the long vowel mark and the voicing marks). -/
def Spec.HalfLetter (c : Chr) : Prop := 0xff66 ≤ c ∧ c ≤ 0xff9d ∧ c ≠ 0xff70

/-- What `normalize` makes of a character. -/
def normChr (c : Chr) : Chr :=
  Spec.convertChr Spec.wideAscii Spec.narrowAscii (Spec.convertChr Spec.halfWidthKana Spec.wideKana c)

def kataLetter (c : Chr) : Chr := if 0x3041 ≤ c ∧ c ≤ 0x3096 then c + 96 else c
def hiraLetter (c : Chr) : Chr := if 0x30a1 ≤ c ∧ c ≤ 0x30f6 then c - 96 else c

theorem normalize_chr (s : Str) : normalize s = .ok (s.map normChr) := C04_normalize_pointwise s

theorem normChr_fix {c : Chr} (h1 : c ∉ Spec.halfWidthKana) (h2 : c ∉ Spec.wideAscii) : normChr c = c := by
  unfold normChr
  rw [convertChr_of_not_mem h1, convertChr_of_not_mem h2]

/-- Letters of the two syllabaries are normal. -/
theorem normChr_kana {c : Chr} (h : 0x3041 ≤ c ∧ c ≤ 0x30f6) : normChr c = c := by
  refine normChr_fix ?_ ?_
  · rw [halfWidthKana_eq, List.mem_range'_1]; omega
  · rw [wideAscii_eq, List.mem_append, List.mem_range'_1, List.mem_range'_1]; omega

theorem half_bound {c : Chr} (h : c ∈ Spec.halfWidthKana) : 0xff61 ≤ c := by
  rw [halfWidthKana_eq, List.mem_range'_1] at h; omega

theorem kataLetter_high {c : Chr} (h : 0x3097 ≤ c ∨ c ≤ 0x3040) : kataLetter c = c := by
  unfold kataLetter; rw [if_neg (by omega)]

theorem hiraLetter_high {c : Chr} (h : 0x30f7 ≤ c ∨ c ≤ 0x30a0) : hiraLetter c = c := by
  unfold hiraLetter; rw [if_neg (by omega)]

theorem wide_bound {c : Chr} (h : c ∈ Spec.wideAscii) : 0x30f7 ≤ c ∨ c ≤ 0x3040 := by
  rw [wideAscii_eq, List.mem_append, List.mem_range'_1, List.mem_range'_1] at h; omega

theorem normChr_kataLetter (c : Chr) : normChr (kataLetter c) = kataLetter (normChr c) := by
  by_cases h1 : c ∈ Spec.halfWidthKana
  · rw [kataLetter_high (c := c) (by have := half_bound h1; omega)]
    exact (show ∀ c ∈ Spec.halfWidthKana, normChr c = kataLetter (normChr c) by decide +kernel) c h1
  · by_cases h2 : c ∈ Spec.wideAscii
    · rw [kataLetter_high (c := c) (by have := wide_bound h2; omega)]
      exact (show ∀ c ∈ Spec.wideAscii, normChr c = kataLetter (normChr c) by decide +kernel) c h2
    · rw [normChr_fix h1 h2]
      unfold kataLetter
      split
      · exact normChr_kana (by omega)
      · exact normChr_fix h1 h2

theorem normChr_hiraLetter (c : Chr) : normChr (hiraLetter c) = hiraLetter (normChr c) ↔ ¬ Spec.HalfLetter c := by
  by_cases h1 : c ∈ Spec.halfWidthKana
  · rw [hiraLetter_high (c := c) (by have := half_bound h1; omega)]
    unfold Spec.HalfLetter
    exact (show ∀ c ∈ Spec.halfWidthKana, normChr c = hiraLetter (normChr c) ↔ ¬ (0xff66 ≤ c ∧ c ≤ 0xff9d ∧ c ≠ 0xff70) by decide +kernel) c h1
  · have hn : ¬ Spec.HalfLetter c := by
      rw [halfWidthKana_eq, List.mem_range'_1] at h1
      unfold Spec.HalfLetter
      omega
    refine iff_of_true ?_ hn
    by_cases h2 : c ∈ Spec.wideAscii
    · rw [hiraLetter_high (c := c) (by have := wide_bound h2; omega)]
      exact (show ∀ c ∈ Spec.wideAscii, normChr c = hiraLetter (normChr c) by decide +kernel) c h2
    · rw [normChr_fix h1 h2]
      unfold hiraLetter
      split
      · exact normChr_kana (by omega)
      · exact normChr_fix h1 h2

theorem hira_normChr_hira (c : Chr) : hiraLetter (normChr (hiraLetter c)) = hiraLetter (normChr c) := by
  by_cases h : Spec.HalfLetter c
  · rw [hiraLetter_high (c := c) (by unfold Spec.HalfLetter at h; omega)]
  · rw [(normChr_hiraLetter c).2 h]
    unfold hiraLetter
    by_cases e : 0x30a1 ≤ normChr c ∧ normChr c ≤ 0x30f6
    · rw [if_pos e, if_neg (by omega)]
    · rw [if_neg e, if_neg e]

theorem hira_kataLetter (c : Chr) : hiraLetter (kataLetter c) = hiraLetter c := by
  unfold hiraLetter kataLetter
  by_cases h1 : 0x3041 ≤ c ∧ c ≤ 0x3096
  · rw [if_pos h1, if_pos (by omega), if_neg (by omega)]; omega
  · rw [if_neg h1]

theorem kata_hiraLetter (c : Chr) : kataLetter (hiraLetter c) = kataLetter c := by
  unfold hiraLetter kataLetter
  by_cases h1 : 0x30a1 ≤ c ∧ c ≤ 0x30f6
  · rw [if_pos h1, if_pos (by omega), if_neg (by omega)]; omega
  · rw [if_neg h1]

/-- C164: normalising and converting to katakana can be done in either order. -/
theorem C164_katakana (s : Str) : normalize (toKatakana s) = (normalize s).map toKatakana := by
  rw [normalize_chr, normalize_chr]
  show Except.ok _ = Except.ok _
  congr 1
  show (s.map kataLetter).map normChr = (s.map normChr).map kataLetter
  rw [List.map_map, List.map_map]
  exact List.map_congr_left (fun c _ => normChr_kataLetter c)

/-- C164: with hiragana the order does not matter exactly if the text has no half-width katakana letter. -/
theorem C164_hiragana_iff (s : Str) : normalize (toHiragana s) = (normalize s).map toHiragana ↔ ∀ c ∈ s, ¬ Spec.HalfLetter c := by
  rw [normalize_chr, normalize_chr]
  show (Except.ok ((s.map hiraLetter).map normChr) : Except PyErr Str) = Except.ok ((s.map normChr).map hiraLetter) ↔ _
  rw [List.map_map, List.map_map, Except.ok.injEq, List.map_inj_left]
  exact forall_congr' (fun c => forall_congr' (fun _ => normChr_hiraLetter c))

/-- C164: normalising first and converting last gives the form of a text that depends neither on its syllabary nor on its width: it is the same for the text, for its conversions and for its
normal form, it does not change when it is taken again, and two texts have the same one exactly if their normal forms compare equal with `compare_kana`. -/
theorem C164_search_form (s t : Str) :
    (normalize (toHiragana s)).map toHiragana = (normalize s).map toHiragana ∧
    (normalize (toKatakana s)).map toHiragana = (normalize s).map toHiragana ∧
    (do let n ← normalize s; (normalize n).map toHiragana) = (normalize s).map toHiragana ∧
    (do let n ← (normalize s).map toHiragana; (normalize n).map toHiragana) = (normalize s).map toHiragana ∧
    ((normalize s).map toHiragana = (normalize t).map toHiragana ↔ (do let a ← normalize s; let b ← normalize t; .ok (compareKana a b) : Except PyErr Int) = .ok 0) := by
  have idem : (s.map normChr).map normChr = s.map normChr := by
    have h := (C04_idempotent s).1
    rw [normalize_chr] at h
    have h' : normalize (s.map normChr) = .ok (s.map normChr) := h
    rw [normalize_chr] at h'
    exact Except.ok.inj h'
  have hh : ∀ u : Str, ((u.map hiraLetter).map normChr).map hiraLetter = (u.map normChr).map hiraLetter := by
    intro u
    rw [List.map_map, List.map_map, List.map_map]
    exact List.map_congr_left (fun c _ => hira_normChr_hira c)
  refine ⟨?_, ?_, ?_, ?_, ?_⟩
  · rw [normalize_chr, normalize_chr]
    exact congrArg Except.ok (hh s)
  · rw [C164_katakana, normalize_chr]
    refine congrArg Except.ok ?_
    show ((s.map normChr).map kataLetter).map hiraLetter = (s.map normChr).map hiraLetter
    rw [List.map_map]
    exact List.map_congr_left (fun c _ => hira_kataLetter c)
  · rw [normalize_chr]
    show (normalize (s.map normChr)).map toHiragana = _
    rw [normalize_chr, idem]
  · rw [normalize_chr]
    show (normalize ((s.map normChr).map hiraLetter)).map toHiragana = _
    rw [normalize_chr]
    refine congrArg Except.ok ?_
    show (((s.map normChr).map hiraLetter).map normChr).map hiraLetter = (s.map normChr).map hiraLetter
    rw [hh, idem]
  · rw [normalize_chr, normalize_chr]
    show (Except.ok (toHiragana (s.map normChr)) : Except PyErr Str) = Except.ok (toHiragana (t.map normChr)) ↔
      (Except.ok (compareKana (s.map normChr) (t.map normChr)) : Except PyErr Int) = .ok 0
    rw [Except.ok.injEq, Except.ok.injEq]
    generalize s.map normChr = a
    generalize t.map normChr = b
    have hz : compareKana a b = 0 ↔ toKatakana a = toKatakana b := by
      constructor
      · intro h
        rcases compareKana_cases a b with ⟨h1, _⟩ | ⟨h1, h2⟩ | ⟨h1, _⟩
        all_goals first | omega | exact h2
      · intro h
        rcases compareKana_cases a b with ⟨h1, h2⟩ | ⟨h1, h2⟩ | ⟨h1, h2⟩
        all_goals first | exact h1 | (rw [h] at h2; exact absurd h2 (by simp [strLt_irrefl]))
    rw [hz]
    constructor
    · intro h
      have h' : (a.map hiraLetter).map kataLetter = (b.map hiraLetter).map kataLetter := congrArg toKatakana h
      rw [List.map_map, List.map_map, show kataLetter ∘ hiraLetter = kataLetter from funext kata_hiraLetter] at h'
      exact h'
    · intro h
      have h' : (a.map kataLetter).map hiraLetter = (b.map kataLetter).map hiraLetter := congrArg toHiragana h
      rw [List.map_map, List.map_map, show hiraLetter ∘ kataLetter = hiraLetter from funext hira_kataLetter] at h'
      exact h'

/-- C164: converting a normal text to a syllabary leaves it normal. -/
theorem C164_normal (s : Str) (h : normalize s = .ok s) : normalize (toHiragana s) = .ok (toHiragana s) ∧ normalize (toKatakana s) = .ok (toKatakana s) := by
  constructor
  · have hn : ∀ c ∈ s, ¬ Spec.HalfLetter c := by
      intro c hc hl
      have := (C04_normalize_output s s h).2.1 c hc
      unfold Spec.HalfLetter at hl
      omega
    rw [(C164_hiragana_iff s).2 hn, h]
    rfl
  · rw [C164_katakana, h]
    rfl

/-- Half-width, full-width and hiragana spellings have one form. -/
example : (normalize u!"ｶﾀｶﾅ").map toHiragana = .ok u!"かたかな" ∧ (normalize u!"カタカナ").map toHiragana = .ok u!"かたかな" ∧
    normalize (toHiragana u!"ｶﾅ") = .ok u!"カナ" ∧ normalize u!"カナ" = .ok u!"カナ" := by decide +kernel

end Cjk
