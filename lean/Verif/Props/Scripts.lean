import Verif.Lemmas.Scripts
/-!
# Properties of `cjktools/scripts.py` (C01 - C06)
-/

namespace Cjk
open Py

/-! ## C01: kana conversion -/

/-- The class-level model of `to_hiragana` (construction of the `ScriptMapping`, assertion, `chr`)
never fails and computes `toHiragana`. -/
theorem toHiragana_eq_call (s : Str) :
    (ScriptMapping.init .katakana .hiragana >>= fun m => m.call s) = .ok (toHiragana s) := by
  show ScriptMapping.call ⟨0x30a1, 0x30f6, -96⟩ s = .ok (toHiragana s)
  apply call_eq_map
  intro c
  constructor
  · intro h; simp only at h; rw [if_pos h]; exact unichr_ok (by simp only; omega) (by omega)
  · intro h; simp only at h; rw [if_neg h]

theorem toKatakana_eq_call (s : Str) :
    (ScriptMapping.init .hiragana .katakana >>= fun m => m.call s) = .ok (toKatakana s) := by
  show ScriptMapping.call ⟨0x3041, 0x3096, 96⟩ s = .ok (toKatakana s)
  apply call_eq_map
  intro c
  constructor
  · intro h; simp only at h; rw [if_pos h]; exact unichr_ok (by simp only; omega) (by omega)
  · intro h; simp only at h; rw [if_neg h]

theorem toAscii_eq_call (s : Str) :
    (ScriptMapping.init .fullAscii .ascii >>= fun m => m.call s) = .ok (toAscii s) := by
  show ScriptMapping.call ⟨0xff01, 0xff5f, -65248⟩ s = .ok (toAscii s)
  apply call_eq_map
  intro c
  constructor
  · intro h; simp only at h; rw [if_pos h]; exact unichr_ok (by simp only; omega) (by omega)
  · intro h; simp only at h; rw [if_neg h]

/-- C01: both conversions are character-by-character relabellings along the two alphabets
(so lengths are kept and only kana of the other syllabary change). -/
theorem C01_conversion_is_relabelling (s : Str) :
    toKatakana s = s.map (Spec.convertChr Spec.hiraganaAlphabet Spec.katakanaAlphabet) ∧
    toHiragana s = s.map (Spec.convertChr Spec.katakanaAlphabet Spec.hiraganaAlphabet) ∧
    (toKatakana s).length = s.length ∧ (toHiragana s).length = s.length :=
  ⟨toKatakana_eq_convert s, toHiragana_eq_convert s, by simp, by simp⟩

/-- C01: the round trips, for all strings. -/
theorem C01_round_trips (s : Str) :
    toHiragana (toKatakana s) = toHiragana s ∧ toKatakana (toHiragana s) = toKatakana s :=
  ⟨toHiragana_toKatakana s, toKatakana_toHiragana s⟩

/-- C01: strings without characters of the target syllabary survive the round trip. -/
theorem C01_lossless (s : Str) :
    ((∀ c ∈ s, c ∉ Spec.katakanaAlphabet) → toHiragana (toKatakana s) = s) ∧
    ((∀ c ∈ s, c ∉ Spec.hiraganaAlphabet) → toKatakana (toHiragana s) = s) := by
  rw [katakanaAlphabet_eq, hiraganaAlphabet_eq]
  constructor
  · intro h
    rw [toHiragana_toKatakana]
    conv => rhs; rw [← List.map_id s]
    apply List.map_congr_left
    intro c hc
    have := h c hc
    simp only [List.mem_range'_1] at this
    simp only [id]; split <;> omega
  · intro h
    rw [toKatakana_toHiragana]
    conv => rhs; rw [← List.map_id s]
    apply List.map_congr_left
    intro c hc
    have := h c hc
    simp only [List.mem_range'_1] at this
    simp only [id]; split <;> omega

example : (∀ c ∈ u!"かな漢字ー abc", c ∉ Spec.katakanaAlphabet) ∧
    toKatakana u!"かな漢字ー abc" = u!"カナ漢字ー abc" := by decide

/-! ## C02: script_type -/

/-- C02: for every iteration order of the band table, the answer is the same. -/
theorem C02_order_independent (bands : List (Script × (Chr × Chr))) (h : bands.Perm knownBands)
    (s : Str) : scriptTypeIn bands s = scriptType s := scriptTypeIn_perm h s

/-- C02: the answer on a non-empty string is exactly the script whose range holds its first
character; the empty string is `Unknown`. -/
theorem C02_script_type_exact :
    (∀ (c : Chr) (s : Str) (x : Script), scriptType (c :: s) = x ↔ Spec.InScript x c) ∧
    scriptType [] = .unknown :=
  ⟨scriptType_iff, rfl⟩

/-- C02: ranges are disjoint and cover everything: every character has exactly one script. -/
theorem C02_unambiguous (c : Chr) : ∃ x, Spec.InScript x c ∧ ∀ y, Spec.InScript y c → y = x := by
  obtain ⟨x, hx⟩ := InScript_exists c
  exact ⟨x, hx, fun y hy => InScript_unique hy hx⟩

example : knownBands.reverse.Perm knownBands ∧ scriptTypeIn knownBands.reverse u!"漢a" = .kanji :=
  ⟨List.reverse_perm _, by decide⟩

/-! ## C03: script_boundaries -/

/-- C03: the result of `script_boundaries` on a non-empty string is a maximal segmentation. -/
theorem C03_boundaries_segmentation (s : Str) (hs : s ≠ []) :
    Spec.IsSegmentation s (scriptBoundaries s) := by
  cases s with
  | nil => exact absurd rfl hs
  | cons c s =>
    refine ⟨boundariesLoop_flatten _ _ _, ?_, ?_⟩
    · exact boundariesLoop_blocks c [] s (by simp)
    · exact boundariesLoop_maximal c [] s

/-- C03: it is the only one, and the empty string gives `('',)`. -/
theorem C03_boundaries_unique :
    (∀ (s : Str) (segs : List Str), s ≠ [] → Spec.IsSegmentation s segs → segs = scriptBoundaries s) ∧
    scriptBoundaries [] = [[]] :=
  ⟨fun s _ hs h => isSegmentation_unique h (C03_boundaries_segmentation s hs), rfl⟩

example : scriptBoundaries u!"コーヒー牛乳とミルク" =
    [u!"コーヒー", u!"牛乳", u!"と", u!"ミルク"] := by decide

/-! ## C04: normalize -/

theorem wideAscii_eq : Spec.wideAscii = List.range' 0x3000 3 ++ List.range' 0xff01 95 := by decide
theorem narrowAscii_eq : Spec.narrowAscii = [0x20, 0x2c, 0x2e] ++ List.range' 0x21 95 := by decide
theorem halfWidthKana_eq : Spec.halfWidthKana = List.range' 0xff61 63 := by decide
theorem fullWidthKana_eq : fullWidthKana = Spec.wideKana := rfl

theorem convertChr_of_not_mem {src dst : Str} {c : Chr} (h : c ∉ src) : Spec.convertChr src dst c = c := by
  unfold Spec.convertChr
  have : src.idxOf? c = none := by simpa [List.idxOf?_eq_none_iff] using h
  rw [this]

theorem convertChr_append (s1 d1 s2 d2 : Str) (hl : s1.length = d1.length) (c : Chr) :
    Spec.convertChr (s1 ++ s2) (d1 ++ d2) c =
      if c ∈ s1 then Spec.convertChr s1 d1 c else Spec.convertChr s2 d2 c := by
  induction s1 generalizing d1 with
  | nil =>
    cases d1 with
    | nil => simp
    | cons _ _ => simp at hl
  | cons a s1 ih =>
    cases d1 with
    | nil => simp at hl
    | cons b d1 =>
      have := ih d1 (by simpa using hl)
      by_cases h : a = c
      · subst h; simp [Spec.convertChr, List.idxOf?_cons]
      · have hb : (a == c) = false := by simp [h]
        have step : ∀ s d : Str, Spec.convertChr (a :: s) (b :: d) c = Spec.convertChr s d c := by
          intro s d
          simp only [Spec.convertChr, List.idxOf?_cons, hb, Bool.false_eq_true, if_false]
          cases s.idxOf? c <;> simp
        simp only [List.cons_append, step, this, List.mem_cons, Ne.symm h, false_or]

theorem mappedChars_getD (c : Chr) :
    (mappedChars.get? c).getD c = Spec.convertChr [0x3000, 0x3001, 0x3002] [0x20, 0x2c, 0x2e] c := by
  by_cases h0 : c = 0x3000
  · subst h0; decide
  by_cases h1 : c = 0x3001
  · subst h1; decide
  by_cases h2 : c = 0x3002
  · subst h2; decide
  rw [convertChr_of_not_mem (by simp [h0, h1, h2])]
  simp [mappedChars, Dict.get?, Ne.symm h0, Ne.symm h1, Ne.symm h2]

/-- The character map of `normalize_ascii`. -/
theorem normalizeAscii_eq_convert (s : Str) :
    normalizeAscii s = s.map (Spec.convertChr Spec.wideAscii Spec.narrowAscii) := by
  simp only [normalizeAscii, toAscii, List.map_map]
  apply List.map_congr_left
  intro c _
  simp only [Function.comp]
  rw [wideAscii_eq, narrowAscii_eq, convertChr_append _ _ _ _ (by decide), mappedChars_getD]
  have e3 : List.range' 0x3000 3 = [0x3000, 0x3001, 0x3002] := by decide
  rw [e3]
  by_cases h : c ∈ [0x3000, 0x3001, 0x3002]
  · rw [if_pos h]
    have key : ∀ c ∈ [0x3000, 0x3001, 0x3002],
        Spec.convertChr [0x3000, 0x3001, 0x3002] [0x20, 0x2c, 0x2e] c < 0xff01 := by decide
    have := key c h
    rw [if_neg]; omega
  · rw [if_neg h, convertChr_of_not_mem h, convertChr_range']
    split <;> split <;> omega

/-- The character map of `normalize_kana`; the table lookup never fails. -/
theorem normalizeKana_eq_convert (s : Str) :
    normalizeKana s = .ok (s.map (Spec.convertChr Spec.halfWidthKana Spec.wideKana)) := by
  induction s with
  | nil => rfl
  | cons c s ih =>
    have hc : (if 0xff61 ≤ c ∧ c ≤ 0xff9f then getItemI fullWidthKana ((c : Int) - 0xff61) else .ok c)
        = .ok (Spec.convertChr Spec.halfWidthKana Spec.wideKana c) := by
      unfold Spec.convertChr
      rw [halfWidthKana_eq, idxOf?_range']
      by_cases h : 0xff61 ≤ c ∧ c ≤ 0xff9f
      · rw [if_pos h, if_pos (by omega)]
        obtain ⟨i, rfl⟩ : ∃ i, c = 0xff61 + i := ⟨c - 0xff61, by omega⟩
        have hi : i < 63 := by omega
        have key : ∀ i < 63, getItemI fullWidthKana ((i : Nat) : Int) = .ok (Spec.wideKana.getD i 0) := by
          decide
        have e1 : (((0xff61 + i : Nat) : Int) - 0xff61) = ((i : Nat) : Int) := by omega
        have e2 : 0xff61 + i - 0xff61 = i := by omega
        rw [e1, e2, key i hi]
        simp only [List.getD_eq_getElem?_getD]
        have hl : i < Spec.wideKana.length := by simpa [Spec.wideKana] using hi
        rw [List.getElem?_eq_getElem hl]; rfl
      · rw [if_neg h, if_neg (by omega)]
    simp only [List.map_cons, normalizeKana]
    have hb : knownBands.getItem .halfKatakana = .ok (0xff61, 0xff9f) := rfl
    rw [hb]
    simp only [bind, Except.bind, ih]
    by_cases h : 0xff61 ≤ c ∧ c ≤ 0xff9f
    · rw [if_pos h] at hc ⊢; rw [hc]
    · rw [if_neg h] at hc ⊢; rw [Except.ok.injEq] at hc; simp [← hc]

/-- C04: `normalize_ascii` and `normalize_kana` are relabellings, each of its own characters only. -/
theorem C04_parts (s : Str) :
    normalizeAscii s = s.map (Spec.convertChr Spec.wideAscii Spec.narrowAscii) ∧
    normalizeKana s = .ok (s.map (Spec.convertChr Spec.halfWidthKana Spec.wideKana)) :=
  ⟨normalizeAscii_eq_convert s, normalizeKana_eq_convert s⟩

/-- C04: `normalize` never fails and works character by character. -/
theorem C04_normalize_pointwise (s : Str) :
    normalize s = .ok (s.map (fun c => Spec.convertChr Spec.wideAscii Spec.narrowAscii
      (Spec.convertChr Spec.halfWidthKana Spec.wideKana c))) := by
  unfold normalize
  rw [normalizeKana_eq_convert]
  show Except.ok _ = _
  rw [normalizeAscii_eq_convert, List.map_map]; rfl

theorem convertChr_mem {src dst : Str} {c : Chr} (h : c ∈ src) (hl : src.length = dst.length) :
    Spec.convertChr src dst c ∈ dst := by
  unfold Spec.convertChr
  cases e : src.idxOf? c with
  | none => simp [List.idxOf?_eq_none_iff] at e; exact absurd h e
  | some i =>
    rw [List.idxOf?, List.findIdx?_eq_some_iff_getElem] at e
    obtain ⟨hi, _⟩ := e
    simp only [List.getD_eq_getElem?_getD]
    rw [List.getElem?_eq_getElem (by omega)]
    simp

theorem convertChr_not_mem_src {src dst : Str} (hl : src.length = dst.length) (hd : ∀ d ∈ dst, d ∉ src)
    (c : Chr) : Spec.convertChr src dst c ∉ src := by
  by_cases h : c ∈ src
  · exact hd _ (convertChr_mem h hl)
  · rw [convertChr_of_not_mem h]; exact h

/-- C04: no full-width ASCII, no half-width katakana and none of U+3000..U+3002 remain. -/
theorem C04_normalize_output (s t : Str) (h : normalize s = .ok t) :
    t.length = s.length ∧ (∀ d ∈ t, ¬ (0xff01 ≤ d ∧ d ≤ 0xff5f) ∧ ¬ (0xff61 ≤ d ∧ d ≤ 0xff9f) ∧
      ¬ (0x3000 ≤ d ∧ d ≤ 0x3002)) ∧
    (∀ i (hi : i < s.length), (¬ (0xff01 ≤ s[i] ∧ s[i] ≤ 0xff5f) ∧ ¬ (0xff61 ≤ s[i] ∧ s[i] ≤ 0xff9f) ∧
      ¬ (0x3000 ≤ s[i] ∧ s[i] ≤ 0x3002)) → t[i]? = some s[i]) := by
  rw [C04_normalize_pointwise] at h
  cases h
  refine ⟨by simp, ?_, ?_⟩
  · intro d hd
    simp only [List.mem_map] at hd
    obtain ⟨c, _, rfl⟩ := hd
    have h1 : Spec.convertChr Spec.halfWidthKana Spec.wideKana c ∉ Spec.halfWidthKana :=
      convertChr_not_mem_src (by decide) (by decide +kernel) c
    generalize Spec.convertChr Spec.halfWidthKana Spec.wideKana c = e at h1
    have h2 : Spec.convertChr Spec.wideAscii Spec.narrowAscii e ∉ Spec.wideAscii :=
      convertChr_not_mem_src (by decide) (by decide +kernel) e
    have h3 : Spec.convertChr Spec.wideAscii Spec.narrowAscii e ∉ Spec.halfWidthKana := by
      by_cases he : e ∈ Spec.wideAscii
      · have := convertChr_mem (dst := Spec.narrowAscii) he (by decide)
        have hk : ∀ d ∈ Spec.narrowAscii, d ∉ Spec.halfWidthKana := by decide +kernel
        exact hk _ this
      · rw [convertChr_of_not_mem he]; exact h1
    generalize Spec.convertChr Spec.wideAscii Spec.narrowAscii e = f at h2 h3
    rw [wideAscii_eq] at h2
    rw [halfWidthKana_eq] at h3
    simp only [List.mem_append, List.mem_range'_1] at h2 h3
    omega
  · intro i hi hc
    simp only [List.getElem?_map, List.getElem?_eq_getElem hi, Option.map_some]
    have h1 : s[i] ∉ Spec.halfWidthKana := by
      rw [halfWidthKana_eq]; simp only [List.mem_range'_1]; omega
    have h2 : s[i] ∉ Spec.wideAscii := by
      rw [wideAscii_eq]; simp only [List.mem_append, List.mem_range'_1]; omega
    rw [convertChr_of_not_mem h1, convertChr_of_not_mem h2]

/-- C04: `normalize` and its two parts are idempotent. -/
theorem C04_idempotent (s : Str) :
    (normalize s >>= normalize) = normalize s ∧ normalizeAscii (normalizeAscii s) = normalizeAscii s ∧
    (normalizeKana s >>= normalizeKana) = normalizeKana s := by
  refine ⟨?_, ?_, ?_⟩
  · rw [C04_normalize_pointwise]
    show normalize _ = _
    have hout := (C04_normalize_output s _ (C04_normalize_pointwise s)).2.1
    rw [C04_normalize_pointwise]
    congr 1
    conv => rhs; rw [← List.map_id (s.map _)]
    apply List.map_congr_left
    intro d hd
    have := hout d hd
    have h1 : d ∉ Spec.halfWidthKana := by
      rw [halfWidthKana_eq]; simp only [List.mem_range'_1]; omega
    have h2 : d ∉ Spec.wideAscii := by
      rw [wideAscii_eq]; simp only [List.mem_append, List.mem_range'_1]; omega
    rw [convertChr_of_not_mem h1, convertChr_of_not_mem h2]; rfl
  · simp only [normalizeAscii_eq_convert, List.map_map]
    apply List.map_congr_left
    intro c _
    exact convertChr_of_not_mem (convertChr_not_mem_src (by decide) (by decide +kernel) c)
  · rw [normalizeKana_eq_convert]
    show normalizeKana _ = _
    rw [normalizeKana_eq_convert, List.map_map]
    congr 1
    apply List.map_congr_left
    intro c _
    exact convertChr_of_not_mem (convertChr_not_mem_src (by decide) (by decide +kernel) c)

example : normalize u!"Ａｶﾅ。ﾞ漢" = .ok u!"Aカナ.゛漢" := by decide +kernel

/-! ## C05: compare_kana -/

theorem compareKana_cases (a b : Str) :
    (compareKana a b = -1 ∧ strLt (toKatakana a) (toKatakana b) = true) ∨
    (compareKana a b = 0 ∧ toKatakana a = toKatakana b) ∨
    (compareKana a b = 1 ∧ strLt (toKatakana b) (toKatakana a) = true) := by
  unfold compareKana
  rcases strLt_trichotomy (toKatakana a) (toKatakana b) with h | h | h
  · simp [h, strLt_asymm h]
  · simp [h, strLt_irrefl]
  · simp [h, strLt_asymm h]

/-- C05: values and antisymmetry. -/
theorem C05_sign_antisymmetric (a b : Str) :
    (compareKana a b = -1 ∨ compareKana a b = 0 ∨ compareKana a b = 1) ∧
    compareKana a b = -compareKana b a := by
  constructor
  · rcases compareKana_cases a b with h | h | h <;> simp [h.1]
  · simp only [compareKana]; omega

/-- C05: transitivity (of `≤` and of `<`). -/
theorem C05_transitive (a b c : Str) :
    (compareKana a b ≤ 0 → compareKana b c ≤ 0 → compareKana a c ≤ 0) ∧
    (compareKana a b < 0 → compareKana b c ≤ 0 → compareKana a c < 0) ∧
    (compareKana a b ≤ 0 → compareKana b c < 0 → compareKana a c < 0) := by
  rcases compareKana_cases a b with ⟨h1, h1'⟩ | ⟨h1, h1'⟩ | ⟨h1, h1'⟩ <;>
  rcases compareKana_cases b c with ⟨h2, h2'⟩ | ⟨h2, h2'⟩ | ⟨h2, h2'⟩ <;>
  rw [h1, h2] <;> try (simp; done)
  · have := strLt_trans h1' h2'
    simp [compareKana, this, strLt_asymm this]
  · rw [h2'] at h1'
    simp [compareKana, h1', strLt_asymm h1']
  · rw [← h1'] at h2'
    simp [compareKana, h2', strLt_asymm h2']
  · simp [compareKana, h1', h2', strLt_irrefl]

/-- C05: zero exactly on strings that agree up to hiragana/katakana. -/
theorem C05_zero_iff_same_kana (a b : Str) : compareKana a b = 0 ↔ Spec.SameKana a b := by
  unfold Spec.SameKana
  rw [← toKatakana_eq_convert, ← toKatakana_eq_convert]
  rcases compareKana_cases a b with ⟨h1, h1'⟩ | ⟨h1, h1'⟩ | ⟨h1, h1'⟩
  · rw [h1]; simp only [Int.reduceNeg, Int.neg_eq_zero, Int.reduceEq, false_iff]
    intro h; rw [h, strLt_irrefl] at h1'; simp at h1'
  · simp [h1, h1']
  · rw [h1]; simp only [Int.reduceEq, false_iff]
    intro h; rw [h, strLt_irrefl] at h1'; simp at h1'

/-- C05: converting an argument does not change the result. -/
theorem C05_script_insensitive (a b : Str) :
    compareKana (toKatakana a) b = compareKana a b ∧ compareKana (toHiragana a) b = compareKana a b ∧
    compareKana a (toKatakana b) = compareKana a b ∧ compareKana a (toHiragana b) = compareKana a b := by
  simp [compareKana, toKatakana_idem, toKatakana_toHiragana]

/-- C05: on strings of plain characters the order is the code point order (so the preorder is not
the trivial one). -/
theorem C05_is_code_point_order (a b : Str) (ha : ∀ c ∈ a, c ∉ Spec.hiraganaAlphabet)
    (hb : ∀ c ∈ b, c ∉ Spec.hiraganaAlphabet) : compareKana a b = -1 ↔ a < b := by
  have key : ∀ s : Str, (∀ c ∈ s, c ∉ Spec.hiraganaAlphabet) → toKatakana s = s := by
    intro s h
    rw [toKatakana_eq_convert]
    conv => rhs; rw [← List.map_id s]
    apply List.map_congr_left
    intro c hc; exact convertChr_of_not_mem (h c hc)
  have hlt : ∀ a b : Str, strLt a b = true ↔ a < b := by
    intro a
    induction a with
    | nil => intro b; cases b <;> simp [strLt]
    | cons x a ih =>
      intro b
      cases b with
      | nil => simp [strLt]
      | cons y b =>
        rw [List.cons_lt_cons_iff]
        simp only [strLt, ← ih b]
        by_cases h1 : x < y
        · simp [h1]
        · by_cases h2 : y < x
          · simp [h1, h2]; omega
          · have : x = y := by omega
            simp [this]
  rw [← hlt]
  rcases compareKana_cases a b with ⟨h1, h1'⟩ | ⟨h1, h1'⟩ | ⟨h1, h1'⟩ <;> rw [key a ha, key b hb] at h1'
  · simp [h1, h1']
  · subst h1'; simp [h1, strLt_irrefl]
  · simp [h1, strLt_asymm h1']

example : compareKana u!"あき" u!"アカ" = 1 ∧ compareKana u!"あき" u!"アキ" = 0 := by decide

/-! ## C06: membership queries -/

/-- C06: `script_types` and `contains_script`. -/
theorem C06_script_types_exact (s : Str) (x : Script) :
    (x ∈ scriptTypes s ↔ ∃ c ∈ s, Spec.InScript x c) ∧
    (containsScript x s = true ↔ ∃ c ∈ s, Spec.InScript x c) := by
  have h : x ∈ scriptTypes s ↔ ∃ c ∈ s, Spec.InScript x c := by
    simp only [scriptTypes, List.mem_map, scriptType_iff]
  exact ⟨h, by rw [← h]; simp [containsScript]⟩

/-- C06: `unique_kanji` is the set of kanji of the string. -/
theorem C06_unique_kanji_exact (s : Str) :
    (∀ c, c ∈ uniqueKanji s ↔ c ∈ s ∧ 0x4e00 ≤ c ∧ c ≤ 0x9fa5) ∧ (uniqueKanji s).Nodup := by
  constructor
  · intro c
    simp only [uniqueKanji, List.mem_filter, mem_dedup, bne, Bool.not_not, beq_iff_eq,
      scriptType_iff, Spec.InScript]
  · exact List.Nodup.sublist List.filter_sublist (nodup_dedup _)

/-- C06: `get_script` lists exactly the characters of a script, in increasing code point order
(hence once each); it fails exactly for `Unknown`. -/
theorem C06_get_script_exact (x : Script) :
    (x ≠ .unknown → ∃ l, getScript x = .ok l ∧ l.Pairwise (· < ·) ∧
      ∀ c, c ∈ l ↔ scriptType [c] = x) ∧
    getScript .unknown = .error .keyError := by
  refine ⟨?_, rfl⟩
  intro hx
  have hp : ∀ a n, ((List.range n).map (fun i => a + i)).Pairwise (· < ·) := by
    intro a n
    rw [List.pairwise_map]
    exact List.Pairwise.imp (fun h => Nat.add_lt_add_left h a) List.pairwise_lt_range
  have hm : ∀ a n c, c ∈ ((List.range n).map (fun i => a + i)) ↔ a ≤ c ∧ c < a + n := by
    intro a n c
    simp only [List.mem_map, List.mem_range]
    constructor
    · rintro ⟨i, hi, rfl⟩; omega
    · intro h; exact ⟨c - a, by omega, by omega⟩
  cases x
  case unknown => exact absurd rfl hx
  all_goals
    refine ⟨_, rfl, hp _ _, ?_⟩
    intro c
    rw [hm, scriptType_iff]
    simp only [Spec.InScript]
    omega

example : (∃ c ∈ u!"aあ漢", Spec.InScript .kanji c) ∧ uniqueKanji u!"漢字と漢字" = u!"漢字" := by decide

end Cjk
