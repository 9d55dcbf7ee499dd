import Verif.Props.Scripts
/-!
# Properties of the class `ScriptMapping` of `cjktools/scripts.py` for arbitrary scripts (C80), and the
link between the class and the ready-made converters (C01)
-/

namespace Cjk
open Py

namespace Spec

/-- The characters of a script in code point order; `none` for `Unknown`, which is no script. -/
def alphabet : Script → Option Str
  | .ascii => some (List.range' 0x21 223)
  | .hiragana => some hiraganaAlphabet
  | .katakana => some katakanaAlphabet
  | .kanji => some (List.range' 0x4e00 20902)
  | .fullAscii => some (List.range' 0xff01 95)
  | .halfKatakana => some halfWidthKana
  | .unknown => none

end Spec

/-- The first code point and the number of characters of a script. -/
def scriptStart : Script → Nat × Nat
  | .ascii => (0x21, 223)
  | .hiragana => (0x3041, 86)
  | .katakana => (0x30a1, 86)
  | .kanji => (0x4e00, 20902)
  | .fullAscii => (0xff01, 95)
  | .halfKatakana => (0xff61, 63)
  | .unknown => (0, 0)

theorem alphabet_eq (x : Script) (hx : x ≠ .unknown) :
    Spec.alphabet x = some (List.range' (scriptStart x).1 (scriptStart x).2) := by
  cases x
  · exact congrArg some hiraganaAlphabet_eq
  · exact congrArg some katakanaAlphabet_eq
  · rfl
  · rfl
  · rfl
  · exact congrArg some halfWidthKana_eq
  · exact absurd rfl hx

/-- C80: the alphabets are the ranges of `script_type`. -/
theorem C80_alphabet (x : Script) (l : Str) (h : Spec.alphabet x = some l) (c : Chr) :
    c ∈ l ↔ scriptType [c] = x := by
  have hx : x ≠ .unknown := by rintro rfl; cases h
  rw [alphabet_eq x hx] at h
  cases h
  rw [scriptType_iff, List.mem_range'_1]
  cases x <;> simp only [scriptStart, Spec.InScript] <;> first | omega | exact absurd rfl hx

theorem knownBands_getItem (x : Script) : knownBands.getItem x =
    if x = .unknown then .error .keyError
    else .ok ((scriptStart x).1, (scriptStart x).1 + (scriptStart x).2 - 1) := by
  cases x <;> rfl

theorem scriptStart_bound (x : Script) (hx : x ≠ .unknown) :
    0 < (scriptStart x).2 ∧ (scriptStart x).1 + (scriptStart x).2 < 0x110000 := by
  cases x <;> simp [scriptStart] at hx ⊢

theorem convertChr_range'_le (a b n k c : Nat) (h : n ≤ k) :
    Spec.convertChr (List.range' a n) (List.range' b k) c =
      if a ≤ c ∧ c < a + n then c - a + b else c := by
  unfold Spec.convertChr
  rw [idxOf?_range']
  by_cases hc : a ≤ c ∧ c < a + n
  · simp only [hc, and_self, if_true, List.getD_eq_getElem?_getD]
    have hi : c - a < k := by omega
    rw [List.getElem?_range' hi]
    simp; omega
  · simp [hc]

/-- C80: `ScriptMapping(x, y)` raises `KeyError` exactly when one of the scripts is `Unknown`, and
`AssertionError` exactly when the source script has more characters than the target. -/
theorem C80_construct_errors (x y : Script) :
    (ScriptMapping.init x y = .error .keyError ↔
      Spec.alphabet x = none ∨ Spec.alphabet y = none) ∧
    (ScriptMapping.init x y = .error .assertionError ↔
      ∃ l r, Spec.alphabet x = some l ∧ Spec.alphabet y = some r ∧ r.length < l.length) := by
  by_cases hx : x = .unknown
  · subst hx
    constructor
    · exact ⟨fun _ => Or.inl rfl, fun _ => rfl⟩
    · constructor
      · intro h; cases h
      · rintro ⟨l, r, h, _⟩; cases h
  by_cases hy : y = .unknown
  · subst hy
    have h : ScriptMapping.init x .unknown = .error .keyError := by cases x <;> rfl
    rw [h]
    constructor
    · exact ⟨fun _ => Or.inr rfl, fun _ => rfl⟩
    · constructor
      · intro h; cases h
      · rintro ⟨l, r, _, h, _⟩; cases h
  have bx := scriptStart_bound x hx
  have bY := scriptStart_bound y hy
  rw [alphabet_eq x hx, alphabet_eq y hy]
  have hi : ScriptMapping.init x y = if (scriptStart x).2 ≤ (scriptStart y).2 then
      .ok { fromStart := (scriptStart x).1, fromEnd := (scriptStart x).1 + (scriptStart x).2 - 1,
            ordDiff := ((scriptStart y).1 : Int) - (scriptStart x).1 }
      else .error .assertionError := by
    unfold ScriptMapping.init
    rw [knownBands_getItem, knownBands_getItem, if_neg hx, if_neg hy]
    show (if _ then _ else _) = _
    by_cases hl : (scriptStart x).2 ≤ (scriptStart y).2
    · rw [if_pos hl, if_pos (by omega)]
    · rw [if_neg hl, if_neg (by omega)]
  rw [hi]
  constructor
  · constructor
    · intro h; split at h <;> cases h
    · rintro (h | h) <;> cases h
  · constructor
    · intro h
      refine ⟨_, _, rfl, rfl, ?_⟩
      split at h
      · cases h
      · simp only [List.length_range']; omega
    · rintro ⟨l, r, h1, h2, h3⟩
      cases h1; cases h2
      simp only [List.length_range'] at h3
      rw [if_neg (by omega)]

/-- C80: a constructed mapping never fails on any string; it replaces the i-th character of the
source script by the i-th character of the target script and leaves every other character alone. -/
theorem C80_call_exact (x y : Script) (m : ScriptMapping) (h : ScriptMapping.init x y = .ok m) :
    ∃ l r, Spec.alphabet x = some l ∧ Spec.alphabet y = some r ∧ l.length ≤ r.length ∧
      ∀ s, m.call s = .ok (s.map (Spec.convertChr l r)) := by
  have hx : x ≠ .unknown := by rintro rfl; cases h
  have hy : y ≠ .unknown := by rintro rfl; cases x <;> cases h
  have bx := scriptStart_bound x hx
  have bY := scriptStart_bound y hy
  refine ⟨_, _, alphabet_eq x hx, alphabet_eq y hy, ?_⟩
  unfold ScriptMapping.init at h
  rw [knownBands_getItem, knownBands_getItem, if_neg hx, if_neg hy] at h
  change (if _ then _ else _) = _ at h
  split at h
  · rename_i hl
    cases h
    simp only [List.length_range']
    refine ⟨by omega, ?_⟩
    intro s
    apply call_eq_map
    intro c
    rw [convertChr_range'_le _ _ _ _ _ (by omega)]
    simp only
    constructor
    · intro hc
      rw [if_pos (by omega)]
      exact unichr_ok (by omega) (by omega)
    · intro hc
      rw [if_neg (by omega)]
  · cases h

/-- C80: a constructed mapping loses nothing on strings without characters of the target script:
different strings have different images. -/
theorem C80_lossless (x y : Script) (m : ScriptMapping) (h : ScriptMapping.init x y = .ok m)
    (s s' : Str) (hs : ∀ c ∈ s, scriptType [c] ≠ y) (hs' : ∀ c ∈ s', scriptType [c] ≠ y)
    (he : m.call s = m.call s') : s = s' := by
  have hx : x ≠ .unknown := by rintro rfl; cases h
  have hy : y ≠ .unknown := by rintro rfl; cases x <;> cases h
  obtain ⟨l, r, hl, hr, hle, hc⟩ := C80_call_exact x y m h
  rw [hc, hc] at he
  replace he := Except.ok.inj he
  have m1 : ∀ c ∈ s, c ∉ r := fun c hc hcr => hs c hc ((C80_alphabet y r hr c).1 hcr)
  have m2 : ∀ c ∈ s', c ∉ r := fun c hc hcr => hs' c hc ((C80_alphabet y r hr c).1 hcr)
  rw [alphabet_eq x hx] at hl
  rw [alphabet_eq y hy] at hr
  cases hl; cases hr
  simp only [List.length_range'] at hle
  clear hs hs' hc h
  induction s generalizing s' with
  | nil => cases s' with
    | nil => rfl
    | cons => cases he
  | cons c s ih =>
    cases s' with
    | nil => cases he
    | cons d s' =>
      simp only [List.map_cons, List.cons.injEq] at he
      rw [ih s' (fun c hc => m1 c (by simp [hc])) (fun c hc => m2 c (by simp [hc])) he.2]
      have a1 := m1 c (by simp)
      have a2 := m2 d (by simp)
      rw [List.mem_range'_1] at a1 a2
      have he1 := he.1
      rw [convertChr_range'_le _ _ _ _ _ hle, convertChr_range'_le _ _ _ _ _ hle] at he1
      congr 1
      split at he1 <;> split at he1 <;> omega

/-- C01: the module-level converters are the class instances the source builds: constructing
`ScriptMapping(Katakana, Hiragana)` (or the reverse) and calling it is the relabelling along the two
alphabets, on every string. -/
theorem C01_constructed (s : Str) :
    (ScriptMapping.init .katakana .hiragana >>= fun m => m.call s) =
      .ok (s.map (Spec.convertChr Spec.katakanaAlphabet Spec.hiraganaAlphabet)) ∧
    (ScriptMapping.init .hiragana .katakana >>= fun m => m.call s) =
      .ok (s.map (Spec.convertChr Spec.hiraganaAlphabet Spec.katakanaAlphabet)) := by
  rw [toHiragana_eq_call, toKatakana_eq_call, toHiragana_eq_convert, toKatakana_eq_convert]
  exact ⟨rfl, rfl⟩

/-- C04: the ASCII step of `normalize` is the mapping `ScriptMapping(FullAscii, Ascii)`, which always exists
and never fails. -/
theorem C04_constructed (s : Str) :
    (ScriptMapping.init .fullAscii .ascii >>= fun m =>
      m.call (s.map (fun c => (mappedChars.get? c).getD c))) = .ok (normalizeAscii s) :=
  toAscii_eq_call _

example : ∃ m, ScriptMapping.init .halfKatakana .fullAscii = .ok m ∧
    m.call u!"ｱaｲ漢" = .ok u!"１a２漢" := ⟨_, rfl, by decide⟩

example : ScriptMapping.init .kanji .ascii = .error .assertionError := rfl

end Cjk
