import Verif.Py.Base
/-!
# Specification for zhuyin and pinyin
-/

namespace Cjk.Spec
open Py

/-! ### The table file -/

/-- The fields of the lines that are not comments. -/
def tableRows (lines : List Str) : List (List Str) := (lines.filter (fun l => l.head? ≠ some 0x23)).map splitWs

/-- Every row has two fields. -/
def RowsOk (lines : List Str) : Prop := ∀ r ∈ tableRows lines, r.length = 2

/-- The (zhuyin, pinyin) pairs of the file, in order. -/
def tablePairs (lines : List Str) : List (Str × Str) := (tableRows lines).map (fun r => (r.getD 0 [], r.getD 1 []))

/-- The value of the last pair with this key. -/
def lastValue {β : Type} (k : Str) (l : List (Str × β)) : Option β := (l.reverse.find? (fun p => p.1 = k)).map Prod.snd

/-! ### Lower case -/

/-- Lower case of an ASCII character. -/
def lowerChr (c : Nat) : Nat := if 0x41 ≤ c ∧ c ≤ 0x5a then c + 0x20 else c

/-- What is used of `str.lower`: what it does with ASCII strings, and that characters of a lower case string (and `ü`) do not
change again. -/
structure IsLower (lower : Str → Str) : Prop where
  ascii : ∀ s, (∀ c ∈ s, c < 128) → lower s = s.map lowerChr
  stable : ∀ s t, (∀ c ∈ t, c ∈ lower s ∨ c = 0xfc) → lower t = t

/-- The spelling in which a text is looked at: lower case, without spaces, `v` read as `ü`. -/
def normal (lower : Str → Str) (s : Str) : Str :=
  ((lower s).filter (fun c => c ≠ 0x20)).map (fun c => if c = 0x76 then 0xfc else c)

/-- The canonical spelling of an ASCII text: no spaces, lower case, `v` read as `ü`. -/
def canon (s : Str) : Str :=
  (s.filter (fun c => c ≠ 0x20)).map (fun c => if lowerChr c = 0x76 then 0xfc else lowerChr c)

/-! ### Segmentation -/

/-- A tone: nothing or a digit 0 to 5. -/
inductive ToneText : Str → Int → Prop
  | none : ToneText [] 0
  | digit (d : Nat) : d ≤ 5 → ToneText [0x30 + d] d

/-- A tone digit. -/
def ToneDigit (c : Nat) : Prop := 0x30 ≤ c ∧ c ≤ 0x35

/-- How a syllable is reported: the short form `r` as `er`. -/
def reported (s : Str) : Str := if s = [0x72] then [0x65, 0x72] else s

/-- Scanning from left to right: the longest syllable at each position with its tone, else a `#`, else a character to skip. -/
inductive Segments (syllables : List Str) : Str → List (Str × Int) → Prop
  | nil : Segments syllables [] []
  | syllable (s tone rest : Str) (t : Int) (out : List (Str × Int)) : s ∈ syllables →
      (∀ s' ∈ syllables, s' <+: s ++ (tone ++ rest) → s'.length ≤ s.length) →
      ToneText tone t → (tone = [] → ∀ c, rest.head? = some c → ¬ ToneDigit c) → Segments syllables rest out →
      Segments syllables (s ++ (tone ++ rest)) ((reported s, t) :: out)
  | hash (rest : Str) (out : List (Str × Int)) : (∀ s ∈ syllables, ¬ s <+: 0x23 :: rest) → Segments syllables rest out →
      Segments syllables (0x23 :: rest) (([], 0) :: out)
  | skip (c : Nat) (rest : Str) (out : List (Str × Int)) : c ≠ 0x23 → (∀ s ∈ syllables, ¬ s <+: c :: rest) →
      Segments syllables rest out → Segments syllables (c :: rest) out

/-- A text written with a tone digit after each syllable. -/
def toned : List (Str × Nat) → Str
  | [] => []
  | (s, d) :: l => s ++ [0x30 + d] ++ toned l

/-- A text that consists of syllables with optional tones. -/
inductive AllPinyin (syllables : List Str) : Str → Prop
  | one (s tone : Str) (t : Int) : s ∈ syllables → ToneText tone t → AllPinyin syllables (s ++ tone)
  | more (s tone rest : Str) (t : Int) : s ∈ syllables → ToneText tone t → AllPinyin syllables rest →
      AllPinyin syllables (s ++ tone ++ rest)

/-! ### Tones -/

/-- The marked vowels with their plain vowel and tone. -/
def marks : List (Nat × Nat × Int) :=
  [(0x101, 0x61, 1), (0x113, 0x65, 1), (0x12b, 0x69, 1), (0x14d, 0x6f, 1), (0x16b, 0x75, 1), (0x1d6, 0xfc, 1),
   (0xe1, 0x61, 2), (0xe9, 0x65, 2), (0xed, 0x69, 2), (0xf3, 0x6f, 2), (0xfa, 0x75, 2), (0x1d8, 0xfc, 2),
   (0x1ce, 0x61, 3), (0x11b, 0x65, 3), (0x1d0, 0x69, 3), (0x1d2, 0x6f, 3), (0x1d4, 0x75, 3), (0x1da, 0xfc, 3),
   (0xe0, 0x61, 4), (0xe8, 0x65, 4), (0xec, 0x69, 4), (0xf2, 0x6f, 4), (0xf9, 0x75, 4), (0x1dc, 0xfc, 4)]

/-- The plain vowel of a marked one; every other character is left alone. -/
def unmarkChr (c : Nat) : Nat := match marks.find? (fun m => m.1 = c) with
  | some m => m.2.1
  | none => c

/-- The string without tone marks. -/
def unmark (s : Str) : Str := s.map unmarkChr

/-- A plain vowel. -/
def IsVowel (c : Nat) : Prop := c = 0x61 ∨ c = 0x65 ∨ c = 0x69 ∨ c = 0x6f ∨ c = 0x75 ∨ c = 0xfc

/-- The tone of a marked character. -/
def markTone (c : Nat) : Option Int := (marks.find? (fun m => m.1 = c)).map (fun m => m.2.2)

/-! ### The patterns -/

/-- A digit from `0` to `hi` at the beginning of `s`, or nothing if there is none. -/
def DigitAt (hi : Nat) (s t : Str) : Prop :=
  (∃ d r, s = d :: r ∧ 0x30 ≤ d ∧ d ≤ hi ∧ t = [d]) ∨ ((∀ d r, s = d :: r → ¬ (0x30 ≤ d ∧ d ≤ hi)) ∧ t = [])

/-- The syllables that `pinyin_regex_pattern` is about: `r` and the pinyin of the table. -/
def patternSyllables (lines : List Str) : List Str := u!"r" :: (tablePairs lines).map Prod.snd

end Cjk.Spec
