import Verif.Spec.Pinyin
/-!
# Specification: pinyin as it is typed (C167)
-/

namespace Cjk.Spec
open Py

/-- A typed syllable, its tone digit if any, and what stands between it and the next one. -/
structure Typed where
  /-- The syllable. -/
  syllable : Str
  /-- Its tone digit. -/
  tone : Option Nat
  /-- An apostrophe, a hyphen, ... or nothing. -/
  gap : Str

/-- The tone digit as a text. -/
def toneText : Option Nat → Str
  | none => []
  | some d => [0x30 + d]

/-- The whole text (spaces aside). -/
def typed : List Typed → Str
  | [] => []
  | x :: l => x.syllable ++ (toneText x.tone ++ (x.gap ++ typed l))

/-- What the segmenter should find. -/
def meant (l : List Typed) : List (Str × Int) := l.map (fun x => (reported x.syllable, ((x.tone.getD 0 : Nat) : Int)))

/-- Syllables of the table, tones 0 to 5, and gaps of characters that occur in no syllable and are no digits or `#`. -/
def WellTyped (syllables : List Str) (l : List Typed) : Prop :=
  ∀ x ∈ l, x.syllable ∈ syllables ∧ (∀ d, x.tone = some d → d ≤ 5) ∧
    ∀ c ∈ x.gap, c ≠ 0x23 ∧ ¬ ToneDigit c ∧ ∀ s ∈ syllables, c ∉ s

/-- No syllable that runs into the next one makes up a longer syllable with what follows. -/
def NoLonger (syllables : List Str) (l : List Typed) : Prop :=
  ∀ before x after, l = before ++ x :: after → x.tone = none → x.gap = [] →
    ∀ s ∈ syllables, s <+: x.syllable ++ typed after → s.length ≤ x.syllable.length

end Cjk.Spec
