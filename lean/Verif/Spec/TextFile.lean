import Verif.Py.Base
/-!
# Text files as lines
-/

namespace Cjk.Spec
open Py

/-- The line endings. -/
inductive Ending : Str → Prop where
  | unix : Ending u!"\n"
  | windows : Ending u!"\r\n"
  | mac : Ending u!"\r"

/-- `text` is a way of writing a file with the given lines: every line is followed by a line ending, whichever it is, only the last one can lack it
(and then it is not empty).  A `\r` in front of a `\n` is part of one line ending. -/
inductive TextOf : List Str → Str → Prop where
  | nil : TextOf [] []
  | last {s : Str} (ne : s ≠ []) (h : ∀ c ∈ s, c ≠ c!"\r" ∧ c ≠ c!"\n") : TextOf [s] s
  | cons {s e text : Str} {ls : List Str} (h : ∀ c ∈ s, c ≠ c!"\r" ∧ c ≠ c!"\n") (he : Ending e) (hm : e = u!"\r" → text.head? ≠ some c!"\n")
      (ht : TextOf ls text) : TextOf (s :: ls) (s ++ e ++ text)

/-- The characters that end a line for `str.splitlines`: line feed, vertical tab, form feed, carriage return, the three information separators
FS, GS and RS, NEL, and the line and paragraph separators of Unicode. -/
def WideBreak (c : Nat) : Prop := c ∈ [0x0a, 0x0b, 0x0c, 0x0d, 0x1c, 0x1d, 0x1e, 0x85, 0x2028, 0x2029]

instance (c : Nat) : Decidable (WideBreak c) := inferInstanceAs (Decidable (c ∈ _))

/-- The line endings for `str.splitlines`. -/
inductive WideEnding : Str → Prop where
  | one {c : Nat} (h : WideBreak c) : WideEnding [c]
  | windows : WideEnding u!"\r\n"

/-- `TextOf` with all the line endings of Unicode. -/
inductive WideTextOf : List Str → Str → Prop where
  | nil : WideTextOf [] []
  | last {s : Str} (ne : s ≠ []) (h : ∀ c ∈ s, ¬ WideBreak c) : WideTextOf [s] s
  | cons {s e text : Str} {ls : List Str} (h : ∀ c ∈ s, ¬ WideBreak c) (he : WideEnding e) (hm : e = u!"\r" → text.head? ≠ some c!"\n")
      (ht : WideTextOf ls text) : WideTextOf (s :: ls) (s ++ e ++ text)

end Cjk.Spec
