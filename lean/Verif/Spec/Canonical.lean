import Verif.Py.Unicode

/-!
# Canonically equivalent texts (specification)

Unicode calls two texts canonically equivalent if they are made of the same characters and marks: a composed character may be replaced by its
decomposition, and neighbouring marks of different classes may change places.
-/

namespace Cjk.Spec

open Py

/-- Canonical equivalence: the least equivalence with the two steps. -/
inductive Canon (U : Ucd) : Str → Str → Prop
  | refl (s : Str) : Canon U s s
  | symm {s t : Str} : Canon U s t → Canon U t s
  | trans {s t u : Str} : Canon U s t → Canon U t u → Canon U s u
  | decompose (a : Str) (c : Chr) (b : Str) : Canon U (a ++ c :: b) (a ++ U.decomp c ++ b)
  | reorder (a : Str) (x y : Chr) (b : Str) : U.decomp x = [x] → U.decomp y = [y] → U.ccc x ≠ 0 → U.ccc y ≠ 0 → U.ccc x ≠ U.ccc y →
      Canon U (a ++ x :: y :: b) (a ++ y :: x :: b)

/-- The voiced and the semi-voiced sound mark (combining). -/
def IsSoundMark (m : Chr) : Prop := m = 0x3099 ∨ m = 0x309a

/-- The characters that are composed with the voiced sound mark, with their base characters. -/
def voicedPairs : List (Chr × Chr) :=
  (u!"がぎぐげござじずぜぞだぢづでどばびぶべぼゔゞガギグゲゴザジズゼゾダヂヅデドバビブベボヴヷヸヹヺヾ").zip
    u!"かきくけこさしすせそたちつてとはひふへほうゝカキクケコサシスセソタチツテトハヒフヘホウワヰヱヲヽ"

/-- The same for the semi-voiced sound mark. -/
def semivoicedPairs : List (Chr × Chr) := (u!"ぱぴぷぺぽパピプペポ").zip u!"はひふへほハヒフヘホ"

/-- What the Unicode database says about sound marks, in every edition. -/
structure KanaUcd (U : Ucd) : Prop where
  /-- decompositions are complete -/
  full : ∀ c, ∀ d ∈ U.decomp c, U.decomp d = [d]
  ne_nil : ∀ c, U.decomp c ≠ []
  voiced : ∀ p ∈ voicedPairs, U.decomp p.1 = [p.2, 0x3099]
  semivoiced : ∀ p ∈ semivoicedPairs, U.decomp p.1 = [p.2, 0x309a]
  /-- no other character is composed with a sound mark -/
  other : ∀ c m, IsSoundMark m → m ∈ U.decomp c → c = m ∨ (∃ b, (c, b) ∈ voicedPairs) ∨ ∃ b, (c, b) ∈ semivoicedPairs
  mark : ∀ m, IsSoundMark m → U.decomp m = [m] ∧ U.ccc m = 8
  base : ∀ p ∈ voicedPairs ++ semivoicedPairs, U.ccc p.2 = 0

end Cjk.Spec
