import Verif.Py.Pattern
/-!
# Specification: the syntax of patterns

A grammar in the style of the documentation of `re`: which texts are patterns, and what they mean as syntax trees.  Nothing here says
how a text is read.
-/

namespace Cjk.Spec
open Py

/-- `c` is the hexadecimal digit of value `v`. -/
def HexDigit (c v : Nat) : Prop := (u!"0123456789abcdef")[v]? = some c ∨ (u!"0123456789ABCDEF")[v]? = some c

/-- ASCII letter or digit. -/
def AsciiAlnum (c : Nat) : Prop := (c!"0" ≤ c ∧ c ≤ c!"9") ∨ (c!"A" ≤ c ∧ c ≤ c!"Z") ∨ (c!"a" ≤ c ∧ c ≤ c!"z")

/-- What can follow a backslash, and what it stands for. -/
inductive EscText : Str → ClsItem → Prop
  | digit : EscText u!"d" .digit
  | tab : EscText u!"t" (.one 0x09)
  | newline : EscText u!"n" (.one 0x0a)
  | hex {a b c d x y z w} : HexDigit a x → HexDigit b y → HexDigit c z → HexDigit d w →
      EscText (u!"u" ++ [a, b, c, d]) (.one (x * 4096 + y * 256 + z * 16 + w))
  | itself {c} : ¬ AsciiAlnum c → EscText [c] (.one c)

/-- One character of a class: any but `\` and `]`, which may only be the first, or an escape. -/
inductive ClsChar (isFirst : Bool) : Str → ClsItem → Prop
  | plain {c} : c ≠ c!"\\" → (c = c!"]" → isFirst = true) → ClsChar isFirst [c] (.one c)
  | escape {t i} : EscText t i → ClsChar isFirst (u!"\\" ++ t) i

/-- The parts of a class with the closing bracket. -/
inductive ClsText : Bool → Str → List ClsItem → Prop
  | close : ClsText false u!"]" []
  | one {f t i s is} : ClsChar f t i → s.head? ≠ some c!"-" → ClsText false s is → ClsText f (t ++ s) (i :: is)
  | hyphen {f t i} : ClsChar f t i → ClsText f (t ++ u!"-]") [i, .one c!"-"]
  | range {f t a t' b s is} : ClsChar f t (.one a) → ClsChar false t' (.one b) → a ≤ b → ClsText false s is →
      ClsText f (t ++ u!"-" ++ t' ++ s) (.range a b :: is)

/-- A class behind its opening bracket. -/
inductive BracketText : Str → Cls → Prop
  | pos {s is} : ClsText true s is → s.head? ≠ some c!"^" → BracketText s ⟨false, is⟩
  | neg {s is} : ClsText true s is → BracketText (u!"^" ++ s) ⟨true, is⟩

/-- The name of a group: ASCII letters, digits and underscores, not beginning with a digit. -/
def GroupName (n : Str) : Prop :=
  n ≠ [] ∧ (∀ c ∈ n, AsciiAlnum c ∨ c = c!"_") ∧ ∀ c, n.head? = some c → ¬ (c!"0" ≤ c ∧ c ≤ c!"9")

/-- A quantifier (or none) behind `a`.  Nothing that can match the empty text is repeated. -/
inductive QuantText (a : Pat) : Str → Pat → Prop
  | none : QuantText a [] a
  | opt : a.isAt = false → QuantText a u!"?" (.opt true a)
  | optLazy : a.isAt = false → QuantText a u!"??" (.opt false a)
  | star : a.isAt = false → a.nullable = false → QuantText a u!"*" (.star true a)
  | starLazy : a.isAt = false → a.nullable = false → QuantText a u!"*?" (.star false a)
  | plus : a.isAt = false → a.nullable = false → QuantText a u!"+" (.plus true a)
  | plusLazy : a.isAt = false → a.nullable = false → QuantText a u!"+?" (.plus false a)

/-- The items without groups inside. -/
inductive AtomText : Str → Pat → Prop
  | dot : AtomText u!"." (.chr .dot)
  | bol : AtomText u!"^" .bol
  | eol : AtomText u!"$" .eol
  | lit {c} : c ∉ u!".^$*+?{\\[(|)" → AtomText [c] (.chr (.lit c))
  | escape {t i} : EscText t i → AtomText (u!"\\" ++ t) (.chr ⟨false, [i]⟩)
  | bracket {s k} : BracketText s k → AtomText (u!"[" ++ s) (.chr k)
  | behind {s k} : BracketText s k → AtomText (u!"(?<=[" ++ s ++ u!")") (.behind k)

/-- The number of the next group, and the names given so far. -/
abbrev Groups := Nat × Dict Str Nat

/-- `Reads m s ν p ν'`: the text `s` is written for the tree `p` (as a sequence, or as alternatives), if groups are numbered from
`ν` on; behind it `ν'` is next.  A group gets its number at its opening parenthesis. -/
inductive Reads : PMode → Str → Groups → Pat → Groups → Prop
  | only {s ν a ν'} : Reads .seq s ν a ν' → Reads .alts s ν a ν'
  | alt {s t ν a ν1 b ν2} : Reads .seq s ν a ν1 → Reads .alts t ν1 b ν2 → Reads .alts (s ++ u!"|" ++ t) ν (.alt a b) ν2
  | nil {ν} : Reads .seq [] ν .eps ν
  | atom {t a q a' s ν b ν'} : AtomText t a → QuantText a q a' → Reads .seq s ν b ν' → Reads .seq (t ++ q ++ s) ν (.cat a' b) ν'
  /-- an opening brace that does not begin a counted repetition -/
  | brace {q a' s ν b ν'} : (∀ c, (q ++ s).head? = some c → c ≠ c!"," ∧ ¬ (c!"0" ≤ c ∧ c ≤ c!"9")) →
      QuantText (.chr (.lit c!"{")) q a' → Reads .seq s ν b ν' → Reads .seq (u!"{" ++ q ++ s) ν (.cat a' b) ν'
  | group {i names u a ν1 q a' s b ν2} : Reads .alts u (i + 1, names) a ν1 → QuantText (.group i a) q a' → Reads .seq s ν1 b ν2 →
      Reads .seq (u!"(" ++ u ++ u!")" ++ q ++ s) (i, names) (.cat a' b) ν2
  | named {i names n u a ν1 q a' s b ν2} : GroupName n → n ∉ Dict.keys names → Reads .alts u (i + 1, Dict.set names n i) a ν1 →
      QuantText (.group i a) q a' → Reads .seq s ν1 b ν2 →
      Reads .seq (u!"(?P<" ++ n ++ u!">" ++ u ++ u!")" ++ q ++ s) (i, names) (.cat a' b) ν2
  | nogroup {ν u a ν1 q a' s b ν2} : Reads .alts u ν a ν1 → QuantText a q a' → Reads .seq s ν1 b ν2 →
      Reads .seq (u!"(?:" ++ u ++ u!")" ++ q ++ s) ν (.cat a' b) ν2

end Cjk.Spec
