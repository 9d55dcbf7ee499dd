/-!
# The parts of Python the model rests on: strings and exceptions

Python 3 `str` values are modelled as lists of code points.  Nothing in here is code of
cjktools; these are definitions of the *language* the code is written in.
-/

namespace Py

/-- A Python character is its code point (`ord`).  Lone surrogates are included. -/
scoped macro "Chr" : term => `(Nat)

/-- A Python 3 `str`: its sequence of code points. -/
abbrev Str := List Nat

open Lean in
/-- `u!"..."` expands, at elaboration time, to the list of code points of the literal. -/
macro:max "u!" s:str : term => do
  let cs := s.getString.toList.map (fun c => Syntax.mkNumLit (toString c.toNat))
  `(([ $[$(cs.toArray)],* ] : Str))

open Lean in
/-- `c!"x"` is the code point of a one-character literal. -/
macro:max "c!" s:str : term => do
  match s.getString.toList with
  | [c] => return Syntax.mkNumLit (toString c.toNat)
  | _ => Macro.throwError "c! expects exactly one character"

/-- Exceptions, by class.  Messages are not modelled. -/
inductive PyErr where
  | keyError | valueError | typeError | indexError | assertionError | attributeError
  | stopIteration | zeroDivisionError | osError | genericException
  | unknownFormatError | formatError | missingDataError | invalidFileError | invalidIDError
  | invalidEntryError | notYetImplementedError | missingCJKDataError | unpicklingError
  | recursionError
deriving DecidableEq, Repr

instance : BEq PyErr := instBEqOfDecidableEq

deriving instance DecidableEq for Except

/-- `str.isspace` / the whitespace used by `strip()` and `split()` (CPython `_PyUnicode_IsWhitespace`). -/
def isSpace (c : Chr) : Bool :=
  (0x09 ≤ c && c ≤ 0x0d) || (0x1c ≤ c && c ≤ 0x20) || c == 0x85 || c == 0xa0 || c == 0x1680 ||
  (0x2000 ≤ c && c ≤ 0x200a) || c == 0x2028 || c == 0x2029 || c == 0x202f || c == 0x205f ||
  c == 0x3000

/-- `s.lstrip()` -/
def lstrip (s : Str) : Str := s.dropWhile isSpace

/-- `s.rstrip()` -/
def rstrip (s : Str) : Str := (s.reverse.dropWhile isSpace).reverse

/-- `s.strip()` -/
def strip (s : Str) : Str := rstrip (lstrip s)

/-- Worker of `split`: `cur` is the current piece, reversed. -/
def splitWsAux : Str → Str → List Str
  | cur, [] => if cur.isEmpty then [] else [cur.reverse]
  | cur, c :: s =>
    if isSpace c then
      if cur.isEmpty then splitWsAux [] s else cur.reverse :: splitWsAux [] s
    else splitWsAux (c :: cur) s

/-- `s.split()`: the maximal runs of non-whitespace. -/
def splitWs (s : Str) : List Str := splitWsAux [] s

/-- `s.split(sep)` for a one-character separator. -/
def splitChr (sep : Chr) : Str → List Str
  | [] => [[]]
  | c :: s =>
    if c = sep then [] :: splitChr sep s
    else match splitChr sep s with
      | [] => [[c]]          -- unreachable: `splitChr` is never empty
      | p :: ps => (c :: p) :: ps

/-- `sep.join(parts)` -/
def join (sep : Str) : List Str → Str
  | [] => []
  | [p] => p
  | p :: q :: ps => p ++ sep ++ join sep (q :: ps)

/-- `s.replace(c, r)` for a one-character pattern. -/
def replaceChr (c : Chr) (r : Str) (s : Str) : Str := s.flatMap (fun x => if x = c then r else [x])

/-- `s.find(c)` for a one-character pattern; `none` stands for `-1`. -/
def findChr (c : Chr) : Str → Option Nat
  | [] => none
  | x :: s => if x = c then some 0 else (findChr c s).map (· + 1)

/-- `s.startswith(p)` -/
def startsWith (s p : Str) : Bool := p.isPrefixOf s

/-- `s.endswith(p)` -/
def endsWith (s p : Str) : Bool := p.isSuffixOf s

/-- `p in s` for strings. -/
def isInfix (p s : Str) : Bool := match s with
  | [] => p.isEmpty
  | c :: t => p.isPrefixOf (c :: t) || isInfix p t

/-- `s.index(p)` for strings: position of the first occurrence, else `ValueError`. -/
def index (s p : Str) : Except PyErr Nat := go 0 s
where
  /-- search from position `i` in the rest `t` -/
  go (i : Nat) (t : Str) : Except PyErr Nat :=
    if p.isPrefixOf t then .ok i
    else match t with
      | [] => .error .valueError
      | _ :: t' => go (i + 1) t'

/-- `s[i]` for a non-negative index. -/
def getItem {α : Type _} (s : List α) (i : Nat) : Except PyErr α :=
  match s[i]? with
  | some a => .ok a
  | none => .error .indexError

/-- `s[i]` for any index, with Python's negative indexing. -/
def getItemI {α : Type _} (s : List α) (i : Int) : Except PyErr α :=
  if 0 ≤ i then getItem s i.toNat
  else if 0 ≤ i + s.length then getItem s (i + s.length).toNat
  else .error .indexError

/-- Code point order on strings (`<`). -/
def strLt : Str → Str → Bool
  | [], [] => false
  | [], _ :: _ => true
  | _ :: _, [] => false
  | a :: s, b :: t => if a < b then true else if b < a then false else strLt s t

/-- The code points with Unicode category Nd and decimal value zero (Unicode 14; every run of ten
code points from such a zero is a run of digits).  Newer or older Unicode versions differ only by
whole runs. -/
def digitZeros : List Nat :=
  [0x30, 0x660, 0x6f0, 0x7c0, 0x966, 0x9e6, 0xa66, 0xae6, 0xb66, 0xbe6, 0xc66, 0xce6, 0xd66, 0xde6,
   0xe50, 0xed0, 0xf20, 0x1040, 0x1090, 0x17e0, 0x1810, 0x1946, 0x19d0, 0x1a80, 0x1a90, 0x1b50,
   0x1bb0, 0x1c40, 0x1c50, 0xa620, 0xa8d0, 0xa900, 0xa9d0, 0xa9f0, 0xaa50, 0xabf0, 0xff10, 0x104a0,
   0x10d30, 0x11066, 0x110f0, 0x11136, 0x111d0, 0x112f0, 0x11450, 0x114d0, 0x11650, 0x116c0,
   0x11730, 0x118e0, 0x11950, 0x11c50, 0x11d50, 0x11da0, 0x16a60, 0x16ac0, 0x16b50, 0x1d7ce,
   0x1d7d8, 0x1d7e2, 0x1d7ec, 0x1d7f6, 0x1e140, 0x1e2f0, 0x1e950, 0x1fbf0]

/-- Decimal value of a character (`unicodedata.decimal`), if it has category Nd. -/
def decVal (c : Chr) : Option Nat :=
  (digitZeros.find? (fun z => z ≤ c && c < z + 10)).map (fun z => c - z)

/-- `\d` in a `str` pattern. -/
def isDigit (c : Chr) : Bool := (decVal c).isSome

/-- Value of a character as a digit in base 10 or 16 (`int(s, 16)` also takes ASCII letters). -/
def digitVal (base : Nat) (c : Chr) : Option Nat :=
  match decVal c with
  | some d => if d < base then some d else none
  | none =>
    let v := if 0x61 ≤ c ∧ c ≤ 0x7a then c - 0x61 + 10
             else if 0x41 ≤ c ∧ c ≤ 0x5a then c - 0x41 + 10 else base
    if v < base then some v else none

/-- Digits of an integer literal, with single underscores allowed between digits. `acc` is the value so
far; `prevDigit` says whether the previous character was a digit. -/
def digitsVal (base : Nat) : Nat → Bool → Str → Option Nat
  | acc, prevDigit, [] => if prevDigit then some acc else none
  | acc, prevDigit, c :: s =>
    if c = 0x5f then (if prevDigit then digitsVal base acc false s else none)
    else match digitVal base c with
      | some d => digitsVal base (acc * base + d) true s
      | none => none

/-- Unsigned part of `int(s, base)`; for base 16 an optional `0x`/`0X` prefix, which may be
followed by one underscore. -/
def unsignedVal (base : Nat) (s : Str) : Option Nat :=
  match base, s with
  | 16, 0x30 :: x :: rest =>
    if x = 0x78 ∨ x = 0x58 then
      match rest with
      | 0x5f :: rest' => digitsVal 16 0 false rest'
      | _ => digitsVal 16 0 false rest
    else digitsVal 16 0 false s
  | _, _ => digitsVal base 0 false s

/-- `int(s, base)` on a string, for base 10 and 16. -/
def pyInt (base : Nat) (s : Str) : Except PyErr Int :=
  let r := match strip s with
    | 0x2b :: t => (unsignedVal base t).map Int.ofNat
    | 0x2d :: t => (unsignedVal base t).map (fun n => - Int.ofNat n)
    | t => (unsignedVal base t).map Int.ofNat
  match r with
  | some i => .ok i
  | none => .error .valueError

/-- Decimal digits of a natural number, least significant first. -/
def revDigits (n : Nat) : Str :=
  if h : n < 10 then [0x30 + n] else (0x30 + n % 10) :: revDigits (n / 10)
termination_by n
decreasing_by omega

/-- `str(n)` / `'%d' % n` for a natural number. -/
def showNat (n : Nat) : Str := (revDigits n).reverse

/-- `'%d' % i` -/
def showInt (i : Int) : Str := if i < 0 then 0x2d :: showNat i.natAbs else showNat i.natAbs

/-- `'{:02}'.format(n)` for a natural number. -/
def showNat02 (n : Nat) : Str := if n < 10 then 0x30 :: showNat n else showNat n

end Py
