import Verif.Py.Base

/-!
# `unicodedata.normalize('NFD', s)`

The Unicode character database is a parameter: the full canonical decomposition and the combining class of every character (the
editions that Python 3.7 to 3.9 carry differ only by characters that were added).  Hangul syllables, which CPython decomposes by arithmetic, are in the
same function.
-/

namespace Py

/-- What `unicodedata` knows about characters, as far as NFD needs it. -/
structure Ucd where
  /-- the full canonical decomposition -/
  decomp : Nat → List Nat
  /-- the canonical combining class -/
  ccc : Nat → Nat

/-- One step of the canonical ordering (`nfd_nfkd` in CPython's `unicodedata.c`); the text so far is given backwards.  A mark moves to the front of
marks of a higher class; a character of class 0 neither moves nor is passed. -/
def insertMark (U : Ucd) (c : Nat) : List Nat → List Nat
  | [] => [c]
  | d :: rest => if U.ccc c ≠ 0 ∧ U.ccc c < U.ccc d then d :: insertMark U c rest else c :: d :: rest

/-- Canonical ordering of a text. -/
def canonOrder (U : Ucd) (s : List Nat) : List Nat := (s.foldl (fun acc c => insertMark U c acc) []).reverse

/-- `unicodedata.normalize('NFD', s)`. -/
def nfd (U : Ucd) (s : List Nat) : List Nat := canonOrder U (s.flatMap U.decomp)

end Py
