import Verif.Model.BilingualDict
/-!
# The line formats of the dictionaries, without regular expressions
-/

namespace Cjk.Spec
open Py Cjk

/-- The text before and behind the first `x`. -/
def cut (x : Chr) (s : Str) : Option (Str × Str) :=
  if x ∈ s then some (s.takeWhile (· != x), (s.dropWhile (· != x)).drop 1) else none

/-- Without the newline at the end, if there is one; no other newline is allowed. -/
def chomp (s : Str) : Option Str := if 0x0a ∈ s.dropLast then none else some (s.takeWhile (· != 0x0a))

/-- Without spaces. -/
def unspaced (s : Str) : Str := s.filter (· != 0x20)

/-- The entry for the fields of a line; a line without senses is refused. -/
def lineEntry (word : Str) (reading : Option Str) (senses : List Str) : Except PyErr Entry :=
  if senses = [] then .error .formatError
  else .ok ⟨unspaced word, [unspaced (reading.getD word)], senses⟩

/-- `[reading]` followed by `close` at the front, with the text behind it; otherwise nothing. -/
def bracketed (close : Str) (t : Str) : Option Str × Str :=
  match t with
  | 0x5b :: u =>
    match cut 0x5d u with
    | some (r, v) => if r ≠ [] ∧ close <+: v then (some r, v.drop close.length) else (none, t)
    | none => (none, t)
  | _ => (none, t)

/-- The pieces behind the first slash, without empty ones. -/
def slashPieces (s : Str) : List Str := ((splitChr 0x2f s).drop 1).filter (· ≠ [])

/-- EDICT: `word [reading] /sense/.../sense/`; word without spaces, the reading can be missing. -/
def readEdict (s : Str) : Except PyErr Entry :=
  match cut 0x20 s with
  | none => .error .formatError
  | some (word, t) =>
    if word = [] then .error .formatError
    else
      match chomp (bracketed u!" " t).2 with
      | none => .error .formatError
      | some senses => lineEntry word (bracketed u!" " t).1 (slashPieces senses)

/-- CEDICT: `traditional word [reading] /sense/.../sense/`; everything behind the first newline after the reading is ignored. -/
def readCedict (s : Str) : Except PyErr Entry :=
  match cut 0x20 s with
  | none => .error .formatError
  | some (trad, t) =>
    match cut 0x20 t with
    | none => .error .formatError
    | some (word, u) =>
      if trad = [] ∨ word = [] then .error .formatError
      else lineEntry word (bracketed [] u).1 (slashPieces ((bracketed [] u).2.takeWhile (· != 0x0a)))

/-- jc_kdic: `word [reading]<tab>sense，...，sense`. -/
def readJcKdic (s : Str) : Except PyErr Entry :=
  match cut 0x20 s with
  | none => .error .formatError
  | some (word, t) =>
    match bracketed u!"\t" t with
    | (none, _) => .error .formatError
    | (some reading, u) =>
      match chomp u with
      | none => .error .formatError
      | some senses =>
        if word = [] then .error .formatError
        else lineEntry word (some reading) ((splitChr c!"，" senses).filter (· ≠ []))

/-- A sense without its number `12．`; the digits are those of the class in the pattern, that is without ６. -/
def unnumbered (q : Str) : Str :=
  match q.dropWhile (fun c => u!"１２３４５７８９０".contains c) with
  | 0xff0e :: r => if q.head? ≠ some 0xff0e ∧ r ≠ [] then r else q
  | _ => q

/-- The senses in the pieces between backslashes: the `n` of a `\n` is dropped if the piece before it was a sense. -/
def cjPieces : Bool → List Str → List Str
  | _, [] => []
  | prev, p :: ps =>
    let q := if prev = true ∧ p.head? = some c!"n" then p.drop 1 else p
    if q = [] then cjPieces false ps else unnumbered q :: cjPieces true ps

/-- cj_kdic: `word<tab>reading\nsense\n...\nsense` where `\n` is a backslash and an `n`. -/
def readCjKdic (s : Str) : Except PyErr Entry :=
  match cut 0x09 s with
  | none => .error .formatError
  | some (word, t) =>
    match cut 0x5c t with
    | none => .error .formatError
    | some (reading, u) =>
      if word = [] ∨ reading = [] ∨ u.head? ≠ some c!"n" then .error .formatError
      else
        match chomp (u.drop 1) with
        | none => .error .formatError
        | some senses => lineEntry word (some reading) (cjPieces false (splitChr 0x5c senses))

/-- The reader of a format. -/
def lineReader (name : Str) (line : Str) : Except PyErr Entry :=
  if name = u!"edict" then readEdict line
  else if name = u!"jc_kdic" then readJcKdic line
  else if name = u!"cj_kdic" then readCjKdic line
  else readCedict line

end Cjk.Spec
