import Verif.Py.Csv
import Verif.Py.Set
import Verif.Py.Dict
/-!
# What the Tatoeba readers should do

Stated on the rows of a file, without the dictionaries of the readers.
-/

namespace Cjk.Spec
open Py

/-! ### Sentences -/

/-- The language of a row. -/
def rowLang (r : List Str) : Str := r.getD 1 []

/-- The sentence id of a row. -/
def rowId (r : List Str) : Except PyErr Int := pyInt 10 (r.getD 0 [])

/-- The sentence of a row. -/
def rowText3 (r : List Str) : Str := r.getD 2 []

/-- The rows whose language passes the filter. -/
def accepted (languages : Option (List Str)) (rows : List (List Str)) : List (List Str) :=
  rows.filter (fun r => match languages with
    | none => true
    | some ls => decide (rowLang r ∈ ls))

/-- The last row with an id. -/
def lastRow (rows : List (List Str)) (i : Int) : Option (List Str) :=
  rows.reverse.find? (fun r => decide (rowId r = .ok i))

/-- The date in a column; `\N` and the zero date mean that there is none. -/
def date {D : Type} (strptime : Str → Except PyErr D) (s : Str) : Option D :=
  if s = u!"\\N" ∨ s = u!"0000-00-00 00:00:00" then none else (strptime s).toOption

/-- A date column can be read. -/
def DateOk {D : Type} (strptime : Str → Except PyErr D) (s : Str) : Prop :=
  s = u!"\\N" ∨ s = u!"0000-00-00 00:00:00" ∨ ∃ d, strptime s = .ok d

/-- The details in the last three columns of a detailed row. -/
def rowDetails {D : Type} (strptime : Str → Except PyErr D) (r : List Str) : Option Str × Option D × Option D :=
  (if r.getD 3 [] = u!"\\N" then none else some (r.getD 3 []), date strptime (r.getD 4 []), date strptime (r.getD 5 []))

/-- A row that can be loaded. -/
def RowOk {D : Type} (strptime : Str → Except PyErr D) (languages : Option (List Str)) (detailed : Bool) (r : List Str) : Prop :=
  3 ≤ r.length ∧ (r ∈ accepted languages [r] → (∃ i, rowId r = .ok i) ∧
    (detailed = true → 6 ≤ r.length ∧ DateOk strptime (r.getD 4 []) ∧ DateOk strptime (r.getD 5 [])))

/-! ### Links -/

/-- The pair of ids of a row of a links file. -/
def pairOf (r : List Str) : Option (Int × Int) :=
  match r with
  | [a, b] => (pyInt 10 a).toOption.bind (fun x => (pyInt 10 b).toOption.map (fun y => (x, y)))
  | _ => none

/-- The names of the filters. -/
inductive FilterName where
  | sentId | transId | both
deriving DecidableEq

def FilterName.text : FilterName → Str
  | .sentId => u!"sent_id"
  | .transId => u!"trans_id"
  | .both => u!"both"

/-- Which links are accepted under a filter. -/
def linkAccepted (subset : Option (List Int)) (f : FilterName) (p : Int × Int) : Bool :=
  match subset with
  | none => true
  | some ids =>
    match f with
    | .sentId => decide (p.1 ∈ ids)
    | .transId => decide (p.2 ∈ ids)
    | .both => decide (p.1 ∈ ids) && decide (p.2 ∈ ids)

/-- The accepted links of a file. -/
def links (subset : Option (List Int)) (f : FilterName) (rows : List (List Str)) : List (Int × Int) :=
  (rows.filterMap pairOf).filter (linkAccepted subset f)

/-- An id that occurs in a link. -/
def Occurs (ls : List (Int × Int)) (i : Int) : Prop := ∃ p ∈ ls, i = p.1 ∨ i = p.2

/-- Two ids are connected by a chain of links. -/
inductive Linked (ls : List (Int × Int)) : Int → Int → Prop
  | step {a b : Int} : (a, b) ∈ ls → Linked ls a b
  | refl {a : Int} : Linked ls a a
  | symm {a b : Int} : Linked ls a b → Linked ls b a
  | trans {a b c : Int} : Linked ls a b → Linked ls b c → Linked ls a c

/-- No link joins two groups that exist already and are not connected yet. -/
def NeverMerges (ls : List (Int × Int)) : Prop :=
  ∀ before p after, ls = before ++ p :: after → Occurs before p.1 → Occurs before p.2 → Linked before p.1 p.2

end Cjk.Spec

namespace Cjk.Spec
open Py

/-! ### Words -/

/-- The parts of the text of a word in the Tanaka format: `headword(reading)|legacy[sense]{display}~`. -/
structure WordParts where
  headword : Str
  reading : Option Str
  legacy : Option Str
  sense : Option Str
  display : Option Str
  isExample : Bool

/-- A piece in brackets. -/
def inBrackets (a b : Nat) (o : Option Str) : Str := match o with
  | none => []
  | some s => [a] ++ s ++ [b]

/-- The text with these parts. -/
def WordParts.text (w : WordParts) : Str :=
  w.headword ++ inBrackets 0x28 0x29 w.reading ++ (match w.legacy with | none => [] | some s => [0x7c] ++ s) ++
    inBrackets 0x5b 0x5d w.sense ++ inBrackets 0x7b 0x7d w.display ++ (if w.isExample then [0x7e] else [])

/-- A headword: not empty, without `( [ { | ~`. -/
def HeadwordOk (s : Str) : Prop := s ≠ [] ∧ ∀ c ∈ s, c ≠ 0x28 ∧ c ≠ 0x5b ∧ c ≠ 0x7b ∧ c ≠ 0x7c ∧ c ≠ 0x7e

/-- An optional part: not empty if there, and without the closing bracket. -/
def PartOk (close : Nat) (o : Option Str) : Prop := ∀ s, o = some s → s ≠ [] ∧ ∀ c ∈ s, c ≠ close

/-- An optional number. -/
def NumberOk (o : Option Str) : Prop := ∀ s, o = some s → s ≠ [] ∧ ∀ c ∈ s, isDigit c = true

/-- The parts have the right form. -/
def WordParts.Ok (w : WordParts) : Prop :=
  HeadwordOk w.headword ∧ PartOk 0x29 w.reading ∧ NumberOk w.legacy ∧ NumberOk w.sense ∧ PartOk 0x7d w.display

end Cjk.Spec
