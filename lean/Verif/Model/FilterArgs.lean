import Verif.Model.Tatoeba
/-!
# Model of what a filter is given by

A sentence reader keeps the object it was given as `languages` and asks `lang not in self.languages` for every row (tatoeba.py:113, 221).  What `in` means
depends on the kind of object.  The links and index readers make a set of the given ids (tatoeba.py:400-401, 665-667).
-/

namespace Cjk
open Py

/-- What was given as `languages`: nothing; a list, tuple, set or dictionary; a text; an iterator that still has these items. -/
inductive LangArg where
  | absent
  | items (l : List Str)
  | text (s : Str)
  | iterator (l : List Str)

/-- `self.languages is None or lang in self.languages` (tatoeba.py:221), and the object afterwards.  In a text `in` looks for a part; an iterator is read up
to the first equal item. -/
def LangArg.test : LangArg → Str → Bool × LangArg
  | .absent, _ => (true, .absent)
  | .items l, lang => (decide (lang ∈ l), .items l)
  | .text s, lang => (isInfix lang s, .text s)
  | .iterator l, lang =>
    match l.dropWhile (fun x => x ≠ lang) with
    | [] => (false, .iterator [])
    | _ :: rest => (true, .iterator rest)

/-- The loop body of the `sentences` setter (tatoeba.py:215-236): the columns are unpacked first, then the filter is asked, then the row is stored. -/
def sentRowArg {D : Type} (strptime : Str → Except PyErr D) (f : LangArg) (a : SentData D) (row : List Str) : Except PyErr (SentData D) × LangArg :=
  match row.take 3 with
  | [_, lang, _] => if (f.test lang).1 then (sentRow strptime none a row, (f.test lang).2) else (.ok a, (f.test lang).2)
  | _ => (.error .valueError, f)

/-- The loop over the rows. -/
def sentRowsArg {D : Type} (strptime : Str → Except PyErr D) (f : LangArg) (a : SentData D) : List (List Str) → Except PyErr (SentData D) × LangArg
  | [] => (.ok a, f)
  | row :: rows =>
    match sentRowArg strptime f a row with
    | (.error e, f') => (.error e, f')
    | (.ok a', f') => sentRowsArg strptime f' a' rows

/-- What the setter computes from the rows (tatoeba.py:190-236), and the object afterwards. -/
def sentLoadArg {D : Type} (strptime : Str → Except PyErr D) (f : LangArg) (rows : Rows) : Except PyErr (SentData D) × LangArg :=
  match rows.1 with
  | [] => (.error (rows.2.getD .stopIteration), f)
  | first :: _ =>
    if first.length = 3 ∨ first.length = 6 then
      match sentRowsArg strptime f ⟨[], [], if first.length = 6 then some [] else none⟩ rows.1 with
      | (.error e, f') => (.error e, f')
      | (.ok a, f') =>
        match rows.2 with
        | some e => (.error e, f')
        | none => (.ok a, f')
    else (.error .invalidFileError, f)

/-! ### Changing the collection afterwards -/

/-- The collections of a program, and the one that the reader looks at. -/
structure KeptArg (α : Type) where
  colls : List (List α)
  kept : Nat

/-- `self.languages = languages` (tatoeba.py:113): the reader looks at the object it was given. -/
def keepGiven {α : Type} (colls : List (List α)) (c : Nat) : KeptArg α := ⟨colls, c⟩

/-- `set(value)` (tatoeba.py:401, 667): the reader looks at a new object with the same members. -/
def keepSet {α : Type} (colls : List (List α)) (c : Nat) : KeptArg α := ⟨colls ++ [colls.getD c []], colls.length⟩

/-- The program changes one of its collections. -/
def KeptArg.change {α : Type} (k : KeptArg α) (c : Nat) (new : List α) : KeptArg α := ⟨k.colls.set c new, k.kept⟩

/-- What the reader finds there when it loads a file. -/
def KeptArg.current {α : Type} (k : KeptArg α) : List α := k.colls.getD k.kept []

end Cjk
