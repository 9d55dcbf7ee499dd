import Verif.Model.Tatoeba
/-!
# Model of a sentence reader whose `filter_row` is overridden (tatoeba.py:189-241, 264-265)

`filter_row` of the class itself keeps every row; a subclass can drop rows with it.
-/

namespace Cjk
open Py

/-- The loop body of the `sentences` setter (tatoeba.py:215-236), with the call of `filter_row`, which the class itself defines as always false (tatoeba.py:264-265). -/
def sentRowHook {D : Type} (strptime : Str → Except PyErr D) (filterRow : List Str → Bool) (languages : Option (List Str)) (a : SentData D)
    (row : List Str) : Except PyErr (SentData D) :=
  if filterRow row then .ok a else sentRow strptime languages a row

/-- The loop of the setter over the rows. -/
def sentRowsHook {D : Type} (strptime : Str → Except PyErr D) (filterRow : List Str → Bool) (languages : Option (List Str)) (a : SentData D) :
    List (List Str) → Except PyErr (SentData D)
  | [] => .ok a
  | row :: rows =>
    match sentRowHook strptime filterRow languages a row with
    | .error e => .error e
    | .ok a' => sentRowsHook strptime filterRow languages a' rows

/-- What the setter computes from the rows (tatoeba.py:190-236); the number of columns is looked at before any row is filtered. -/
def sentLoadHook {D : Type} (strptime : Str → Except PyErr D) (filterRow : List Str → Bool) (languages : Option (List Str)) (rows : Rows) :
    Except PyErr (SentData D) :=
  match rows.1 with
  | [] => .error (rows.2.getD .stopIteration)
  | first :: _ =>
    if first.length = 3 ∨ first.length = 6 then
      match sentRowsHook strptime filterRow languages ⟨[], [], if first.length = 6 then some [] else none⟩ rows.1 with
      | .error e => .error e
      | .ok a =>
        match rows.2 with
        | some e => .error e
        | none => .ok a
    else .error .invalidFileError

end Cjk
