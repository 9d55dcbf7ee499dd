import Verif.Spec.Tatoeba
import Verif.Py.Exc
/-!
# Which exception rejects a Tatoeba file

Stated on the rows of a file: what is wrong with one row, and the first thing wrong with a file.
-/

namespace Cjk.Spec
open Py

/-- The first problem of a file: that of its first bad row, else the exception that ends the file. -/
def firstProblem (problem : List Str → Option PyErr) (rows : Rows) : Option PyErr :=
  (rows.1.findSome? problem).or rows.2

open Classical in
/-- A row of a sentence file that cannot be read. -/
noncomputable def sentProblem {D : Type} (strptime : Str → Except PyErr D) (languages : Option (List Str)) (detailed : Bool)
    (r : List Str) : Option PyErr :=
  if RowOk strptime languages detailed r then none else some .valueError

/-- A row of a links file that is not a pair of numbers. -/
def linkProblem (r : List Str) : Option PyErr := if (pairOf r).isSome then none else some .invalidFileError

/-- The texts that are words in the Tanaka format. -/
def IsWord (s : Str) : Prop := ∃ w : WordParts, w.Ok ∧ (s = w.text ∨ s = w.text ++ [0x0a])

/-- A row of an index file with its two numbers. -/
def IndexIds (r : List Str) : Prop :=
  r.length = 3 ∧ (∃ i, pyInt 10 (r.getD 0 []) = .ok i) ∧ ∃ m, pyInt 10 (r.getD 1 []) = .ok m

/-- A row of an index file that is wanted. -/
def IndexWanted (subset : Option (List Int)) (r : List Str) : Prop :=
  ∀ ids, subset = some ids → ∃ i ∈ ids, pyInt 10 (r.getD 0 []) = .ok i

open Classical in
/-- A row of an index file that cannot be read. -/
noncomputable def indexProblem (subset : Option (List Int)) (r : List Str) : Option PyErr :=
  if ¬ IndexIds r then some .valueError
  else if IndexWanted subset r ∧ ∃ s ∈ splitChr 0x20 (r.getD 2 []), s ≠ [] ∧ ¬ IsWord s then some .invalidEntryError
  else none

end Cjk.Spec
