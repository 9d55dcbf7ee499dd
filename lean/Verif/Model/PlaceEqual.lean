import Verif.Model.PlaceHeap
/-!
# Model of `==` on places

`Place` is a subclass of `dict` (place.py:20) and defines no `__eq__`, so `==` is that of dictionaries: it compares the entries, and neither the labels of the
two places nor their readings and aliases.  As in `Model/TreeEqual.lean`, a dictionary does not compare an object with itself, and which side `==` is called
on depends on the version of Python.
-/

namespace Cjk
open Py

/-- `a == b` for two places, with at most `n` comparisons inside each other; `none` is a RecursionError. -/
def placeEqWith (short flip : Bool) (st : PStore) : Nat → Nat → Nat → Option Bool
  | 0, _, _ => none
  | n + 1, a, b =>
    if (placeKids st a).length ≠ (placeKids st b).length then some false
    else (placeKids st a).foldr (fun kv acc =>
      match Dict.get? (placeKids st b) kv.1 with
      | none => some false
      | some w =>
        if short = true ∧ kv.2 = w then acc
        else
          match (if flip then placeEqWith short flip st n w kv.2 else placeEqWith short flip st n kv.2 w) with
          | none => none
          | some false => some false
          | some true => acc) (some true)

end Cjk
