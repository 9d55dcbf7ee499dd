import Verif.Model.Maps
/-!
# The functions of `cjktools/maps.py` on objects

Model/Maps.lean treats the lists and sets in dictionaries as values.  Here they are objects in a store, referred to by their index, so that it can be said which
objects the functions change and which their results contain.  The store has lists and sets alike: a set is a list without duplicates.
-/

namespace Cjk
open Py

section
variable {X : Type} [DecidableEq X]

/-- The lists and sets of a program. -/
abbrev Cells (X : Type) := List (List X)

/-- The items of an object. -/
def Cells.items (h : Cells X) (r : Nat) : List X := h.getD r []

/-- `d.setdefault(k, []).append(x)` (maps.py:41); in `multi_dict` (maps.py:117-121): `l = d.get(k, []); l.append(x); d[k] = l`. -/
def appendCell (s : Cells X × Dict X Nat) (k x : X) : Cells X × Dict X Nat :=
  match Dict.get? s.2 k with
  | some r => (s.1.set r (s.1.items r ++ [x]), s.2)
  | none => (s.1 ++ [[x]], Dict.set s.2 k s.1.length)

/-- `invert_mapping` (maps.py:33-43): the store afterwards and the new dictionary. -/
def invertCells (h : Cells X) (d : Dict X Nat) : Cells X × Dict X Nat :=
  d.foldl (fun s kr => (s.1.items kr.2).foldl (fun s v => appendCell s v kr.1) s) (h, [])

/-- `multi_dict` (maps.py:99-123). -/
def multiCells (h : Cells X) (pairs : List (X × X)) : Cells X × Dict X Nat :=
  pairs.foldl (fun s kv => appendCell s kv.1 kv.2) (h, [])

/-- The loop body of `merge_dicts` (maps.py:153-157): `unified_dict[key].update(items)` or `unified_dict[key] = set(items)`. -/
def mergeCell (s : Cells X × Dict X Nat) (kr : X × Nat) : Cells X × Dict X Nat :=
  match Dict.get? s.2 kr.1 with
  | some r => (s.1.set r (dedup (s.1.items r ++ s.1.items kr.2)), s.2)
  | none => (s.1 ++ [dedup (s.1.items kr.2)], Dict.set s.2 kr.1 s.1.length)

/-- `merge_dicts` (maps.py:146-159). -/
def mergeCells (h : Cells X) (args : List (Dict X Nat)) : Cells X × Dict X Nat := args.flatten.foldl mergeCell (h, [])

end

end Cjk
