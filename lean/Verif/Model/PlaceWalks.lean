import Verif.Model.PlaceHeap

/-!
# The walks of `Place` as generators

`walk` and `walk_with_path` (place.py:155-199) are generator functions: the code up to the next `yield` runs when the program asks for the next place, on the places as they are then.
`Model/PlaceHeap.lean` has the same walks for places that do not change in the meantime.
-/

namespace Cjk
open Py

/-- The generator of `walk` (place.py:162-169): what was yielded last, whose children are not yet on the output stack, and the stack from its top. -/
structure PlaceGen where
  pending : Option (Nat × Nat)
  stack : List (Nat × Nat)

/-- `place.walk()` -/
def PlaceGen.start (r : Nat) : PlaceGen := ⟨none, [(0, r)]⟩

/-- The output stack after lines 167-169, which run only now. -/
def PlaceGen.extended (st : PStore) (g : PlaceGen) : List (Nat × Nat) :=
  match g.pending with
  | none => g.stack
  | some (depth, r) => (placeKids st r).map (fun kp => (depth + 1, kp.2)) ++ g.stack

/-- `next(generator)` (place.py:164-169): depth and place, or `none` for `StopIteration`. -/
def PlaceGen.next (st : PStore) (g : PlaceGen) : Option (Nat × Nat) × PlaceGen :=
  match g.extended st with
  | [] => (none, ⟨none, []⟩)
  | x :: stack => (some x, ⟨some x, stack⟩)

/-- The generator of `walk_with_path` (place.py:171-199). -/
structure PathGen where
  walk : PlaceGen
  path : List Str
  lastDepth : Nat
  lastNode : Option Nat

/-- `place.walk_with_path()` -/
def PathGen.start (r : Nat) : PathGen := ⟨.start r, [], 0, none⟩

/-- The path for the next place (place.py:180-194): `last_node.label` is read now. -/
def PathGen.nextPath (st : PStore) (g : PathGen) (depth : Nat) : Except PyErr (List Str) :=
  if depth = g.lastDepth + 1 then
    match g.lastNode with
    | none => .error .attributeError
    | some r => .ok (g.path ++ [placeLabel st r])
  else if depth = g.lastDepth then .ok g.path
  else if depth < g.lastDepth then .ok (g.path.take (g.path.length - (g.lastDepth - depth)))
  else .error .genericException

/-- `next(generator)` (place.py:179-199): path and place, `none` for `StopIteration`, or an exception, which ends the generator. -/
def PathGen.next (st : PStore) (g : PathGen) : Except PyErr (Option (Str × Nat)) × PathGen :=
  match g.walk.next st with
  | (none, w) => (.ok none, { g with walk := w })
  | (some (depth, r), w) =>
    match g.nextPath st depth with
    | .error e => (.error e, { g with walk := ⟨none, []⟩ })
    | .ok path => (.ok (some (join u!"/" path, r)), ⟨w, path, depth, some r⟩)

end Cjk
