import Verif.Model.PlaceHeap

/-!
# What a walk over places yields while they change
-/

namespace Cjk
open Py

/-- The generator before the `i`-th call of `next`, if the state of the program is `sts j` at the `j`-th call. -/
def Spec.genAt {St γ O : Type} (next : St → γ → O × γ) (sts : Nat → St) (g : γ) : Nat → γ
  | 0 => g
  | i + 1 => (next (sts i) (Spec.genAt next sts g i)).2

/-- What the `i`-th call gives. -/
def Spec.callAt {St γ O : Type} (next : St → γ → O × γ) (sts : Nat → St) (g : γ) (i : Nat) : O := (next (sts i) (Spec.genAt next sts g i)).1

/-- The depths of the first `i` places that a walk yields, each with the label that the place has at the call after. -/
def Spec.passed (yield : Nat → Option (Nat × Nat)) (sts : Nat → PStore) (i : Nat) : List (Nat × Str) :=
  (List.range i).filterMap (fun j => (yield j).map (fun x => (x.1, placeLabel (sts (j + 1)) x.2)))

/-- The label that was passed last at a depth. -/
def Spec.lastLabel (passed : List (Nat × Str)) (depth : Nat) : Str := (((passed.filter (fun x => x.1 = depth)).getLast?).map Prod.snd).getD []

/-- The labels that were passed last above a depth, from depth 0. -/
def Spec.labelsAbove (passed : List (Nat × Str)) (depth : Nat) : List Str := (List.range depth).map (Spec.lastLabel passed)

end Cjk
