import Verif.Py.Dict
/-!
# Objects that hold each other in dictionaries

`kids r` are the entries of the dictionary of the object `r`.
-/

namespace Cjk
open Py

/-- Following the entries with these keys leads from one object to another. -/
inductive Spec.Leads (kids : Nat → List (Str × Nat)) : Nat → List Str → Nat → Prop where
  | here (r : Nat) : Leads kids r [] r
  | step {r c x : Nat} {k : Str} {ks : List Str} : (k, c) ∈ kids r → Leads kids c ks x → Leads kids r (k :: ks) x

/-- Somewhere below `r` (or at `r`) an object contains itself, directly or not. -/
def Spec.Circular (kids : Nat → List (Str × Nat)) (r : Nat) : Prop :=
  ∃ ks x loop, Spec.Leads kids r ks x ∧ loop ≠ [] ∧ Spec.Leads kids x loop x

end Cjk
