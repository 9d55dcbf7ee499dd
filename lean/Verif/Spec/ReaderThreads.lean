import Verif.Model.ReaderThreads
/-!
# Specification: readers and threads

In terms of what was seen, in order.
-/

namespace Cjk.Spec
open Py

variable {A : Type}

/-- The file whose dictionary was stored last in an attribute; at first it is file 0. -/
def lastStored [DecidableEq A] (a : A) : List (Nat × RSeen A) → Nat → Nat
  | [], f => f
  | (_, .stored b g) :: es, f => lastStored a es (if b = a then g else f)
  | _ :: es, f => lastStored a es f

/-- The files whose assignment has begun, in this order. -/
def begunFiles : List (Nat × RSeen A) → List Nat
  | [] => []
  | (_, .began (.assign f)) :: es => f :: begunFiles es
  | _ :: es => begunFiles es

/-- The number of assignments that have ended. -/
def endedCount : List (Nat × RSeen A) → Nat
  | [] => 0
  | (_, .assigned _) :: es => endedCount es + 1
  | _ :: es => endedCount es

/-- What thread `t` loaded. -/
def loadsBy (t : Nat) : List (Nat × RSeen A) → List (A × Nat)
  | [] => []
  | (u, .loaded a f) :: es => if u = t then (a, f) :: loadsBy t es else loadsBy t es
  | _ :: es => loadsBy t es

/-- A lookup of thread `t` that loads these attributes begins behind `pre`, goes on during `mid` and ends with the dictionaries of these files. -/
structure Lookup (trace : List (Nat × RSeen A)) (t : Nat) (loads : List A) (pre mid : List (Nat × RSeen A)) (files : List Nat) : Prop where
  trace : ∃ post, trace = pre ++ (t, .began (.ask loads)) :: (mid ++ (t, .answered files) :: post)
  first : ∀ fs, (t, .answered fs) ∉ mid

/-- Only thread `t0` assigns files. -/
def OneAssigner (calls : Nat → List (RCall A)) (t0 : Nat) : Prop := ∀ t, t ≠ t0 → ∀ f, RCall.assign f ∉ calls t

end Cjk.Spec
