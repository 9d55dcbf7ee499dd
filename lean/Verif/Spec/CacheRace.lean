import Verif.Model.CacheRace
/-!
# Vocabulary for processes that share a cache file
-/

namespace Cjk.Spec
open Py

/-- No cache file, no process in a call. -/
def quiet (P : PickleObjects) : Race P := ⟨none, fun _ => .idle⟩

/-- Every call that has returned gave the result of the method for these or equal arguments. -/
def AllRight {P : PickleObjects} (method : P.Obj → P.Obj → Except PyErr P.Obj) (w : Race P) : Prop :=
  ∀ i args params o, w.procs i = .returned args params o →
    method args params = .ok o ∨ ∃ a p, P.eq a args = .ok true ∧ P.eq p params = .ok true ∧ method a p = .ok o

/-- Whatever is stored is written with one system call. -/
def WholeWrite {P : PickleObjects} (w : Race P) : RaceEv P → Prop
  | .write i n => ∀ args params o todo pos, w.procs i = .writing args params o todo pos → todo.length ≤ n
  | _ => True

/-- The cache file is read with one system call. -/
def WholeRead {P : PickleObjects} (w : Race P) : RaceEv P → Prop
  | .read i n => ∀ args params got f, w.procs i = .reading args params got → w.file = some f → got = [] ∧ f.length ≤ n
  | _ => True

/-- All processes call with these arguments. -/
def OnlyCall {P : PickleObjects} (a p : P.Obj) : RaceEv P → Prop
  | .call _ args params => args = a ∧ params = p
  | _ => True

/-- A process is storing a value. -/
def Storing {P : PickleObjects} (w : Race P) (j : Nat) : Prop := ∃ args params o todo pos, w.procs j = .writing args params o todo pos

/-- A process has read a part of the cache file and not yet decided. -/
def HalfRead {P : PickleObjects} (w : Race P) (j : Nat) : Prop := ∃ args params got, w.procs j = .reading args params got ∧ got ≠ []

/-- The cache file is opened for writing only when no process is storing a value. -/
def OneWriter {P : PickleObjects} (w : Race P) : RaceEv P → Prop
  | .openWrite _ => ∀ j, ¬ Storing w j
  | _ => True

/-- The cache file is opened for writing only when no process has read a part of it. -/
def NotWhileRead {P : PickleObjects} (w : Race P) : RaceEv P → Prop
  | .openWrite _ => ∀ j, ¬ HalfRead w j
  | _ => True

/-- All steps of a history satisfy `ok` in the world in which they happen. -/
def Throughout {P : PickleObjects} (method : P.Obj → P.Obj → Except PyErr P.Obj) (ok : Race P → RaceEv P → Prop) : Race P → List (RaceEv P) → Prop
  | _, [] => True
  | w, e :: es => ok w e ∧ Throughout method ok (raceStep P method w e) es

end Cjk.Spec
