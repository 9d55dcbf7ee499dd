import Verif.Model.CacheStack
import Verif.Spec.SmartCache
/-! # Specification vocabulary for stacked caches -/

namespace Cjk.Spec
open Py

/-- A call that was made: the files at that time, the arguments and the outcome. -/
structure StackLog (S : StackObjects) where
  /-- the files when the call began -/
  fs : FS
  /-- the arguments -/
  args : CallArgs S.objs
  /-- returned value or exception -/
  result : Except PyErr S.P.Obj

/-- Worlds, and the calls made so far in the running process: the process begins without a cache file; time passes; files are written (under the condition `mayEdit` on
the calls made so far and the file; and, as for a single disk cache, only when the clock has moved on since the cache file was written); the cache file is removed; the
wrapped method is called; the process ends and a new one begins, with the files as they are. -/
inductive StackReach (S : StackObjects) (call : StackCall S) (file : Path) (deps : List Dep) (mayEdit : List (StackLog S) → Path → Prop) :
    StackWorld S → List (StackLog S) → Prop
  | init (d : Disk) : d.fs file = none → GoodDeps d.fs deps → StackReach S call file deps mayEdit ⟨d, []⟩ []
  | wait (w : StackWorld S) (log) (n : Nat) : StackReach S call file deps mayEdit w log →
      StackReach S call file deps mayEdit { w with disk := { w.disk with now := w.disk.now + n } } log
  | edit (w : StackWorld S) (log) (p : Path) (bytes : List Nat) : StackReach S call file deps mayEdit w log → p ≠ file →
      (∀ f, w.disk.fs file = some f → f.mtime < w.disk.now) → mayEdit log p →
      StackReach S call file deps mayEdit { w with disk := { w.disk with fs := w.disk.fs.write p bytes w.disk.now } } log
  | remove (w : StackWorld S) (log) : StackReach S call file deps mayEdit w log →
      StackReach S call file deps mayEdit { w with disk := { w.disk with fs := fun q => if q = file then none else w.disk.fs q } } log
  | call (w : StackWorld S) (log) (k : CallArgs S.objs) : StackReach S call file deps mayEdit w log →
      StackReach S call file deps mayEdit (call w k).2 (log ++ [⟨w.disk.fs, k, (call w k).1⟩])
  | restart (w : StackWorld S) (log) : StackReach S call file deps mayEdit w log →
      StackReach S call file deps mayEdit { w with memo := [] } []

/-- Same calls have equal tuples and equal dictionaries. -/
structure StackLaws (S : StackObjects) : Prop where
  /-- `==` of arguments is an equivalence -/
  refl : ∀ a, S.eq a a = true
  /-- `==` of arguments is an equivalence -/
  symm : ∀ a b, S.eq a b = true → S.eq b a = true
  /-- `==` of arguments is an equivalence -/
  trans : ∀ a b c, S.eq a b = true → S.eq b c = true → S.eq a c = true
  /-- `==` of the tuples -/
  tuple : ∀ k k' : CallArgs S.objs, SameCall k k' → S.P.eq (S.tuple k.args) (S.tuple k'.args) = .ok true
  /-- `==` of the dictionaries -/
  dict : ∀ k k' : CallArgs S.objs, SameCall k k' → S.P.eq (S.dict k.params) (S.dict k'.params) = .ok true

end Cjk.Spec
