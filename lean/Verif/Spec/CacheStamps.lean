import Verif.Model.CacheStamps
import Verif.Spec.SmartCache
/-! # Specification vocabulary for a disk cache and arbitrary time stamps -/

namespace Cjk.Spec
open Py

/-- The result that is kept in the cache file: the call it belongs to, the time of the cache file, and the contents that all files had in that call. -/
structure Kept (P : PickleObjects) where
  args : P.Obj
  params : P.Obj
  obj : P.Obj
  time : Nat
  contents : Path → Option (List Nat)

/-- What one can know from watching a disk: the clock, the contents of the files (other than the cache file), and the kept result. -/
structure Watched (P : PickleObjects) where
  clock : Nat
  contents : Path → Option (List Nat)
  kept : Option (Kept P)

/-- Watching one event: a call that runs the method and returns keeps its result; to remove the cache file drops it. -/
def Watched.see {P : PickleObjects} (file : Path) (w : Watched P) : StampEv P × Option (CallEnd P) → Watched P
  | (.clock t, _) => { w with clock := t }
  | (.write p bytes, _) => { w with contents := fun q => if q = p then some bytes else w.contents q }
  | (.touch p t, _) => if p = file then { w with kept := w.kept.map (fun k => { k with time := t }) } else w
  | (.remove p, _) => { w with contents := fun q => if q = p then none else w.contents q, kept := if p = file then none else w.kept }
  | (.call args params, some (.ok o, true)) => { w with kept := some ⟨args, params, o, w.clock, w.contents⟩ }
  | (.call _ _, _) => w

/-- Watching a history. -/
def Watched.seeAll {P : PickleObjects} (file : Path) (w : Watched P) : List (StampEv P × Option (CallEnd P)) → Watched P
  | [] => w
  | e :: es => Watched.seeAll file (w.see file e) es

/-- At the beginning nothing is kept. -/
def Watched.start {P : PickleObjects} (d : Disk) : Watched P := ⟨d.now, fun q => (d.fs q).map File.bytes, none⟩

/-- Nobody but the proxy writes the cache file. -/
def OthersAway {P : PickleObjects} (file : Path) (evs : List (StampEv P)) : Prop := ∀ p bytes, StampEv.write p bytes ∈ evs → p ≠ file

/-- Arguments and results can be pickled. -/
def Picklable (P : PickleObjects) : Prop := ∀ o : P.Obj, (P.dump o).2 = none

/-- The kept result answers a call: equal arguments, a result other than `None`, and no file of a dependency has a later time than the cache file. -/
structure Answers {P : PickleObjects} (fs : FS) (deps : List Dep) (k : Kept P) (args params : P.Obj) : Prop where
  args : P.eq k.args args = .ok true
  params : P.eq k.params params = .ok true
  some : P.isNone k.obj = false
  notNewer : ¬ Newer fs k.time deps

/-- All files of the dependencies have the contents they had when the result was computed. -/
def SameContents {P : PickleObjects} (fs : FS) (deps : List Dep) (k : Kept P) : Prop :=
  ∀ d ∈ deps, ∀ q, DependsOn d q → (fs q).map File.bytes = k.contents q

end Cjk.Spec
