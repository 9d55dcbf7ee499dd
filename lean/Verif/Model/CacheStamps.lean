import Verif.Model.CacheEdits
/-!
# The disk cache when time stamps are not those of the last change

Model/SmartCache.lean and its histories (`Spec.Reachable`) let the clock run forward only and give a file the time at which it was written.  Here the clock may be set, and files may
get any modification time (`cp -p`, `tar`, a restored backup, `os.utime`), also the cache file; dependencies may be removed.

A call of the proxy is one step, as in Model/SmartCache.lean.
-/

namespace Cjk
open Py

/-- What happens to the disk. -/
inductive StampEv (P : PickleObjects) where
  /-- time passes, or the clock is set -/
  | clock (t : Nat)
  /-- a file is written; it gets the time of the clock -/
  | write (p : Path) (bytes : List Nat)
  /-- a file gets another modification time -/
  | touch (p : Path) (t : Nat)
  /-- a file is removed -/
  | remove (p : Path)
  /-- the proxy is called -/
  | call (args params : P.Obj)

/-- `os.utime(p, (t, t))` of a file that exists. -/
def FS.touch (fs : FS) (p : Path) (t : Nat) : FS := fun q => if q = p then (fs q).map (fun f => ⟨f.bytes, t⟩) else fs q

/-- `os.remove(p)` -/
def FS.remove (fs : FS) (p : Path) : FS := fun q => if q = p then none else fs q

/-- One event: the disk afterwards, and for a call (smart_cache.py:37-53) how it ended. -/
def stampStep {P : PickleObjects} (order : List Path → List Path) (method : DiskMethod P) (file : Path) (deps : List Dep) (d : Disk) : StampEv P → Disk × Option (CallEnd P)
  | .clock t => (⟨d.fs, t⟩, none)
  | .write p bytes => (⟨d.fs.write p bytes d.now, d.now⟩, none)
  | .touch p t => (⟨d.fs.touch p t, d.now⟩, none)
  | .remove p => (⟨d.fs.remove p, d.now⟩, none)
  | .call args params =>
    ((diskProxy P order method file deps d args params).disk,
      some ((diskProxy P order method file deps d args params).result, (diskProxy P order method file deps d args params).called))

/-- The disk after a history. -/
def stampDisk {P : PickleObjects} (order : List Path → List Path) (method : DiskMethod P) (file : Path) (deps : List Dep) (d : Disk) : List (StampEv P) → Disk
  | [] => d
  | e :: es => stampDisk order method file deps (stampStep order method file deps d e).1 es

/-- The events of a history with the ends of the calls. -/
def stampTrace {P : PickleObjects} (order : List Path → List Path) (method : DiskMethod P) (file : Path) (deps : List Dep) (d : Disk) :
    List (StampEv P) → List (StampEv P × Option (CallEnd P))
  | [] => []
  | e :: es => (e, (stampStep order method file deps d e).2) :: stampTrace order method file deps (stampStep order method file deps d e).1 es

end Cjk
