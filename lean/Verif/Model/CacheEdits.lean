import Verif.Model.SmartCache
/-!
# The disk cache while other programs change the dependencies

Model/SmartCache.lean takes a call of the proxy as one step.  Here a call takes several steps (smart_cache.py:37-53), and between any two of them time may pass and other programs may
write files.  One program uses the cache, one call after the other.

Simplified: the dependencies are file names (`files`, in the order in which `needs_update` looks at them); nobody else writes the cache file; the cache file is read in one step and
written in one step, the last of the call, which decides its modification time; what the method computes depends on what it read last from each file.
-/

namespace Cjk
open Py

/-- Where the program is in a call of the proxy. -/
inductive EditPhase (P : PickleObjects) where
  /-- not in a call -/
  | idle
  /-- in the loop of `needs_update` (smart_cache.py:169-179): time of the cache file, files not yet looked at -/
  | checking (args params : P.Obj) (t : Nat) (todo : List Path)
  /-- before the cache file is opened (smart_cache.py:116) -/
  | loading (args params : P.Obj)
  /-- in the method (smart_cache.py:43): the files as it has read them -/
  | running (args params : P.Obj) (seen : FS)
  /-- before `store_cache_object` (smart_cache.py:46) -/
  | storing (args params obj : P.Obj)

/-- Files, clock and program. -/
structure EditWorld (P : PickleObjects) where
  fs : FS
  now : Nat
  phase : EditPhase P

/-- What can happen next. -/
inductive EditEv (P : PickleObjects) where
  /-- time passes -/
  | wait (n : Nat)
  /-- another program writes a file -/
  | edit (p : Path) (bytes : List Nat)
  /-- the program calls the proxy -/
  | begin (args params : P.Obj)
  /-- the call takes its next step -/
  | go
  /-- the method reads a file (again) -/
  | read (p : Path)

/-- How a call ends: result or exception, and whether the method ran. -/
abbrev CallEnd (P : PickleObjects) := Except PyErr P.Obj × Bool

/-- The method starts; what it does not read later it reads now. -/
def EditWorld.start {P : PickleObjects} (w : EditWorld P) (args params : P.Obj) : EditWorld P := { w with phase := .running args params w.fs }

/-- The next step of a call (smart_cache.py:37-53, 95-152, 167-181): the world, and how the call ends, if it does. -/
def EditWorld.go {P : PickleObjects} (method : DiskMethod P) (file : Path) (w : EditWorld P) : EditWorld P × Option (CallEnd P) :=
  match w.phase with
  | .idle => (w, none)
  | .checking args params _ [] => ({ w with phase := .loading args params }, none)
  | .checking args params t (p :: ps) =>
    match getmtime w.fs p with
    | .error e => ({ w with phase := .idle }, some (.error e, false))
    | .ok m => if m > t then (w.start args params, none) else ({ w with phase := .checking args params t ps }, none)
  | .loading args params =>
    match w.fs file with
    | none => (w.start args params, none)
    | some f =>
      match loadCached P f.bytes args params with
      | some o => ({ w with phase := .idle }, some (.ok o, false))
      | none => (w.start args params, none)
  | .running args params seen =>
    match method seen args params with
    | .error e => ({ w with phase := .idle }, some (.error e, true))
    | .ok o => ({ w with phase := .storing args params o }, none)
  | .storing args params o =>
    match storedBytes P o args params with
    | (b, none) => (⟨w.fs.write file b w.now, w.now, .idle⟩, some (.ok o, true))
    | (b, some e) => (⟨w.fs.write file b w.now, w.now, .idle⟩, some (.error e, true))

/-- One event; what cannot happen now does nothing. -/
def editStep {P : PickleObjects} (method : DiskMethod P) (file : Path) (files : List Path) (w : EditWorld P) : EditEv P → EditWorld P × Option (CallEnd P)
  | .wait n => ({ w with now := w.now + n }, none)
  | .edit p bytes => ({ w with fs := w.fs.write p bytes w.now }, none)
  | .begin args params =>
    match w.phase with
    | .idle =>
      -- `path.exists(target)`, `path.getmtime(target)` (smart_cache.py:164-167)
      match w.fs file with
      | none => (w.start args params, none)
      | some f => ({ w with phase := .checking args params f.mtime files }, none)
    | _ => (w, none)
  | .go => w.go method file
  | .read p =>
    match w.phase with
    | .running args params seen => ({ w with phase := .running args params (fun q => if q = p then w.fs q else seen q) }, none)
    | _ => (w, none)

/-- The world after a history. -/
def editRun {P : PickleObjects} (method : DiskMethod P) (file : Path) (files : List Path) (w : EditWorld P) (evs : List (EditEv P)) : EditWorld P :=
  evs.foldl (fun w e => (editStep method file files w e).1) w

/-- How the call that is under way ends, if it ends during these events. -/
def callEnd {P : PickleObjects} (method : DiskMethod P) (file : Path) (files : List Path) : EditWorld P → List (EditEv P) → Option (CallEnd P)
  | _, [] => none
  | w, e :: es =>
    match (editStep method file files w e).2 with
    | some r => some r
    | none => callEnd method file files (editStep method file files w e).1 es

end Cjk
