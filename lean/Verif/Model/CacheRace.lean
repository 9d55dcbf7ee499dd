import Verif.Model.SmartCache
/-!
# Several processes that use one cache file at the same time (`cjktools/smart_cache.py`)

Every process calls the proxy of the same method with the same cache file.  A call is a sequence of steps, and the steps of different
processes happen in any order.  Reading and writing a file take any number of system calls of any sizes (Python's buffers decide how many).

Simplifications.  The dependencies do not change, so that an existing cache file is never outdated.  The result of the method is a function
of the arguments.  A process that dies is one that takes no more steps.
-/

namespace Cjk
open Py

/-- Where a process is in `proxy_method` (smart_cache.py:37-53). -/
inductive Phase (P : PickleObjects) where
  /-- not in a call; also after an exception -/
  | idle
  /-- in `try_cache` (smart_cache.py:115-122), with the bytes read so far -/
  | reading (args params : P.Obj) (got : List Nat)
  /-- `cached_val is None` (smart_cache.py:40) -/
  | missed (args params : P.Obj)
  /-- in `store_cache_object` (smart_cache.py:149-152): bytes still to be written, and the position in the file -/
  | writing (args params obj : P.Obj) (todo : List Nat) (pos : Nat)
  /-- the call returned `obj` (smart_cache.py:48, 53) -/
  | returned (args params obj : P.Obj)

/-- The cache file, if it exists, and the processes. -/
structure Race (P : PickleObjects) where
  /-- content of the cache file -/
  file : Option (List Nat)
  /-- the processes -/
  procs : Nat → Phase P

/-- Process `i` goes on to another phase. -/
def Race.to {P : PickleObjects} (w : Race P) (i : Nat) (ph : Phase P) : Race P := { w with procs := fun j => if j = i then ph else w.procs j }

/-- A system call `write` at position `pos`: a gap behind the end of the file is filled with zeros; writing nothing does nothing. -/
def writeAt (f : List Nat) (pos : Nat) (bytes : List Nat) : List Nat :=
  if bytes = [] then f
  else f.take pos ++ List.replicate (pos - f.length) 0 ++ bytes ++ f.drop (pos + bytes.length)

/-- The steps of processes. -/
inductive RaceEv (P : PickleObjects) where
  /-- a call begins -/
  | call (i : Nat) (args params : P.Obj)
  /-- a system call `read` of at most `n` bytes -/
  | read (i n : Nat)
  /-- `try_cache` ends -/
  | decide (i : Nat)
  /-- the method runs and the cache file is opened for writing -/
  | openWrite (i : Nat)
  /-- a system call `write` of `n` bytes -/
  | write (i n : Nat)
  /-- everything is written -/
  | close (i : Nat)

/-- One step (smart_cache.py:37-53); a step that the process cannot take now does nothing. -/
def raceStep (P : PickleObjects) (method : P.Obj → P.Obj → Except PyErr P.Obj) (w : Race P) : RaceEv P → Race P
  | .call i args params =>
    match w.procs i with
    | .idle | .returned _ _ _ =>
      -- `path.exists(target)` (smart_cache.py:164)
      match w.file with
      | none => w.to i (.missed args params)
      | some _ => w.to i (.reading args params [])
    | _ => w
  | .read i n =>
    match w.procs i, w.file with
    | .reading args params got, some f => w.to i (.reading args params (got ++ (f.drop got.length).take n))
    | _, _ => w
  | .decide i =>
    match w.procs i with
    | .reading args params got =>
      match loadCached P got args params with
      | some o => w.to i (.returned args params o)
      | none => w.to i (.missed args params)
    | _ => w
  | .openWrite i =>
    match w.procs i with
    | .missed args params =>
      match method args params with
      | .error _ => w.to i .idle
      | .ok o => ({ w with file := some [] } : Race P).to i (.writing args params o (storedBytes P o args params).1 0)
    | _ => w
  | .write i n =>
    match w.procs i, w.file with
    | .writing args params o todo pos, some f =>
      ({ w with file := some (writeAt f pos (todo.take n)) } : Race P).to i (.writing args params o (todo.drop n) (pos + (todo.take n).length))
    | _, _ => w
  | .close i =>
    match w.procs i with
    | .writing args params o [] _ =>
      match (storedBytes P o args params).2 with
      | none => w.to i (.returned args params o)
      | some _ => w.to i .idle
    | _ => w

/-- A history of steps. -/
def raceRun (P : PickleObjects) (method : P.Obj → P.Obj → Except PyErr P.Obj) (w : Race P) (evs : List (RaceEv P)) : Race P :=
  evs.foldl (raceStep P method) w

end Cjk
