import Verif.Model.MemoryRec
/-!
# A memory cache that several threads use at the same time

Model/SmartCache.lean takes every call of a proxy as one step.  Here calls overlap: the steps of `proxy_method` (smart_cache.py:79-88) of different calls happen
in any order.  One operation on a dictionary is one step (CPython does not switch threads inside it).  The calls have numbers; the calls of one thread are some of
them, one after the other.  What the method does is up to the environment: a run may end with any outcome.
-/

namespace Cjk
open Py

/-- Where a call is in `proxy_method` (smart_cache.py:79-88). -/
inductive MPhase (O : PyObjects) where
  /-- not begun -/
  | idle
  /-- before `key in method_dict` (smart_cache.py:81) -/
  | looking (k : CallArgs O)
  /-- before `return method_dict[key]` (smart_cache.py:83) -/
  | found (k : CallArgs O)
  /-- the method runs (smart_cache.py:86) -/
  | running (k : CallArgs O)
  /-- before `method_dict[key] = result` (smart_cache.py:87) -/
  | computed (k : CallArgs O) (v : O.Obj)
  /-- returned or raised -/
  | done

/-- What can be observed from outside. -/
inductive MObs (O : PyObjects) where
  /-- call `i` begins -/
  | began (i : Nat) (k : CallArgs O)
  /-- the method, run by call `i`, ends with an outcome -/
  | ran (i : Nat) (k : CallArgs O) (r : Except PyErr O.Obj)
  /-- call `i` returns or raises -/
  | ended (i : Nat) (k : CallArgs O) (r : Except PyErr O.Obj)

/-- `method_dict`, the calls, and what was observed, the latest first. -/
structure MThreads (O : PyObjects) where
  memo : Memo O
  calls : Nat → MPhase O
  log : List (MObs O)

/-- The steps of calls. -/
inductive MEv (O : PyObjects) where
  /-- call `i` begins -/
  | call (i : Nat) (k : CallArgs O)
  /-- `key in method_dict` -/
  | look (i : Nat)
  /-- `return method_dict[key]` -/
  | get (i : Nat)
  /-- the method ends -/
  | finish (i : Nat) (r : Except PyErr O.Obj)
  /-- `method_dict[key] = result`, and the return -/
  | store (i : Nat)

/-- Call `i` goes on to another phase. -/
def MThreads.to {O : PyObjects} (w : MThreads O) (i : Nat) (ph : MPhase O) : MThreads O :=
  { w with calls := fun j => if j = i then ph else w.calls j }

/-- Something is observed. -/
def MThreads.note {O : PyObjects} (w : MThreads O) (o : MObs O) : MThreads O := { w with log := o :: w.log }

/-- One step of `proxy_method` (smart_cache.py:79-88); a step that the call cannot take now does nothing. -/
def mstep {O : PyObjects} (w : MThreads O) : MEv O → MThreads O
  | .call i k =>
    match w.calls i with
    | .idle => (w.to i (.looking k)).note (.began i k)
    | _ => w
  | .look i =>
    match w.calls i with
    | .looking k =>
      if k.keyHashable then
        match memoGet w.memo k with
        | some _ => w.to i (.found k)
        | none => w.to i (.running k)
      else (w.to i .done).note (.ended i k (.error .typeError))
    | _ => w
  | .get i =>
    match w.calls i with
    | .found k =>
      match memoGet w.memo k with
      | some v => (w.to i .done).note (.ended i k (.ok v))
      | none => (w.to i .done).note (.ended i k (.error .keyError))
    | _ => w
  | .finish i r =>
    match w.calls i with
    | .running k =>
      match r with
      | .ok v => (w.to i (.computed k v)).note (.ran i k (.ok v))
      | .error e => ((w.to i .done).note (.ran i k (.error e))).note (.ended i k (.error e))
    | _ => w
  | .store i =>
    match w.calls i with
    | .computed k v => (({ w with memo := memoSet k v w.memo } : MThreads O).to i .done).note (.ended i k (.ok v))
    | _ => w

/-- A history of steps, from an empty cache. -/
def mrun {O : PyObjects} (evs : List (MEv O)) : MThreads O := evs.foldl mstep ⟨[], fun _ => .idle, []⟩

end Cjk
