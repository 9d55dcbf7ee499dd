import Verif.Model.Cached
/-!
# The memory-cached getters, used by several threads at the same time

Model/Cached.lean takes every call of a getter as one step.  Here the steps of different calls happen in any order; reading or writing the cached variable is one
step.  Calls have numbers; the calls of one thread are some of them, one after the other.  What a constructor does is up to the environment.
-/

namespace Cjk
open Py

/-- The kinds of getters (Model/Cached.lean); the two eager ones differ in the last line, which matters for threads only. -/
inductive GetterKind where
  /-- kana_table.py:112-118, pinyin_table.py:151-158, pinyin_table.py:161-169 -/
  | lazy
  /-- radkdict.py:81-87 -/
  | eager
  /-- kanjidic.py:112-117: returns the object it has assigned, without reading the variable again -/
  | eagerLocal

/-- Where a call of a getter is. -/
inductive GPhase (O : Type) where
  /-- not begun -/
  | idle
  /-- before `if not hasattr(cls, '_cached')` (kana_table.py:115) or `is None` (pinyin_table.py:155, 165) -/
  | checking
  /-- the constructor runs (kana_table.py:116, pinyin_table.py:156, 167, radkdict.py:84, kanjidic.py:114) -/
  | making
  /-- before the `getattr` with this default (radkdict.py:84, kanjidic.py:114) -/
  | choosing (o : O)
  /-- before the assignment of this object (kana_table.py:116, pinyin_table.py:156, 167, radkdict.py:85, kanjidic.py:115-117) -/
  | storing (o : O)
  /-- before the variable is read for the `return` (kana_table.py:118, pinyin_table.py:158, 169, radkdict.py:87) -/
  | reading
  /-- returned or raised -/
  | done

/-- What can be observed from outside. -/
inductive GObs (O : Type) where
  | began (i : Nat)
  /-- the constructor starts in call `i` -/
  | making (i : Nat)
  /-- the constructor, started by call `i`, gives a new object -/
  | made (i : Nat) (o : O)
  /-- the constructor, started by call `i`, raises -/
  | failed (i : Nat) (e : PyErr)
  /-- call `i` returns or raises -/
  | ended (i : Nat) (r : Except PyErr O)

/-- The cached variable, the calls, and what was observed, the latest first. -/
structure GThreads (O : Type) where
  cache : Option O
  calls : Nat → GPhase O
  log : List (GObs O)

/-- Events: a call begins, a call takes its next step, a constructor ends. -/
inductive GEv (O : Type) where
  | call (i : Nat)
  | step (i : Nat)
  | finish (i : Nat) (r : Except PyErr O)

/-- Call `i` goes on to another phase. -/
def GThreads.to {O : Type} (w : GThreads O) (i : Nat) (ph : GPhase O) : GThreads O :=
  { w with calls := fun j => if j = i then ph else w.calls j }

/-- Something is observed. -/
def GThreads.note {O : Type} (w : GThreads O) (o : GObs O) : GThreads O := { w with log := o :: w.log }

/-- One step of a call of a getter; a step that the call cannot take now does nothing. -/
def getterStep {O : Type} (kind : GetterKind) (w : GThreads O) : GEv O → GThreads O
  | .call i =>
    match w.calls i with
    | .idle =>
      match kind with
      | .lazy => (w.to i .checking).note (.began i)
      | _ => ((w.to i .making).note (.began i)).note (.making i)
    | _ => w
  | .step i =>
    match w.calls i with
    | .checking =>
      match w.cache with
      | some _ => w.to i .reading
      | none => (w.to i .making).note (.making i)
    | .choosing o => w.to i (.storing (w.cache.getD o))
    | .storing o =>
      match kind with
      | .eagerLocal => (({ w with cache := some o } : GThreads O).to i .done).note (.ended i (.ok o))
      | _ => ({ w with cache := some o } : GThreads O).to i .reading
    | .reading =>
      match w.cache with
      | some o => (w.to i .done).note (.ended i (.ok o))
      | none => (w.to i .done).note (.ended i (.error .attributeError))
    | _ => w
  | .finish i r =>
    match w.calls i with
    | .making =>
      match r with
      | .ok o =>
        match kind with
        | .lazy => (w.to i (.storing o)).note (.made i o)
        | _ => (w.to i (.choosing o)).note (.made i o)
      | .error e => ((w.to i .done).note (.failed i e)).note (.ended i (.error e))
    | _ => w

/-- A history, from an empty cache. -/
def getterRun {O : Type} (kind : GetterKind) (evs : List (GEv O)) : GThreads O := evs.foldl (getterStep kind) ⟨none, fun _ => .idle, []⟩

end Cjk
