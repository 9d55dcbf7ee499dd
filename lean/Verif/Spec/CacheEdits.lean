import Verif.Model.CacheEdits
/-! # Specification vocabulary for a disk cache whose dependencies change during calls -/

namespace Cjk.Spec
open Py

/-- The content of a file after some events, from its content before: what was written last. -/
def contentAfter {P : PickleObjects} (p : Path) (c : Option (List Nat)) : List (EditEv P) → Option (List Nat)
  | [] => c
  | .edit q bytes :: evs => contentAfter p (if q = p then some bytes else c) evs
  | _ :: evs => contentAfter p c evs

/-- The content of a file. -/
def content (fs : FS) (p : Path) : Option (List Nat) := (fs p).map File.bytes

/-- The method looks at the contents of these files only and does not distinguish equal arguments. -/
structure OfFiles (P : PickleObjects) (method : DiskMethod P) (files : List Path) : Prop where
  files : ∀ (fs fs' : FS) a p, (∀ q ∈ files, content fs q = content fs' q) → method fs a p = method fs' a p
  args : ∀ (fs : FS) a p a' p', P.eq a a' = .ok true → P.eq p p' = .ok true → method fs a p = method fs a' p'

/-- The program is not in the method and does not store its result. -/
def NotRunning {P : PickleObjects} : EditPhase P → Prop
  | .running _ _ _ => False
  | .storing _ _ _ => False
  | _ => True

/-- A start: no call, no cache file, all dependencies exist, and no file comes from the future. -/
structure Start {P : PickleObjects} (file : Path) (files : List Path) (w : EditWorld P) : Prop where
  idle : w.phase = .idle
  none : w.fs file = none
  exist : ∀ q ∈ files, ∃ f, w.fs q = some f
  past : ∀ q f, w.fs q = some f → f.mtime ≤ w.now

/-- The one restriction on other programs (as in `Spec.Reachable`): they do not write the cache file, and a dependency only when the clock has moved on since the cache file was
written. -/
def ClockOk {P : PickleObjects} (file : Path) (files : List Path) (w : EditWorld P) : EditEv P → Prop
  | .edit p _ => p ≠ file ∧ (p ∈ files → ∀ f, w.fs file = some f → f.mtime < w.now)
  | _ => True

/-- Nobody writes a dependency while the method runs or its result is stored. -/
def Undisturbed {P : PickleObjects} (files : List Path) (w : EditWorld P) : EditEv P → Prop
  | .edit p _ => p ∈ files → NotRunning w.phase
  | _ => True

/-- A condition on all events of a history, each in the world in which it happens. -/
def Always {P : PickleObjects} (method : DiskMethod P) (file : Path) (files : List Path) (ok : EditWorld P → EditEv P → Prop) : EditWorld P → List (EditEv P) → Prop
  | _, [] => True
  | w, e :: es => ok w e ∧ Always method file files ok (editStep method file files w e).1 es

/-- The result is what the method gives for contents which the files had during the call: `before` is what happened before it, `during` what happened during it. -/
def OfTheTime {P : PickleObjects} (method : DiskMethod P) (files : List Path) (fs0 : FS) (before : List (EditEv P)) (args params : P.Obj) (during : List (EditEv P))
    (r : Except PyErr P.Obj) : Prop :=
  ∃ view : FS, (∀ q ∈ files, ∃ pre, pre <+: during ∧ content view q = contentAfter q (content fs0 q) (before ++ pre)) ∧ r = method view args params

end Cjk.Spec
