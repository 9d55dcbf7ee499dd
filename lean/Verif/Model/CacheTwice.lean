import Verif.Model.SmartCache
/-!
# Wrapping a method twice, and wrapping several methods with one cache file

In Model/SmartCache.lean the method of a disk cache only reads files.  Here it may do anything to the disk, as another proxy does.
-/

namespace Cjk
open Py

/-- `memory_proxy(memory_proxy(method))` (smart_cache.py:79-88 twice): the state that the method sees, the inner and the outer `method_dict`. -/
def memoryTwice {O : PyObjects} {σ : Type} (method : Method O σ) (s : σ) (inner outer : List (CallArgs O × O.Obj)) (k : CallArgs O) :
    CallResult O × σ × List (CallArgs O × O.Obj) × List (CallArgs O × O.Obj) :=
  let wrapped : Method O (σ × List (CallArgs O × O.Obj)) := fun s k =>
    let r := memoryProxy method s.1 s.2 k
    (r.1.result, r.2.1, r.2.2)
  let r := memoryProxy wrapped (s, inner) outer k
  (r.1, r.2.1.1, r.2.1.2, r.2.2)

/-- A history of calls of the method wrapped once, in one process, other code changing the state before each call: outcomes, and the state at the end. -/
def memoryOnceRun {O : PyObjects} {σ : Type} (method : Method O σ) :
    σ → List (CallArgs O × O.Obj) → List ((σ → σ) × CallArgs O) → List (CallResult O) × σ
  | s, _, [] => ([], s)
  | s, memo, (f, k) :: rest =>
    let r := memoryProxy method (f s) memo k
    let t := memoryOnceRun method r.2.1 r.2.2 rest
    (r.1 :: t.1, t.2)

/-- The same of the method wrapped twice. -/
def memoryTwiceRun {O : PyObjects} {σ : Type} (method : Method O σ) :
    σ → List (CallArgs O × O.Obj) → List (CallArgs O × O.Obj) → List ((σ → σ) × CallArgs O) → List (CallResult O) × σ
  | s, _, _, [] => ([], s)
  | s, inner, outer, (f, k) :: rest =>
    let r := memoryTwice method (f s) inner outer k
    let t := memoryTwiceRun method r.2.1 r.2.2.1 r.2.2.2 rest
    (r.1 :: t.1, t.2)

/-- `proxy_method` of `disk_proxy_direct` (smart_cache.py:37-53) around a method that may change the disk. -/
def diskAround (P : PickleObjects) (order : List Path → List Path) (method : Disk → P.Obj → P.Obj → Except PyErr P.Obj × Disk) (file : Path)
    (deps : List Dep) (d : Disk) (args params : P.Obj) : Except PyErr P.Obj × Disk :=
  match tryCache P order d.fs file args params deps with
  | .error e => (.error e, d)
  | .ok (some o) => (.ok o, d)
  | .ok none =>
    match method d args params with
    | (.error e, d') => (.error e, d')
    | (.ok o, d') =>
      match storedBytes P o args params with
      | (b, none) => (.ok o, { d' with fs := d'.fs.write file b d'.now })
      | (b, some e) => (.error e, { d' with fs := d'.fs.write file b d'.now })

/-- `disk_proxy(f, deps)(disk_proxy(f, deps)(method))`: the method wrapped twice with the same arguments. -/
def diskTwice (P : PickleObjects) (order : List Path → List Path) (method : DiskMethod P) (file : Path) (deps : List Dep) (d : Disk)
    (args params : P.Obj) : Except PyErr P.Obj × Disk :=
  diskAround P order (fun d a p =>
    let r := diskProxy P order method file deps d a p
    (r.result, r.disk)) file deps d args params

end Cjk
