import Verif.Model.SmartCache
/-!
# A method wrapped with both proxies

`memory_proxy` around `disk_proxy` and `disk_proxy` around `memory_proxy` (smart_cache.py:25-92).  Both proxies take `*args` and `**params`; the memory cache makes a key of
them, the disk cache pickles the tuple and the dictionary.
-/

namespace Cjk
open Py

/-- Objects for both caches: those of the disk cache, with `==` and `hash` of the arguments, and how the tuple `args` and the dictionary `params` are made of them. -/
structure StackObjects where
  /-- objects that can be pickled -/
  P : PickleObjects
  /-- `a == b` of arguments -/
  eq : P.Obj → P.Obj → Bool
  /-- `hash(a)` does not raise -/
  hashable : P.Obj → Bool
  /-- the tuple `args` -/
  tuple : List P.Obj → P.Obj
  /-- the dictionary `params` -/
  dict : List (Str × P.Obj) → P.Obj

/-- The objects as the memory cache sees them. -/
abbrev StackObjects.objs (S : StackObjects) : PyObjects := ⟨S.P.Obj, S.eq, S.hashable⟩

/-- A process with a wrapped method: the disk, and `method_dict` of the memory cache. -/
structure StackWorld (S : StackObjects) where
  /-- files and clock -/
  disk : Disk
  /-- `method_dict` (smart_cache.py:77) -/
  memo : List (CallArgs S.objs × S.objs.Obj)

/-- What a call of the wrapped method does: its outcome, and the world afterwards. -/
abbrev StackCall (S : StackObjects) := StackWorld S → CallArgs S.objs → Except PyErr S.P.Obj × StackWorld S

/-- `memory_proxy(disk_proxy(cache_file, dependencies)(method))` (smart_cache.py:79-88 around 37-53). -/
def memoryOutside (S : StackObjects) (order : List Path → List Path) (method : DiskMethod S.P) (file : Path) (deps : List Dep) : StackCall S :=
  fun w k =>
    let inner : Method S.objs Disk := fun d k =>
      let r := diskProxy S.P order method file deps d (S.tuple k.args) (S.dict k.params)
      (r.result, r.disk)
    let r := memoryProxy inner w.disk w.memo k
    (r.1.result, ⟨r.2.1, r.2.2⟩)

/-- `disk_proxy(cache_file, dependencies)(memory_proxy(method))` (smart_cache.py:37-53 around 79-88). -/
def diskOutside (S : StackObjects) (order : List Path → List Path) (method : DiskMethod S.P) (file : Path) (deps : List Dep) : StackCall S :=
  fun w k =>
    match tryCache S.P order w.disk.fs file (S.tuple k.args) (S.dict k.params) deps with
    | .error e => (.error e, w)
    | .ok (some o) => (.ok o, w)
    | .ok none =>
      let inner : Method S.objs Disk := fun d k => (method d.fs (S.tuple k.args) (S.dict k.params), d)
      let r := memoryProxy inner w.disk w.memo k
      match r.1.result with
      | .error e => (.error e, ⟨w.disk, r.2.2⟩)
      | .ok o =>
        match storedBytes S.P o (S.tuple k.args) (S.dict k.params) with
        | (b, none) => (.ok o, ⟨{ w.disk with fs := w.disk.fs.write file b w.disk.now }, r.2.2⟩)
        | (b, some e) => (.error e, ⟨{ w.disk with fs := w.disk.fs.write file b w.disk.now }, r.2.2⟩)

end Cjk
