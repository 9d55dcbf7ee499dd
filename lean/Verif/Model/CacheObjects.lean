import Verif.Model.SmartCache
/-!
# Caches and objects that can be changed

`Model/SmartCache.lean` treats arguments and results as values.  In Python they are objects: a method may change the arguments it is given, and a caller may change the
result it got.  `disk_proxy` stores the arguments after the method has run (smart_cache.py:43-46); `memory_proxy` hands out the stored object itself
(smart_cache.py:81-88).
-/

namespace Cjk
open Py

/-! ### Methods that change their arguments -/

/-- A method that may change its arguments: its outcome, and what the arguments are afterwards. -/
abbrev ArgMethod (P : PickleObjects) := P.Obj → P.Obj → Except PyErr P.Obj × P.Obj × P.Obj

/-- What a call shows to the caller: result or exception, and what the arguments are afterwards. -/
structure ArgResult (P : PickleObjects) where
  /-- returned value or exception -/
  result : Except PyErr P.Obj
  /-- the arguments afterwards -/
  args : P.Obj
  /-- the keyword arguments afterwards -/
  params : P.Obj

/-- A call of the method itself. -/
def ArgMethod.direct {P : PickleObjects} (method : ArgMethod P) (args params : P.Obj) : ArgResult P :=
  ⟨(method args params).1, (method args params).2.1, (method args params).2.2⟩

/-- `proxy_method` of `disk_proxy_direct` (smart_cache.py:37-53): `store_cache_object` gets the arguments as the method left them (line 46). -/
def diskProxyArgs (P : PickleObjects) (order : List Path → List Path) (method : ArgMethod P) (file : Path) (deps : List Dep)
    (d : Disk) (args params : P.Obj) : ArgResult P × Disk :=
  match tryCache P order d.fs file args params deps with
  | .error e => (⟨.error e, args, params⟩, d)
  | .ok (some o) => (⟨.ok o, args, params⟩, d)
  | .ok none =>
    match method args params with
    | (.error e, a, p) => (⟨.error e, a, p⟩, d)
    | (.ok o, a, p) =>
      match storedBytes P o a p with
      | (b, none) => (⟨.ok o, a, p⟩, { d with fs := d.fs.write file b d.now })
      | (b, some e) => (⟨.error e, a, p⟩, { d with fs := d.fs.write file b d.now })

/-- Several calls, one after the other. -/
def diskRunArgs (P : PickleObjects) (order : List Path → List Path) (method : ArgMethod P) (file : Path) (deps : List Dep) :
    Disk → List (P.Obj × P.Obj) → List (ArgResult P)
  | _, [] => []
  | d, (a, p) :: rest =>
    let r := diskProxyArgs P order method file deps d a p
    r.1 :: diskRunArgs P order method file deps r.2 rest

/-! ### Callers that change their results -/

/-- What a program does with a cached method: it calls it, changes the object that its `j`-th successful call returned (counting from 0), or looks at it. -/
inductive ResOp (K V : Type) where
  | call (k : K)
  | change (j : Nat) (v : V)
  | look (j : Nat)

/-- A program with a `memory_proxy`: the objects (a reference is an index), `method_dict`, and what the successful calls returned. -/
structure MemObjects (O : PyObjects) (V : Type) where
  heap : List V
  memo : List (CallArgs O × Nat)
  got : List (CallArgs O × Nat)

variable {O : PyObjects} {V : Type}

/-- A call of `proxy_method` of `memory_proxy` (smart_cache.py:79-88) around a method that makes a new object: what the caller sees. -/
def MemObjects.call (method : CallArgs O → Except PyErr V) (st : MemObjects O V) (k : CallArgs O) : Except PyErr V × MemObjects O V :=
  if k.keyHashable then
    match st.memo.find? (fun e => e.1.keyEq k) with
    | some e =>
      match st.heap[e.2]? with
      | some v => (.ok v, { st with got := st.got ++ [(k, e.2)] })
      | none => (.error .keyError, st)
    | none =>
      match method k with
      | .error e => (.error e, st)
      | .ok v => (.ok v, ⟨st.heap ++ [v], st.memo ++ [(k, st.heap.length)], st.got ++ [(k, st.heap.length)]⟩)
  else (.error .typeError, st)

/-- The program changes the object that the `j`-th successful call returned. -/
def MemObjects.change (st : MemObjects O V) (j : Nat) (v : V) : MemObjects O V :=
  match st.got[j]? with
  | some e => { st with heap := st.heap.set e.2 v }
  | none => st

/-- The program looks at the object that the `j`-th successful call returned. -/
def MemObjects.look (st : MemObjects O V) (j : Nat) : Option V := st.got[j]?.bind (fun e => st.heap[e.2]?)

/-- One step. -/
def MemObjects.step (method : CallArgs O → Except PyErr V) (st : MemObjects O V) : ResOp (CallArgs O) V → MemObjects O V
  | .call k => (st.call method k).2
  | .change j v => st.change j v
  | .look _ => st

/-- A whole program. -/
def MemObjects.run (method : CallArgs O → Except PyErr V) (ops : List (ResOp (CallArgs O) V)) : MemObjects O V :=
  ops.foldl (MemObjects.step method) ⟨[], [], []⟩

/-- A program with a `disk_proxy`: the objects, the disk, and what the successful calls returned. -/
structure DiskObjects (P : PickleObjects) where
  heap : List P.Obj
  disk : Disk
  got : List Nat

variable {P : PickleObjects}

/-- A call of `proxy_method` of `disk_proxy_direct` (smart_cache.py:37-53): the method, and also `pickle.load`, makes a new object. -/
def DiskObjects.call (order : List Path → List Path) (method : DiskMethod P) (file : Path) (deps : List Dep) (st : DiskObjects P) (a p : P.Obj) :
    Except PyErr P.Obj × DiskObjects P :=
  let r := diskProxy P order method file deps st.disk a p
  match r.result with
  | .ok o => (.ok o, ⟨st.heap ++ [o], r.disk, st.got ++ [st.heap.length]⟩)
  | .error e => (.error e, { st with disk := r.disk })

/-- The program changes the object that the `j`-th successful call returned. -/
def DiskObjects.change (st : DiskObjects P) (j : Nat) (v : P.Obj) : DiskObjects P :=
  match st.got[j]? with
  | some r => { st with heap := st.heap.set r v }
  | none => st

/-- The program looks at the object that the `j`-th successful call returned. -/
def DiskObjects.look (st : DiskObjects P) (j : Nat) : Option P.Obj := st.got[j]?.bind (fun r => st.heap[r]?)

/-- One step. -/
def DiskObjects.step (order : List Path → List Path) (method : DiskMethod P) (file : Path) (deps : List Dep) (st : DiskObjects P) :
    ResOp (P.Obj × P.Obj) P.Obj → DiskObjects P
  | .call k => (st.call order method file deps k.1 k.2).2
  | .change j v => st.change j v
  | .look _ => st

/-- A whole program. -/
def DiskObjects.run (order : List Path → List Path) (method : DiskMethod P) (file : Path) (deps : List Dep) (d : Disk)
    (ops : List (ResOp (P.Obj × P.Obj) P.Obj)) : DiskObjects P := ops.foldl (DiskObjects.step order method file deps) ⟨[], d, []⟩

end Cjk
