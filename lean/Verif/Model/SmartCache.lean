import Verif.Py.Dict
/-!
# Model of `cjktools/smart_cache.py`

Python objects, `==`, hashing and `pickle` are parameters.  Files are byte strings with a modification
time; every call is atomic (no other process acts inside one call except for a crash); for processes that act at the same time see
Model/CacheRace.lean.
Not modelled: the `CACHE_DEBUG` prints, `proxy_method.__doc__`.  For cache files named `-` or ending in
`.gz`/`.bz2` (which `sopen` treats specially) and files that cannot be opened see Model/CacheStream.lean.
-/

namespace Cjk
open Py

/-! ## memory_proxy -/

/-- What `memory_proxy` needs to know about objects: `a == b` and whether `hash(a)` works. -/
structure PyObjects where
  /-- The values. -/
  Obj : Type
  /-- `a == b` -/
  eq : Obj → Obj → Bool
  /-- `hash(a)` does not raise. -/
  hashable : Obj → Bool

/-- The arguments of a call: `*args` and `**params` (in the order of the call, PEP 468). -/
structure CallArgs (O : PyObjects) where
  /-- `*args` -/
  args : List O.Obj
  /-- `**params`, in call order -/
  params : List (Str × O.Obj)

variable {O : PyObjects}

/-- `==` of two tuples of objects. -/
def tupleEq (eq : α → α → Bool) : List α → List α → Bool
  | [], [] => true
  | a :: as, b :: bs => eq a b && tupleEq eq as bs
  | _, _ => false

/-- `==` of the keys `(args, tuple(params.items()))` (smart_cache.py:80): the order of the keyword
arguments matters. -/
def CallArgs.keyEq (k k' : CallArgs O) : Bool :=
  tupleEq O.eq k.args k'.args && tupleEq (fun x y => x.1 == y.1 && O.eq x.2 y.2) k.params k'.params

/-- The key can be hashed. -/
def CallArgs.keyHashable (k : CallArgs O) : Bool :=
  k.args.all O.hashable && k.params.all (fun p => O.hashable p.2)

/-- `method_dict[key]`, with keys compared by `==`. -/
def memoGet {O : PyObjects} (memo : List (CallArgs O × O.Obj)) (k : CallArgs O) : Option O.Obj :=
  (memo.find? (fun e => e.1.keyEq k)).map Prod.snd

/-- A method: may read and change a state `σ` (everything the interpreter can touch), may raise. -/
abbrev Method (O : PyObjects) (σ : Type) := σ → CallArgs O → Except PyErr O.Obj × σ

/-- What one call of a proxy did: its outcome and whether the method was called. -/
structure CallResult (O : PyObjects) where
  /-- returned value or exception -/
  result : Except PyErr O.Obj
  /-- whether the wrapped method ran -/
  called : Bool

/-- `proxy_method` of `memory_proxy` (smart_cache.py:79-88). -/
def memoryProxy {σ : Type} (method : Method O σ) (s : σ) (memo : List (CallArgs O × O.Obj)) (k : CallArgs O) :
    CallResult O × σ × List (CallArgs O × O.Obj) :=
  if k.keyHashable then
    match memoGet memo k with
    | some v => (⟨.ok v, false⟩, s, memo)
    | none =>
      match method s k with
      | (.ok v, s') => (⟨.ok v, true⟩, s', memo ++ [(k, v)])
      | (.error e, s') => (⟨.error e, true⟩, s', memo)
  else (⟨.error .typeError, false⟩, s, memo)

/-- A whole history of calls, each with the state in which it found the world (other code may change
the state between calls). -/
def memoryRun {σ : Type} (method : Method O σ) : List (CallArgs O × O.Obj) → List (σ × CallArgs O) → List (CallResult O)
  | _, [] => []
  | memo, (s, k) :: rest =>
    let r := memoryProxy method s memo k
    r.1 :: memoryRun method r.2.2 rest

/-! ## needs_update -/

/-- File names. -/
abbrev Path := Str

/-- A file: its bytes and its modification time. -/
structure File where
  /-- content -/
  bytes : List Nat
  /-- `path.getmtime` -/
  mtime : Nat

/-- A file system. -/
abbrev FS := Path → Option File

/-- A module, as far as `_get_module_dependencies` looks: `__file__` (if any) and the `__file__` of the
modules among the values of `__dict__` (if any). -/
structure Module where
  /-- `module.__file__` -/
  file : Option Path
  /-- `__file__` of the modules in `module.__dict__.values()` -/
  imports : List (Option Path)

/-- A dependency as passed by the caller. -/
inductive Dep where
  | file (p : Path)
  | module (m : Module)
  | other

/-- `path.getmtime`: `OSError` for a missing file. -/
def getmtime (fs : FS) (p : Path) : Except PyErr Nat :=
  match fs p with
  | some f => .ok f.mtime
  | none => .error .osError

/-- `_get_module_dependencies` (smart_cache.py:184-196): a set, here the listing before duplicates are
removed.  `module.__file__` raises `AttributeError` when missing. -/
def moduleDependencies (m : Module) : Except PyErr (List Path) :=
  match m.file with
  | some f => .ok (f :: m.imports.filterMap id)
  | none => .error .attributeError

/-- The inner loop (smart_cache.py:177-179): `true` = returned `True`. -/
def anyNewer (fs : FS) (t : Nat) : List Path → Except PyErr Bool
  | [] => .ok false
  | p :: ps => do
    let m ← getmtime fs p
    if m > t then .ok true else anyNewer fs t ps

/-- The file names of one dependency (smart_cache.py:170-175).  `order` is the iteration order of the
set returned for a module. -/
def depFiles (order : List Path → List Path) : Dep → Except PyErr (List Path)
  | .file p => .ok [p]
  | .module m => do
    let ps ← moduleDependencies m
    .ok (order ps)
  | .other => .error .typeError

/-- The outer loop (smart_cache.py:169-181). -/
def depsNewer (order : List Path → List Path) (fs : FS) (t : Nat) : List Dep → Except PyErr Bool
  | [] => .ok false
  | d :: ds => do
    let ps ← depFiles order d
    if (← anyNewer fs t ps) then .ok true else depsNewer order fs t ds

/-- `needs_update` (smart_cache.py:155-181). -/
def needsUpdate (order : List Path → List Path) (fs : FS) (target : Path) (deps : List Dep) : Except PyErr Bool :=
  match fs target with
  | none => .ok true
  | some f => depsNewer order fs f.mtime deps

/-! ## The disk cache -/

/-- Objects for the disk cache: values, `None`, `==` (which may raise), `pickle.dump` (bytes written and
the exception, if any) and `pickle.load` (object and the rest of the stream). -/
structure PickleObjects where
  /-- values -/
  Obj : Type
  /-- `x is None` -/
  isNone : Obj → Bool
  /-- `a == b` -/
  eq : Obj → Obj → Except PyErr Bool
  /-- bytes that `pickle.dump` writes, and the exception it ends with -/
  dump : Obj → List Nat × Option PyErr
  /-- `pickle.load` -/
  load : List Nat → Except PyErr (Obj × List Nat)

/-- What the unpickler guarantees: it reads back what was written, leaving the rest of the stream
alone, and fails on a stream that ends early (also on one cut short by an exception of `dump`). -/
structure PickleSpec (P : PickleObjects) : Prop where
  /-- round trip -/
  load_dump : ∀ o rest, (P.dump o).2 = none → P.load ((P.dump o).1 ++ rest) = .ok (o, rest)
  /-- truncated streams fail -/
  load_prefix : ∀ o pre, (P.dump o).2 = none → pre <+: (P.dump o).1 → pre ≠ (P.dump o).1 →
    ∃ e, P.load pre = .error e
  /-- so do streams cut short by an exception -/
  load_failed : ∀ o pre, (P.dump o).2 ≠ none → pre <+: (P.dump o).1 → ∃ e, P.load pre = .error e

variable {P : PickleObjects}

/-- The body of the `try` in `try_cache` (smart_cache.py:115-128) on the bytes of the cache file.
`none` stands for `None`; every exception is swallowed. -/
def loadCached (P : PickleObjects) (bytes : List Nat) (args params : P.Obj) : Option P.Obj :=
  match (do
    let (a, r1) ← P.load bytes
    let (p, r2) ← P.load r1
    -- `stored_args == method_args and stored_params == method_params`
    let ea ← P.eq a args
    if ea then
      let ep ← P.eq p params
      if ep then
        let (o, _) ← P.load r2
        Except.ok (some o)
      else .ok none
    else .ok none : Except PyErr (Option P.Obj)) with
  | .ok (some o) => if P.isNone o then none else some o
  | .ok none => none
  | .error _ => none

/-- `try_cache` (smart_cache.py:95-130).  Exceptions of `needs_update` are not caught. -/
def tryCache (P : PickleObjects) (order : List Path → List Path) (fs : FS) (file : Path) (args params : P.Obj)
    (deps : List Dep) : Except PyErr (Option P.Obj) := do
  if (← needsUpdate order fs file deps) then .ok none
  else match fs file with
    | some f => .ok (loadCached P f.bytes args params)
    | none => .ok none

/-- The bytes `store_cache_object` writes (smart_cache.py:149-152) and how it ends. -/
def storedBytes (P : PickleObjects) (obj args params : P.Obj) : List Nat × Option PyErr :=
  match P.dump args with
  | (b1, some e) => (b1, some e)
  | (b1, none) =>
    match P.dump params with
    | (b2, some e) => (b1 ++ b2, some e)
    | (b2, none) =>
      match P.dump obj with
      | (b3, r) => (b1 ++ b2 ++ b3, r)

/-- Write a file at time `now`. -/
def FS.write (fs : FS) (p : Path) (bytes : List Nat) (now : Nat) : FS :=
  fun q => if q = p then some ⟨bytes, now⟩ else fs q

/-- The world: files and clock. -/
structure Disk where
  /-- files -/
  fs : FS
  /-- current time, in ticks of the file system's time stamps -/
  now : Nat

/-- A cached method: reads the file system, returns or raises. -/
abbrev DiskMethod (P : PickleObjects) := FS → P.Obj → P.Obj → Except PyErr P.Obj

/-- Outcome of a proxy call: returned value, the world afterwards, and whether the method ran. -/
structure DiskResult (P : PickleObjects) where
  /-- returned value or exception -/
  result : Except PyErr P.Obj
  /-- world afterwards -/
  disk : Disk
  /-- whether the wrapped method ran -/
  called : Bool

/-- `proxy_method` of `disk_proxy_direct` (smart_cache.py:37-53); `disk_proxy` (smart_cache.py:60-64) is the same with the arguments in another
order. -/
def diskProxy (P : PickleObjects) (order : List Path → List Path) (method : DiskMethod P) (file : Path) (deps : List Dep)
    (d : Disk) (args params : P.Obj) : DiskResult P :=
  match tryCache P order d.fs file args params deps with
  | .error e => ⟨.error e, d, false⟩
  | .ok (some o) => ⟨.ok o, d, false⟩
  | .ok none =>
    match method d.fs args params with
    | .error e => ⟨.error e, d, true⟩
    | .ok o =>
      match storedBytes P o args params with
      | (b, none) => ⟨.ok o, { d with fs := d.fs.write file b d.now }, true⟩
      | (b, some e) => ⟨.error e, { d with fs := d.fs.write file b d.now }, true⟩

/-- A proxy call during which the process dies after `n` bytes of `store_cache_object` reached the
disk (nothing happens when the call does not store). -/
def diskProxyCrash (P : PickleObjects) (order : List Path → List Path) (method : DiskMethod P) (file : Path)
    (deps : List Dep) (d : Disk) (args params : P.Obj) (n : Nat) : Disk :=
  match tryCache P order d.fs file args params deps with
  | .error _ => d
  | .ok (some _) => d
  | .ok none =>
    match method d.fs args params with
    | .error _ => d
    | .ok o => { d with fs := d.fs.write file ((storedBytes P o args params).1.take n) d.now }

end Cjk
