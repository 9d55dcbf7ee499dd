import Verif.Model.SmartCache
/-! # Specification vocabulary for the caches -/

namespace Cjk.Spec
open Py

/-- File `p` belongs to dependency `d`: the file itself; for a module its own file and the files of the
modules it imports. -/
inductive DependsOn : Dep → Path → Prop
  | file (p) : DependsOn (.file p) p
  | moduleFile (m : Module) (p) : m.file = some p → DependsOn (.module m) p
  | imported (m : Module) (p) : some p ∈ m.imports → DependsOn (.module m) p

/-- The dependency is a file name or a module with a file. -/
def Supported : Dep → Prop
  | .file _ => True
  | .module m => m.file ≠ none
  | .other => False

/-- All dependencies are supported and all their files exist. -/
def GoodDeps (fs : FS) (deps : List Dep) : Prop :=
  (∀ d ∈ deps, Supported d) ∧ ∀ d ∈ deps, ∀ p, DependsOn d p → ∃ f, fs p = some f

/-- Some file of some dependency is newer than time `t`. -/
def Newer (fs : FS) (t : Nat) (deps : List Dep) : Prop :=
  ∃ d ∈ deps, ∃ p, DependsOn d p ∧ ∃ f, fs p = some f ∧ t < f.mtime

/-- Iterating over a set visits exactly its members. -/
def SetOrder (order : List Path → List Path) : Prop := ∀ l p, p ∈ order l ↔ p ∈ l

/-- Worlds reachable from one without a cache file by the passing of time, writing files, removing the
cache file, proxy calls and proxy calls that crash.  The one restriction: a file is only written
when the clock has moved on since the cache file was written. -/
inductive Reachable (P : PickleObjects) (order : List Path → List Path) (method : DiskMethod P) (file : Path)
    (deps : List Dep) : Disk → Prop
  | init (d : Disk) : d.fs file = none → GoodDeps d.fs deps →
      Reachable P order method file deps d
  | wait (d : Disk) (n : Nat) : Reachable P order method file deps d →
      Reachable P order method file deps { d with now := d.now + n }
  | edit (d : Disk) (p : Path) (bytes : List Nat) : Reachable P order method file deps d → p ≠ file →
      (∀ f, d.fs file = some f → f.mtime < d.now) →
      Reachable P order method file deps { d with fs := d.fs.write p bytes d.now }
  | remove (d : Disk) : Reachable P order method file deps d →
      Reachable P order method file deps { d with fs := fun q => if q = file then none else d.fs q }
  | call (d : Disk) (args params : P.Obj) : Reachable P order method file deps d →
      Reachable P order method file deps (diskProxy P order method file deps d args params).disk
  | crash (d : Disk) (args params : P.Obj) (n : Nat) : Reachable P order method file deps d →
      Reachable P order method file deps (diskProxyCrash P order method file deps d args params n)

/-- The method's result depends on the contents of the dependencies and the arguments up to `==` only. -/
structure Determined (P : PickleObjects) (method : DiskMethod P) (deps : List Dep) : Prop where
  /-- only the declared dependencies matter -/
  files : ∀ (fs fs' : FS) a p, (∀ d ∈ deps, ∀ q, DependsOn d q → (fs q).map File.bytes = (fs' q).map File.bytes) →
    method fs a p = method fs' a p
  /-- equal arguments are treated alike -/
  args : ∀ (fs : FS) a p a' p', P.eq a a' = .ok true → P.eq p p' = .ok true → method fs a p = method fs a' p'

/-! ### Calls of a method with a memory cache -/

/-- All arguments, by position and by name, can be hashed. -/
def Hashable {O : PyObjects} (k : CallArgs O) : Prop :=
  (∀ a ∈ k.args, O.hashable a = true) ∧ ∀ p ∈ k.params, O.hashable p.2 = true

/-- Two calls are the same: as many arguments by position, each equal to its counterpart, and the same names in the same order, each
with equal values. -/
structure SameCall {O : PyObjects} (k k' : CallArgs O) : Prop where
  count : k.args.length = k'.args.length
  args : ∀ (i : Nat) a b, k.args[i]? = some a → k'.args[i]? = some b → O.eq a b = true
  names : k.params.map Prod.fst = k'.params.map Prod.fst
  values : ∀ (i : Nat) p q, k.params[i]? = some p → k'.params[i]? = some q → O.eq p.2 q.2 = true

/-- The log has a call that is the same as `k` and returned `v`, and all such calls before it raised. -/
def FirstSuccess {O : PyObjects} (log : List (CallArgs O × CallResult O)) (k : CallArgs O) (v : O.Obj) : Prop :=
  ∃ before k' r after, log = before ++ (k', r) :: after ∧ SameCall k' k ∧ r.result = .ok v ∧
    ∀ e ∈ before, SameCall e.1 k → ∃ x, e.2.result = .error x

/-- Every call in the log that is the same as `k` raised. -/
def NoSuccess {O : PyObjects} (log : List (CallArgs O × CallResult O)) (k : CallArgs O) : Prop :=
  ∀ e ∈ log, SameCall e.1 k → ∃ x, e.2.result = .error x

end Cjk.Spec
