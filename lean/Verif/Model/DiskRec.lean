import Verif.Model.SmartCache
/-!
# Disk caches around methods that call each other

Model/SmartCache.lean takes a method as one step.  Methods that are wrapped with `disk_proxy` may call each other and themselves; such a call goes through a proxy
while an outer call is still running, and so the cache files change during the call.  Here the body of a method is a program: it ends, takes some time, or calls a
wrapped method and goes on with the outcome (which it may handle, if that is an exception).

Simplified: Python's limit on the depth of recursion is not modelled; the methods themselves write no files.
-/

namespace Cjk
open Py

/-- What is left to run of a body; `M` are the wrapped methods. -/
inductive DiskProg (M : Type) (P : PickleObjects) where
  /-- it returns or raises -/
  | ret (r : Except PyErr P.Obj)
  /-- it takes some time -/
  | wait (n : Nat) (next : DiskProg M P)
  /-- it calls a wrapped method -/
  | call (m : M) (args params : P.Obj) (next : Except PyErr P.Obj → DiskProg M P)

/-- Methods wrapped with `disk_proxy(cache_file, dependencies)` (smart_cache.py:60-64). -/
structure Wrapped (M : Type) (P : PickleObjects) where
  /-- `cache_file` -/
  file : M → Path
  /-- `dependencies` -/
  deps : M → List Dep
  /-- the method -/
  body : M → P.Obj → P.Obj → DiskProg M P

/-- The outcome of a call, the disk after it, and the calls for which a method ran, in the order in which they began. -/
abbrev NestResult (M : Type) (P : PickleObjects) := Except PyErr P.Obj × Disk × List (M × P.Obj × P.Obj)

/-- A body runs; `proxy` is what a call of a wrapped method does (`none`: it does not end). -/
def DiskProg.run {M : Type} {P : PickleObjects} (proxy : M → P.Obj → P.Obj → Disk → Option (NestResult M P)) :
    DiskProg M P → Disk → Option (NestResult M P)
  | .ret r, d => some (r, d, [])
  | .wait n next, d => next.run proxy { d with now := d.now + n }
  | .call m a p next, d =>
    match proxy m a p d with
    | none => none
    | some (r, d', l) =>
      match (next r).run proxy d' with
      | none => none
      | some (r', d'', l') => some (r', d'', l ++ l')

/-- `proxy_method` of `disk_proxy_direct` (smart_cache.py:37-53) around methods that call the proxies; the number bounds the depth of the calls. -/
def proxyNest {M : Type} {P : PickleObjects} (S : Wrapped M P) (order : List Path → List Path) :
    Nat → M → P.Obj → P.Obj → Disk → Option (NestResult M P)
  | 0, _, _, _, _ => none
  | n + 1, m, a, p, d =>
    match tryCache P order d.fs (S.file m) a p (S.deps m) with
    | .error e => some (.error e, d, [])
    | .ok (some o) => some (.ok o, d, [])
    | .ok none =>
      match (S.body m a p).run (proxyNest S order n) d with
      | none => none
      | some (.error e, d', l) => some (.error e, d', (m, a, p) :: l)
      | some (.ok o, d', l) =>
        match storedBytes P o a p with
        | (b, none) => some (.ok o, { d' with fs := d'.fs.write (S.file m) b d'.now }, (m, a, p) :: l)
        | (b, some e) => some (.error e, { d' with fs := d'.fs.write (S.file m) b d'.now }, (m, a, p) :: l)

end Cjk
