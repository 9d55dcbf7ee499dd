import Verif.Model.SmartCache
/-!
# A memory cache around a method that calls itself

Model/SmartCache.lean takes a method as one step.  A method that is decorated with `memory_proxy` and calls itself goes through the proxy while an outer
call is still running, and so the cache changes during the call.  Here the body of a method is a program: it ends, or it calls the proxied method and goes on with
the outcome (which it may handle, if that is an exception).

Simplified: Python's limit on the depth of recursion is not modelled (a call that exceeds it raises `RecursionError`).
-/

namespace Cjk
open Py

/-- What is left to run of a body. -/
inductive RecProg (O : PyObjects) where
  /-- it returns or raises -/
  | ret (r : Except PyErr O.Obj)
  /-- it calls the proxied method -/
  | call (k : CallArgs O) (next : Except PyErr O.Obj → RecProg O)

/-- `method_dict` (smart_cache.py:77). -/
abbrev Memo (O : PyObjects) := List (CallArgs O × O.Obj)

/-- `method_dict[key] = result` (smart_cache.py:87): an equal key stays and gets the new value. -/
def memoSet {O : PyObjects} (k : CallArgs O) (v : O.Obj) : Memo O → Memo O
  | [] => [(k, v)]
  | (k', v') :: memo => if k'.keyEq k then (k', v) :: memo else (k', v') :: memoSet k v memo

/-- The outcome of a call, the cache after it, and the calls for which the method ran, in the order in which they began. -/
abbrev RecResult (O : PyObjects) := Except PyErr O.Obj × Memo O × List (CallArgs O)

/-- A body runs; `proxy` is what a call of the proxied method does (`none`: it does not end). -/
def RecProg.run {O : PyObjects} (proxy : CallArgs O → Memo O → Option (RecResult O)) : RecProg O → Memo O → Option (RecResult O)
  | .ret r, memo => some (r, memo, [])
  | .call k next, memo =>
    match proxy k memo with
    | none => none
    | some (r, memo', l) =>
      match (next r).run proxy memo' with
      | none => none
      | some (r', memo'', l') => some (r', memo'', l ++ l')

/-- `proxy_method` of `memory_proxy` (smart_cache.py:79-88) around a method that calls the proxy; the number bounds the depth of the calls. -/
def proxyRec {O : PyObjects} (method : CallArgs O → RecProg O) : Nat → CallArgs O → Memo O → Option (RecResult O)
  | 0, _, _ => none
  | n + 1, k, memo =>
    if k.keyHashable then
      match memoGet memo k with
      | some v => some (.ok v, memo, [])
      | none =>
        match (method k).run (proxyRec method n) memo with
        | none => none
        | some (.ok v, memo', l) => some (.ok v, memoSet k v memo', k :: l)
        | some (.error e, memo', l) => some (.error e, memo', k :: l)
    else some (.error .typeError, memo, [])

end Cjk
