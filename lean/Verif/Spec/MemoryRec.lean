import Verif.Model.MemoryRec
import Verif.Spec.SmartCache
/-! # Specification vocabulary for cached methods that call themselves -/

namespace Cjk.Spec
open Py

mutual
/-- What a call gives without a cache: unhashable arguments raise `TypeError`, otherwise the body runs. -/
inductive Gives {O : PyObjects} (method : CallArgs O → RecProg O) : CallArgs O → Except PyErr O.Obj → Prop
  | body (k : CallArgs O) (r : Except PyErr O.Obj) : Hashable k → RecEnds method (method k) r → Gives method k r
  | unhashable (k : CallArgs O) : ¬ Hashable k → Gives method k (.error .typeError)
/-- How a body ends without a cache. -/
inductive RecEnds {O : PyObjects} (method : CallArgs O → RecProg O) : RecProg O → Except PyErr O.Obj → Prop
  | ret (r : Except PyErr O.Obj) : RecEnds method (.ret r) r
  | call (k : CallArgs O) (next : Except PyErr O.Obj → RecProg O) (r r' : Except PyErr O.Obj) :
      Gives method k r → RecEnds method (next r) r' → RecEnds method (.call k next) r'
end

/-- A history of calls, each of which ended: the outcomes, the cache at the end and all runs of the method, in the order in which they began. -/
inductive RecCalls {O : PyObjects} (method : CallArgs O → RecProg O) : List (CallArgs O × Except PyErr O.Obj) → Memo O → List (CallArgs O) → Prop
  | none : RecCalls method [] [] []
  | more (hist : List (CallArgs O × Except PyErr O.Obj)) (memo memo' : Memo O) (log l : List (CallArgs O)) (n : Nat) (k : CallArgs O)
      (r : Except PyErr O.Obj) : RecCalls method hist memo log → proxyRec method n k memo = some (r, memo', l) →
      RecCalls method (hist ++ [(k, r)]) memo' (log ++ l)

end Cjk.Spec
