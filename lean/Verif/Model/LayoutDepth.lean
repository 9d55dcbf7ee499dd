import Verif.Model.TreeLayout
/-!
# Model of `layout` with Python's limit on nested calls (tree.py:247-273, 309-313)

`Model/TreeLayout.lean` draws without a limit.  Here a number says how many calls of Python functions may still be made inside the call of `layout`; a call for which none is
left raises `RecursionError` before its body runs.  `_layout_children` calls itself for every child, so each level of the tree takes one; the method that represents a node is
called next to it and may itself make calls, so it is told how many are left for it.  Not counted, because they are no Python functions: `print`, `list`, `values` and `%`.
-/

namespace Cjk
open Py

/-- The loop of `_layout_children` over the children (tree.py:261-273): every child is printed and then its children are, the last child with other signs. -/
def layoutRow (line below : Str → Nat → Printed) (pre : Str) : List Nat → Printed
  | [] => ([], none)
  | [c] => (line (pre ++ u!"└─ ") c).andThen (below (pre ++ u!"   ") c)
  | c :: d :: rest => ((line (pre ++ u!"├─ ") c).andThen (below (pre ++ u!"│  ") c)).andThen (layoutRow line below pre (d :: rest))

/-- A call of `_layout_children` for the node `r` (tree.py:260-273), for which `n` calls are left, itself included. -/
def layoutCall (h : Heap) (method : Nat → TNode → Except PyErr Str) : Nat → Str → Nat → Printed
  | 0, _, _ => ([], some .recursionError)
  | n + 1, pre, r =>
    layoutRow (fun front c => printLine front (method n (h.node c))) (fun pre c => layoutCall h method n pre c) pre (Dict.values (h.node r).children)

/-- `layout` (tree.py:247-258) with `n` calls left inside it. -/
def treeLayoutIn (h : Heap) (n : Nat) (r : Nat) (method : Nat → TNode → Except PyErr Str) : Printed :=
  (printLine [] (method n (h.node r))).andThen (layoutCall h method n [] r)

/-- A method that makes nested calls, `k` deep with its own call: 1 for the default method (tree.py:254), 2 for that of `TreeDist.layout` (tree.py:312), which asks the
node for `n['freq']`. -/
def nestedMethod (k : Nat) (method : TNode → Except PyErr Str) (n : Nat) (x : TNode) : Except PyErr Str :=
  if n < k then .error .recursionError else method x

end Cjk
