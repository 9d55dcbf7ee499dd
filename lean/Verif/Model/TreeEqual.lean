import Verif.Model.Tree
/-!
# Model of `==` on tree nodes that share nodes (tree.py:228-231)

`Model/Tree.lean` has `nodeEq`, which is enough for trees.  Two things in it are simplified: the comparison of two dictionaries takes
two values for equal without calling `__eq__` if they are the same object, and, depending on the version of Python, it compares
`b[k] == a[k]` or `a[k] == b[k]`.  Both matter for nodes that are shared or contain themselves, so they are parameters here.
-/

namespace Cjk
open Py

/-- `a == b` (tree.py:228-231), with at most `n` calls of `__eq__` inside each other; `none` is a RecursionError.  With `short` the
dictionaries do not compare an object with itself, with `flip` they turn the two sides around. -/
def nodeEqWith (short flip : Bool) (h : Heap) : Nat → Nat → Nat → Option Bool
  | 0, _, _ => none
  | n + 1, a, b =>
    if (h.node a).label ≠ (h.node b).label then some false
    else if attribEq (h.node a).attrib (h.node b).attrib = false then some false
    else if (h.node a).children.length ≠ (h.node b).children.length then some false
    else (h.node a).children.foldr (fun kv acc =>
      match Dict.get? (h.node b).children kv.1 with
      | none => some false
      | some w =>
        if short = true ∧ kv.2 = w then acc
        else
          match (if flip then nodeEqWith short flip h n w kv.2 else nodeEqWith short flip h n kv.2 w) with
          | none => none
          | some false => some false
          | some true => acc) (some true)

end Cjk
