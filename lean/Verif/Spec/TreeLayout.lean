import Verif.Spec.Tree
/-!
# What a tree drawing looks like
-/

namespace Cjk
open Py

mutual
/-- Every node in depth-first order, children in order, with the answers to the question "is it the last child of its parent?" for the
nodes on the way down to it (without the root). -/
def ATree.marked : ATree → List (List Bool × ATree)
  | .node r l a k => ([], .node r l a k) :: k.marked
/-- The nodes below. -/
def AForest.marked : AForest → List (List Bool × ATree)
  | .nil => []
  | .cons _ t rest => t.marked.map (fun m => (rest.items.isEmpty :: m.1, m.2)) ++ rest.marked
end

/-- The lines in front of a node: three columns for each level. -/
def Spec.indent : List Bool → Str
  | [] => []
  | [last] => if last then u!"└─ " else u!"├─ "
  | last :: more => (if last then u!"   " else u!"│  ") ++ Spec.indent more

/-- The lines printed for the nodes: up to the first node that cannot be represented, and its exception. -/
def Spec.printed (f : ATree → Except PyErr Str) : List (List Bool × ATree) → List Str × Option PyErr
  | [] => ([], none)
  | m :: ms =>
    match f m.2 with
    | .error e => ([], some e)
    | .ok s => ((Spec.indent m.1 ++ s) :: (Spec.printed f ms).1, (Spec.printed f ms).2)

mutual
/-- The labels and the shape of a tree. -/
def ATree.labels : ATree → ATree
  | .node _ l _ k => .node 0 l [] k.labels
def AForest.labels : AForest → AForest
  | .nil => .nil
  | .cons _ t rest => .cons [] t.labels rest.labels
end

end Cjk
