import Verif.Spec.TreeOps
/-!
# Distributions made with any count method, described by recursion
-/

namespace Cjk
open Py

/-- The number that a node has under a key (0 if there is none). -/
def ATree.numAt (key : Str) (t : ATree) : ℚ :=
  match Dict.get? t.attrib (.str key) with
  | some (.num q) => q
  | _ => 0

mutual
/-- The tree with counts, or the exception of the first call that fails: the children are counted first, from the last to the first, and the count
method sees the node with its counted children.  `cum_count` is the count of the node and of its children. -/
def ATree.counted (ar : Arith) (M : ATree → Except PyErr AVal) : ATree → Except PyErr ATree
  | .node r l a k =>
    match k.counted ar M with
    | .error e => .error e
    | .ok k' =>
      match M (.node r l a k') with
      | .error e => .error e
      | .ok (.num q) =>
        .ok (.node r l (Dict.set (Dict.set a (.str u!"count") (.num q)) (.str u!"cum_count")
          (.num (ar.add q ((k'.items.map (fun kt => kt.2.numAt u!"count")).foldl ar.add 0)))) k')
      | .ok _ => .error .typeError
def AForest.counted (ar : Arith) (M : ATree → Except PyErr AVal) : AForest → Except PyErr AForest
  | .nil => .ok .nil
  | .cons key t rest =>
    match rest.counted ar M with
    | .error e => .error e
    | .ok rest' =>
      match t.counted ar M with
      | .error e => .error e
      | .ok t' => .ok (.cons key t' rest')
end

/-- The attributes with the frequency. -/
def withFreq (ar : Arith) (total : ℚ) (t : ATree) : Attrib := Dict.set t.attrib (.str u!"freq") (.num (ar.div (t.numAt u!"cum_count") total))

/-- The number of leaves. -/
def ATree.leaves (t : ATree) : ℚ := ((t.subs.filter (fun s => s.kids.items.isEmpty)).length : ℚ)

end Cjk
