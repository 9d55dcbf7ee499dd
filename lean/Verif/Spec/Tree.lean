import Verif.Model.Tree
/-!
# Trees, described by recursion

`ATree` is a finite tree annotated with the references of its nodes.  `Rep h t` says that the heap `h` contains the
tree `t`, `Par h par t` that the parent links are right.
-/

namespace Cjk
open Py

mutual
/-- A finite tree: reference, label, attributes, and children by key. -/
inductive ATree where
  | node (ref : Nat) (label : Str) (attrib : Attrib) (kids : AForest)
/-- Children by key, in order. -/
inductive AForest where
  | nil
  | cons (key : Str) (t : ATree) (rest : AForest)
end

namespace ATree
def ref : ATree → Nat | node r _ _ _ => r
def label : ATree → Str | node _ l _ _ => l
def attrib : ATree → Attrib | node _ _ a _ => a
def kids : ATree → AForest | node _ _ _ k => k
end ATree

namespace AForest
/-- The children as a list. -/
def items : AForest → List (Str × ATree)
  | nil => []
  | cons key t rest => (key, t) :: rest.items
/-- Children from a list. -/
def ofList : List (Str × ATree) → AForest
  | [] => nil
  | (key, t) :: rest => cons key t (ofList rest)
/-- The dictionary of a node with these children. -/
def dict (k : AForest) : Dict Str Nat := k.items.map (fun kt => (kt.1, kt.2.ref))
end AForest

mutual
/-- All subtrees, the tree itself first. -/
def ATree.subs : ATree → List ATree
  | .node r l a k => .node r l a k :: k.subs
def AForest.subs : AForest → List ATree
  | .nil => []
  | .cons _ t rest => t.subs ++ rest.subs
end

/-- The references of all nodes. -/
def ATree.refs (t : ATree) : List Nat := t.subs.map ATree.ref
/-- The references of all proper descendants. -/
def AForest.refs (k : AForest) : List Nat := k.subs.map ATree.ref

mutual
/-- Pre-order, children from the last to the first. -/
def ATree.pre : ATree → List Nat
  | .node r _ _ k => r :: k.pre
def AForest.pre : AForest → List Nat
  | .nil => []
  | .cons _ t rest => rest.pre ++ t.pre
end

mutual
/-- Post-order, children from the last to the first. -/
def ATree.post : ATree → List Nat
  | .node r _ _ k => k.post ++ [r]
def AForest.post : AForest → List Nat
  | .nil => []
  | .cons _ t rest => rest.post ++ t.post
end

mutual
/-- The nodes at a depth. -/
def ATree.level : ATree → Nat → List ATree
  | .node r l a k, 0 => [.node r l a k]
  | .node _ _ _ k, d + 1 => k.level d
def AForest.level : AForest → Nat → List ATree
  | .nil, _ => []
  | .cons _ t rest, d => t.level d ++ rest.level d
end

mutual
/-- The tree without references: labels, attributes, keys and shape. -/
def ATree.bare : ATree → ATree
  | .node _ l a k => .node 0 l a k.bare
def AForest.bare : AForest → AForest
  | .nil => .nil
  | .cons key t rest => .cons key t.bare rest.bare
end

mutual
/-- No two children of a node have the same key. -/
def ATree.keysDistinct : ATree → Prop
  | .node _ _ _ k => (k.items.map Prod.fst).Nodup ∧ k.keysDistinct
def AForest.keysDistinct : AForest → Prop
  | .nil => True
  | .cons _ t rest => t.keysDistinct ∧ rest.keysDistinct
end

mutual
/-- Every child is entered under its label. -/
def ATree.keysAreLabels : ATree → Prop
  | .node _ _ _ k => k.keysAreLabels
def AForest.keysAreLabels : AForest → Prop
  | .nil => True
  | .cons key t rest => key = t.label ∧ t.keysAreLabels ∧ rest.keysAreLabels
end

mutual
/-- The heap contains the tree. -/
def Rep (h : Heap) : ATree → Prop
  | .node r l a k => (∃ par, h[r]? = some ⟨l, k.dict, a, par⟩) ∧ RepF h k
def RepF (h : Heap) : AForest → Prop
  | .nil => True
  | .cons _ t rest => Rep h t ∧ RepF h rest
end

mutual
/-- The parent of the root is `par`, and every other node has its parent as parent. -/
def Par (h : Heap) (par : Option Nat) : ATree → Prop
  | .node r _ _ k => (h.node r).parent = par ∧ ParF h r k
def ParF (h : Heap) (r : Nat) : AForest → Prop
  | .nil => True
  | .cons _ t rest => Par h (some r) t ∧ ParF h r rest
end

/-- A proper tree on the heap: no node is reached twice, no key occurs twice. -/
structure IsTree (h : Heap) (t : ATree) : Prop where
  rep : Rep h t
  distinct : t.refs.Nodup
  keys : t.keysDistinct

/-- Following keys down. -/
def ATree.walkDown : ATree → List Str → Option ATree
  | t, [] => some t
  | t, k :: ks => (Dict.get? t.kids.items k).bind (fun c => c.walkDown ks)

mutual
/-- The tree has a node satisfying the predicate. -/
def ATree.live (p : Str → Attrib → Bool) : ATree → Bool
  | .node _ l a k => p l a || k.live p
def AForest.live (p : Str → Attrib → Bool) : AForest → Bool
  | .nil => false
  | .cons _ t rest => t.live p || rest.live p
end

mutual
/-- The tree without the branches that have no node satisfying the predicate. -/
def ATree.trim (p : Str → Attrib → Bool) : ATree → ATree
  | .node r l a k => .node r l a (k.trim p)
def AForest.trim (p : Str → Attrib → Bool) : AForest → AForest
  | .nil => .nil
  | .cons key t rest => if t.live p then .cons key (t.trim p) (rest.trim p) else rest.trim p
end

/-- `a` stands before `b` in the list. -/
def Before (a b : Nat) (l : List Nat) : Prop := [a, b].Sublist l

end Cjk
