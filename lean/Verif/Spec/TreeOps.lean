import Verif.Spec.Tree
/-!
# Histories of tree operations, and annotated trees
-/

namespace Cjk
open Py

/-- An operation of a user on tree nodes. -/
inductive TreeOp where
  | new (label : Str) (attrib : Attrib)
  | add (p c : Nat)
  | unlink (c : Nat)
  | del (p c : Nat)
  | set (r : Nat) (key : AKey) (v : AVal)
  | unset (r : Nat) (key : AKey)

/-- The effect of an operation; one that raises leaves everything as it was. -/
def TreeOp.step (h : Heap) : TreeOp → Heap
  | .new l a => (newNode h l a).1
  | .add p c => addChild h p c
  | .unlink c => match Cjk.unlink h c with | .ok h' => h' | .error _ => h
  | .del p c => match delChild h p c with | .ok h' => h' | .error _ => h
  | .set r k v => setAttr h r k v
  | .unset r k => match delAttr h r k with | .ok h' => h' | .error _ => h

/-- The operation is about existing nodes. -/
def TreeOp.inHeap (h : Heap) : TreeOp → Prop
  | .new _ _ => True
  | .add p c => p < h.length ∧ c < h.length
  | .unlink c => c < h.length
  | .del p c => p < h.length ∧ c < h.length
  | .set r _ _ => r < h.length
  | .unset r _ => r < h.length

/-- A node is only added when it is not a child of another node. -/
def TreeOp.fresh (h : Heap) : TreeOp → Prop
  | .add p c => ∀ q < h.length, q ≠ p → c ∉ Dict.values (h.node q).children
  | _ => True

/-- The heap after a history. -/
def TreeOp.run (h : Heap) : List TreeOp → Heap
  | [] => h
  | op :: ops => TreeOp.run (op.step h) ops

/-- A history about existing nodes. -/
def TreeOp.allInHeap (h : Heap) : List TreeOp → Prop
  | [] => True
  | op :: ops => op.inHeap h ∧ TreeOp.allInHeap (op.step h) ops

/-- A history that never adds a child of another node. -/
def TreeOp.allFresh (h : Heap) : List TreeOp → Prop
  | [] => True
  | op :: ops => op.fresh h ∧ TreeOp.allFresh (op.step h) ops

/-- Links are consistent: a child under label `l` has label `l` and the node as parent. -/
def LinksOk (h : Heap) : Prop :=
  ∀ p < h.length, ∀ l c, Dict.get? (h.node p).children l = some c →
    c < h.length ∧ (h.node c).label = l ∧ (h.node c).parent = some p

mutual
/-- The tree with other attributes. -/
def ATree.mapAttrib (f : ATree → Attrib) : ATree → ATree
  | .node r l a k => .node r l (f (.node r l a k)) (k.mapAttrib f)
def AForest.mapAttrib (f : ATree → Attrib) : AForest → AForest
  | .nil => .nil
  | .cons key t rest => .cons key (t.mapAttrib f) (rest.mapAttrib f)
end

/-- The count of a node. -/
def ATree.count (m : Str → Attrib → Nat → ℚ) (t : ATree) : ℚ := m t.label t.attrib t.kids.items.length

/-- The count of a node and its direct children. -/
def ATree.count1 (m : Str → Attrib → Nat → ℚ) (t : ATree) : ℚ :=
  t.count m + (t.kids.items.map (fun kt => kt.2.count m)).sum

/-- The count of a node and everything below it. -/
def ATree.countBelow (m : Str → Attrib → Nat → ℚ) (t : ATree) : ℚ := (t.subs.map (ATree.count m)).sum

/-- The attributes of a node in the distribution, with given cumulative counts. -/
def distAttrib (m : Str → Attrib → Nat → ℚ) (cum : ATree → ℚ) (total : ℚ) (t : ATree) : Attrib :=
  Dict.set (Dict.set (Dict.set t.attrib (.str u!"count") (.num (t.count m)))
    (.str u!"cum_count") (.num (cum t))) (.str u!"freq") (.num (cum t / total))

end Cjk
