import Verif.Spec.Graph
import Verif.Spec.TreeOps
/-!
# The graphs that tree nodes form
-/

namespace Cjk
open Py

/-- The entries of a node: its children by label. -/
def Spec.nodeKids (h : Heap) (r : Nat) : List (Str × Nat) := (h.node r).children

/-- The parent of a node, as an entry. -/
def Spec.nodeUp (h : Heap) (r : Nat) : List (Str × Nat) :=
  match (h.node r).parent with
  | none => []
  | some p => [([], p)]

/-- A heap as programs build them: labels occur once among the children, children are entered under their labels, links lead to nodes. -/
def Spec.NodesOk (h : Heap) : Prop :=
  ∀ r < h.length, Dict.WF (Spec.nodeKids h r) ∧ (∀ kc ∈ Spec.nodeKids h r, kc.2 < h.length ∧ (h.node kc.2).label = kc.1) ∧
    ∀ kp ∈ Spec.nodeUp h r, kp.2 < h.length

/-- The same without the labels and parents: keys occur once, entries lead to nodes. -/
def Spec.KidsOk (h : Heap) : Prop := ∀ r < h.length, Dict.WF (Spec.nodeKids h r) ∧ ∀ kc ∈ Spec.nodeKids h r, kc.2 < h.length

/-- A node with the label to which these labels lead. -/
def Spec.LabelAt (h : Heap) (r : Nat) (label : Str) (way : List Str) (x : Nat) : Prop :=
  (h.node x).label = label ∧ Spec.Leads (Spec.nodeKids h) r way x

/-- No child is added to itself or to a node below it. -/
def Spec.DownSafe (h : Heap) : List TreeOp → Prop
  | [] => True
  | .add p c :: ops => (¬ ∃ ks, Spec.Leads (Spec.nodeKids h) c ks p) ∧ Spec.DownSafe ((TreeOp.add p c).step h) ops
  | op :: ops => Spec.DownSafe (op.step h) ops

/-- No child is added to itself or to a node that has it among its ancestors. -/
def Spec.UpSafe (h : Heap) : List TreeOp → Prop
  | [] => True
  | .add p c :: ops => (¬ ∃ ks, Spec.Leads (Spec.nodeUp h) p ks c) ∧ Spec.UpSafe ((TreeOp.add p c).step h) ops
  | op :: ops => Spec.UpSafe (op.step h) ops

end Cjk
