import Verif.Spec.TreeLoops
/-!
# Specification: nodes with the same things below them
-/

namespace Cjk
open Py

/-- Two nodes look alike: the same label and the same attributes. -/
def Spec.Alike (h : Heap) (x y : Nat) : Prop :=
  (h.node x).label = (h.node y).label ∧ ∀ k, Dict.get? (h.node x).attrib k = Dict.get? (h.node y).attrib k

/-- The same ways lead down from both nodes, and the nodes at the ends of the same way look alike. -/
def Spec.SameBelow (h : Heap) (a b : Nat) : Prop :=
  ∀ ks, (∀ x, Spec.Leads (Spec.nodeKids h) a ks x → ∃ y, Spec.Leads (Spec.nodeKids h) b ks y ∧ Spec.Alike h x y) ∧
    ∀ y, Spec.Leads (Spec.nodeKids h) b ks y → ∃ x, Spec.Leads (Spec.nodeKids h) a ks x ∧ Spec.Alike h x y

/-- Going down the same way from two nodes one never meets the same node. -/
inductive Spec.Apart (h : Heap) : Nat → Nat → List Str → Prop where
  | here (a b : Nat) : Apart h a b []
  | step {a b c d : Nat} {k : Str} {ks : List Str} : (k, c) ∈ Spec.nodeKids h a → (k, d) ∈ Spec.nodeKids h b → c ≠ d →
      Apart h c d ks → Apart h a b (k :: ks)

/-- The dictionaries of attributes have every key once. -/
def Spec.AttribsOk (h : Heap) : Prop := ∀ r, Dict.WF (h.node r).attrib

end Cjk
