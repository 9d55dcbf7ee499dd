import Verif.Spec.TreeLoops

/-!
# What a walk yields while the tree changes
-/

namespace Cjk
open Py

/-- What the `i`-th call of `next` gives, if the heap is `hs j` at the `j`-th call (outside: the call does not come back). -/
def Spec.yieldAt {γ : Type} (next : Heap → γ → Option (Option Nat × γ)) : (Nat → Heap) → γ → Nat → Option (Option Nat)
  | hs, g, 0 => (next (hs 0) g).map (·.1)
  | hs, g, i + 1 =>
    match next (hs 0) g with
    | none => none
    | some (_, g') => Spec.yieldAt next (fun j => hs (j + 1)) g' i

/-- The children of a node, in order. -/
def Spec.childrenOf (h : Heap) (r : Nat) : List (Str × Nat) := (h.node r).children

/-- `x` is the node or below it. -/
def Spec.Under (h : Heap) (r x : Nat) : Prop := ∃ ks, Spec.Leads (Spec.nodeKids h) r ks x

/-- The heap without these nodes: no node has one of them as child, and they have no parents. -/
def Spec.takenOut (h : Heap) (out : List Nat) : Heap :=
  h.mapIdx (fun i n => { n with children := n.children.filter (fun kc => !out.contains kc.2), parent := if out.contains i then none else n.parent })

end Cjk
