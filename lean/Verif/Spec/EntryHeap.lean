import Verif.Model.EntryHeap
/-!
# Lists that belong to one entry
-/

namespace Cjk.Spec
open Py

/-- A list belongs to an entry. -/
def Owned (h : EHeap) (a : Nat) : Prop := ∃ e ∈ h.entries, a = e.readings ∨ a = e.senses

instance (h : EHeap) (a : Nat) : Decidable (Owned h a) := inferInstanceAs (Decidable (∃ _ ∈ _, _))

/-- An entry holds a list object, as its readings or as its senses. -/
def HoldsList (e : ERef) (a : Nat) : Prop := e.readings = a ∨ e.senses = a

instance (e : ERef) (a : Nat) : Decidable (HoldsList e a) := inferInstanceAs (Decidable (_ ∨ _))

/-- Each entry has two lists of its own. -/
structure Separate (h : EHeap) : Prop where
  exist : ∀ a, Owned h a → a < h.next
  inner : ∀ e ∈ h.entries, e.readings ≠ e.senses
  outer : ∀ (i j : Nat) (e f : ERef), h.entries[i]? = some e → h.entries[j]? = some f → i ≠ j →
    e.readings ≠ f.readings ∧ e.readings ≠ f.senses ∧ e.senses ≠ f.readings ∧ e.senses ≠ f.senses

/-- A program step that gives each entry two lists of its own and does not touch them afterwards. -/
def Careful (h : EHeap) : HeapOp → Prop
  | .list _ => True
  | .write a _ => ¬ Owned h a
  | .new _ r s => r < h.next ∧ s < h.next ∧ r ≠ s ∧ ¬ Owned h r ∧ ¬ Owned h s
  | .update _ _ => True
  | .byReading _ => True

instance (h : EHeap) (op : HeapOp) : Decidable (Careful h op) := by cases op <;> unfold Careful <;> infer_instance

/-- A program all of whose steps are. -/
def AllCareful (h : EHeap) : List HeapOp → Prop
  | [] => True
  | op :: ops => Careful h op ∧ AllCareful (op.step h) ops

instance : (h : EHeap) → (ops : List HeapOp) → Decidable (AllCareful h ops)
  | _, [] => inferInstanceAs (Decidable True)
  | h, op :: ops => have := instDecidableAllCareful (op.step h) ops; inferInstanceAs (Decidable (_ ∧ _))

/-- A step makes an entry, if at all, from lists that exist. -/
def NamesList (h : EHeap) : HeapOp → Prop
  | .new _ r s => r < h.next ∧ s < h.next
  | _ => True

instance (h : EHeap) (op : HeapOp) : Decidable (NamesList h op) := by cases op <;> unfold NamesList <;> infer_instance

/-- A program all of whose steps do. -/
def NamesLists (h : EHeap) : List HeapOp → Prop
  | [] => True
  | op :: ops => NamesList h op ∧ NamesLists (op.step h) ops

instance : (h : EHeap) → (ops : List HeapOp) → Decidable (NamesLists h ops)
  | _, [] => inferInstanceAs (Decidable True)
  | h, op :: ops => have := instDecidableNamesLists (op.step h) ops; inferInstanceAs (Decidable (_ ∧ _))

/-- What the program does to entries, with the contents of lists at the time in place of the lists. -/
def asValues (h : EHeap) : List HeapOp → List EntryOp
  | [] => []
  | op :: ops => (match op with
    | .new w r s => [EntryOp.new w (h.lists r) (h.lists s)]
    | .update i j => [EntryOp.update i j]
    | _ => []) ++ asValues (op.step h) ops

end Cjk.Spec
