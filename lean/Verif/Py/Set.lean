import Verif.Py.Base
/-!
# Python sets

A set is a duplicate-free list; only membership (and, where a count matters, the absence of
duplicates) is used by theorems, never the order.
-/

namespace Py

section
variable {α : Type} [DecidableEq α]
set_option linter.unusedSectionVars false

/-- `set(xs)`: duplicates removed (first occurrences kept; the order is immaterial). -/
def dedup : List α → List α
  | [] => []
  | a :: l => a :: (dedup l).filter (· ≠ a)

@[simp] theorem mem_dedup {l : List α} {x : α} : x ∈ dedup l ↔ x ∈ l := by
  induction l with
  | nil => simp [dedup]
  | cons a l ih =>
    simp only [dedup, List.mem_cons, List.mem_filter, ih, decide_not, Bool.not_eq_true',
      decide_eq_false_iff_not]
    by_cases h : x = a <;> simp [h]

theorem nodup_dedup (l : List α) : (dedup l).Nodup := by
  induction l with
  | nil => simp [dedup]
  | cons a l ih =>
    simp only [dedup, List.nodup_cons]
    exact ⟨by simp, ih.sublist List.filter_sublist⟩

theorem dedup_of_nodup {l : List α} (h : l.Nodup) : dedup l = l := by
  induction l with
  | nil => rfl
  | cons a l ih =>
    simp only [List.nodup_cons] at h
    simp only [dedup, ih h.2, List.cons.injEq, true_and]
    rw [List.filter_eq_self]
    intro x hx
    simp only [ne_eq, decide_not, Bool.not_eq_true', decide_eq_false_iff_not]
    rintro rfl; exact h.1 hx

theorem dedup_sublist (l : List α) : (dedup l).Sublist l := by
  induction l with
  | nil => exact List.Sublist.slnil
  | cons a l ih => exact (List.filter_sublist.trans ih).cons_cons a

theorem dedup_concat (l : List α) (x : α) : dedup (l ++ [x]) = if x ∈ l then dedup l else dedup l ++ [x] := by
  induction l with
  | nil => simp [dedup]
  | cons a l ih =>
    simp only [List.cons_append, dedup, ih, List.mem_cons]
    by_cases h1 : x = a
    · subst h1
      by_cases h2 : x ∈ l <;> simp [h2]
    · by_cases h2 : x ∈ l <;> simp [h1, h2]

/-- Two lists denote the same set. -/
def SameSet (a b : List α) : Prop := ∀ x, x ∈ a ↔ x ∈ b

end

end Py
