import Verif.Model.Maps
/-!
# Properties of `procmap` of `cjktools/maps.py` (C81)
-/

namespace Cjk
open Py

namespace Spec

/-- `Calls f xs s s'`: calling `f` on the items of `xs` from left to right, starting in state `s`, makes
no call raise and ends in state `s'`. -/
inductive Calls {A S : Type} (f : A → S → S × Option PyErr) : List A → S → S → Prop
  | nil (s) : Calls f [] s s
  | snoc {xs s s₁ x s₂} : Calls f xs s s₁ → f x s₁ = (s₂, none) → Calls f (xs ++ [x]) s s₂

end Spec

section
variable {A S : Type} {f : A → S → S × Option PyErr}

theorem Spec.Calls.cons {x : A} {xs : List A} {s s₁ s₂ : S} (hx : f x s = (s₁, none))
    (h : Spec.Calls f xs s₁ s₂) : Spec.Calls f (x :: xs) s s₂ := by
  induction h with
  | nil => exact Spec.Calls.snoc (xs := []) (Spec.Calls.nil _) hx
  | snoc _ hy ih => exact Spec.Calls.snoc (ih hx) hy

theorem procmap_append_ok {xs ys : List A} {s s₁ : S} (h : procmap f xs s = (s₁, none)) :
    procmap f (xs ++ ys) s = procmap f ys s₁ := by
  induction xs generalizing s with
  | nil => cases h; rfl
  | cons x xs ih =>
    simp only [List.cons_append, procmap] at h ⊢
    rcases hf : f x s with ⟨s', _ | e⟩
    · rw [hf] at h; exact ih h
    · rw [hf] at h; cases h

theorem procmap_of_calls {xs : List A} {s s' : S} (h : Spec.Calls f xs s s') :
    procmap f xs s = (s', none) := by
  induction h with
  | nil => rfl
  | snoc _ hx ih => rw [procmap_append_ok ih]; simp only [procmap, hx]

/-- C81: `procmap` returns normally in state `s'` exactly when calling the procedure on every item
once, from left to right, succeeds and ends in `s'`. -/
theorem C81_procmap_returns (xs : List A) (s s' : S) :
    procmap f xs s = (s', none) ↔ Spec.Calls f xs s s' := by
  refine ⟨?_, procmap_of_calls⟩
  intro h
  induction xs generalizing s with
  | nil => cases h; exact .nil _
  | cons x xs ih =>
    simp only [procmap] at h
    rcases hf : f x s with ⟨s₁, _ | e⟩
    · rw [hf] at h; exact .cons hf (ih _ h)
    · rw [hf] at h; cases h

/-- C81: it raises `e` in state `s'` exactly when the calls up to some item succeed and the call on that
item raises `e` leaving `s'`; the procedure is not called on any later item. -/
theorem C81_procmap_raises (xs : List A) (s s' : S) (e : PyErr) :
    procmap f xs s = (s', some e) ↔
      ∃ pre x post s₁, xs = pre ++ x :: post ∧ Spec.Calls f pre s s₁ ∧ f x s₁ = (s', some e) := by
  constructor
  · intro h
    induction xs generalizing s with
    | nil => cases h
    | cons x xs ih =>
      simp only [procmap] at h
      rcases hf : f x s with ⟨s₁, _ | e'⟩
      · rw [hf] at h
        obtain ⟨pre, y, post, s₂, rfl, h2, h3⟩ := ih _ h
        exact ⟨x :: pre, y, post, s₂, rfl, .cons hf h2, h3⟩
      · rw [hf] at h; cases h; exact ⟨[], x, xs, s, rfl, .nil _, hf⟩
  · rintro ⟨pre, x, post, s₁, rfl, h2, h3⟩
    rw [procmap_append_ok (procmap_of_calls h2)]
    simp only [procmap, h3]

end

/-- The procedure that records its argument and raises on 3. -/
example : procmap (fun x s => (s ++ [x], if x = 3 then some .valueError else none)) [1, 2, 3, 4] [] =
    ([1, 2, 3], some .valueError) := by decide

end Cjk
