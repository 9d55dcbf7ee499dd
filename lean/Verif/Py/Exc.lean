import Verif.Py.Base
/-!
# Facts about exceptions
-/

namespace Py

@[simp] theorem bind_ok {α β : Type} (a : α) (f : α → Except PyErr β) : ((Except.ok a : Except PyErr α) >>= f) = f a := rfl

@[simp] theorem bind_error {α β : Type} (e : PyErr) (f : α → Except PyErr β) :
    ((Except.error e : Except PyErr α) >>= f) = .error e := rfl

theorem bind_eq_ok {α β : Type} {x : Except PyErr α} {f : α → Except PyErr β} {b : β} :
    (x >>= f) = .ok b ↔ ∃ a, x = .ok a ∧ f a = .ok b := by
  cases x <;> simp

theorem bind_eq_error {α β : Type} {x : Except PyErr α} {f : α → Except PyErr β} {e : PyErr} :
    (x >>= f) = .error e ↔ x = .error e ∨ ∃ a, x = .ok a ∧ f a = .error e := by
  cases x <;> simp

end Py
