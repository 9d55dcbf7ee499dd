import Verif.Spec.Tatoeba
import Verif.Py.Base
/-!
# Specification: records with keys

A file in which every record has a key says the same in every order exactly if no key has two different records.
-/

namespace Cjk.Spec

/-- No key has two different records. -/
def OneRecord {α κ : Type} (key : α → κ) (l : List α) : Prop := ∀ x ∈ l, ∀ y ∈ l, key x = key y → x = y

/-- Two links with a common sentence. -/
def Meet (p q : Int × Int) : Prop := p.1 = q.1 ∨ p.1 = q.2 ∨ p.2 = q.1 ∨ p.2 = q.2

/-- Any two links that are connected at all have a sentence in common: every component is a star or a triangle. -/
def StarsAndTriangles (ls : List (Int × Int)) : Prop := ∀ p ∈ ls, ∀ q ∈ ls, Linked ls p.1 q.1 → Meet p q

end Cjk.Spec
