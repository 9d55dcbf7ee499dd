import Verif.Props.TatoebaLinks
/-! # C57: the names of the filters, in any spelling -/

namespace Cjk.Spec
open Py

/-- The texts have the same letters, capital or small (other characters are the same). -/
def SameLetters (s t : Str) : Prop :=
  s.length = t.length ∧ ∀ (i : Nat) (x y : Nat), s[i]? = some x → t[i]? = some y → x = y ∨ (0x61 ≤ y ∧ y ≤ 0x7a ∧ x + 0x20 = y)

end Cjk.Spec

namespace Cjk
open Py

theorem asciiLower_eq_iff {s t : Str} (ht : ∀ y ∈ t, ¬ (0x41 ≤ y ∧ y ≤ 0x5a)) : asciiLower s = t ↔ Spec.SameLetters s t := by
  induction s generalizing t with
  | nil =>
    cases t with
    | nil => exact ⟨fun _ => ⟨rfl, fun i x y h => by simp at h⟩, fun _ => rfl⟩
    | cons y t => exact ⟨(fun h => by cases h), fun h => absurd h.1 (by simp)⟩
  | cons x s ih =>
    cases t with
    | nil => exact ⟨(fun h => by cases h), fun h => absurd h.1 (by simp)⟩
    | cons y t =>
      have ih' := ih (t := t) (fun z hz => ht z (by simp [hz]))
      have hy := ht y (by simp)
      have hx : (if 0x41 ≤ x ∧ x ≤ 0x5a then x + 0x20 else x) = y ↔ (x = y ∨ (0x61 ≤ y ∧ y ≤ 0x7a ∧ x + 0x20 = y)) := by
        split <;> omega
      have hc : asciiLower (x :: s) = (if 0x41 ≤ x ∧ x ≤ 0x5a then x + 0x20 else x) :: asciiLower s := rfl
      rw [hc, List.cons.injEq, hx, ih']
      constructor
      · rintro ⟨h1, h2, h3⟩
        refine ⟨by simp [h2], fun i a b ha hb => ?_⟩
        cases i with
        | zero =>
          simp only [List.getElem?_cons_zero, Option.some.injEq] at ha hb
          subst ha; subst hb; exact h1
        | succ i => exact h3 i a b (by simpa using ha) (by simpa using hb)
      · rintro ⟨h2, h3⟩
        exact ⟨h3 0 x y rfl rfl, by simpa using h2, fun i a b ha hb => h3 (i + 1) a b (by simpa using ha) (by simpa using hb)⟩

theorem filterName_small (fn : Spec.FilterName) : ∀ y ∈ fn.text, ¬ (0x41 ≤ y ∧ y ≤ 0x5a) := by
  cases fn <;> decide

/-- **C57** (names).  The name of a filter may be written with capital or small letters, and in no other way. -/
theorem C57_names (name : Str) (fn : Spec.FilterName) : asciiLower name = fn.text ↔ Spec.SameLetters name fn.text := asciiLower_eq_iff (filterName_small fn)

/-- **C57** (loading).  A links file is read without an exception exactly if the filter has one of its three names and every row consists of two numbers; with another name `ValueError`
is raised, whatever is in the file. -/
theorem C57_load_names (src : Str) (rows : List (List Str)) (subset : Option (List Int)) (name : Str) :
    ((∃ r, LinkReader.new src (rows, none) subset name = .ok r) ↔ (∃ fn : Spec.FilterName, Spec.SameLetters name fn.text) ∧ ∀ r ∈ rows, (Spec.pairOf r).isSome) ∧
    ((∀ fn : Spec.FilterName, ¬ Spec.SameLetters name fn.text) → ∀ rows', LinkReader.new src rows' subset name = .error .valueError) := by
  refine ⟨?_, fun h rows' => ?_⟩
  · rw [C57_load_iff]
    simp only [C57_names]
  · have h1 : asciiLower name ≠ u!"sent_id" := fun e => h .sentId ((C57_names name .sentId).1 e)
    have h2 : asciiLower name ≠ u!"trans_id" := fun e => h .transId ((C57_names name .transId).1 e)
    have h3 : asciiLower name ≠ u!"both" := fun e => h .both ((C57_names name .both).1 e)
    have hf : linkFilter subset name = .error .valueError := by
      unfold linkFilter
      simp [h1, h2, h3]
    unfold LinkReader.new
    rw [hf]

/-- A spelling that is accepted and two that are not. -/
example : Spec.SameLetters u!"Sent_ID" Spec.FilterName.sentId.text ∧ ¬ Spec.SameLetters u!"sent-id" Spec.FilterName.sentId.text ∧ ¬ Spec.SameLetters u!"both " Spec.FilterName.both.text :=
  ⟨(C57_names _ .sentId).1 (by decide), (fun h => absurd ((C57_names _ .sentId).2 h) (by decide)), (fun h => absurd ((C57_names _ .both).2 h) (by decide))⟩

end Cjk
