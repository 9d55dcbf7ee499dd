import Verif.Model.PlaceEqual
import Verif.Props.PlaceLoops
import Verif.Props.TreeEqual
/-!
# C130: which places are equal
-/

namespace Cjk
open Py
open Spec (Leads Circular)

/-- The same ways lead down from both places. -/
def Spec.SameWays (st : PStore) (a b : Nat) : Prop :=
  ∀ ks, (∃ x, Leads (placeKids st) a ks x) ↔ ∃ y, Leads (placeKids st) b ks y

/-- What a user would expect: the same ways lead down, and places at the ends of the same way have the same label, reading and aliases. -/
def Spec.SamePlaces (st : PStore) (a b : Nat) : Prop :=
  Spec.SameWays st a b ∧ ∀ ks x y, Leads (placeKids st) a ks x → Leads (placeKids st) b ks y →
    (st[x]?.map (fun n => (n.label, n.reading, n.aliases))) = st[y]?.map (fun n => (n.label, n.reading, n.aliases))

/-- Nodes with the same entries and nothing else. -/
def placesAsNodes (st : PStore) : Heap := st.map (fun n => ⟨[], n.kids, [], none⟩)

theorem placesAsNodes_node (st : PStore) (r : Nat) : (placesAsNodes st).node r = ⟨[], placeKids st r, [], none⟩ := by
  unfold placesAsNodes Heap.node placeKids
  rw [List.getElem?_map]
  cases st[r]? <;> rfl

theorem placesAsNodes_kids (st : PStore) : Spec.nodeKids (placesAsNodes st) = placeKids st := by
  funext r
  rw [Spec.nodeKids, placesAsNodes_node]

theorem placesAsNodes_ok {st : PStore} (h : Spec.PlacesOk st) : Spec.KidsOk (placesAsNodes st) ∧ Spec.AttribsOk (placesAsNodes st) := by
  refine ⟨fun r _ => ?_, fun r => ?_⟩
  · rw [placesAsNodes_kids]
    have := placeKids_ok h r
    exact ⟨this.1, fun kc hm => by simpa [placesAsNodes] using this.2 kc hm⟩
  · rw [placesAsNodes_node]; exact Dict.WF_nil

theorem placeEqWith_nodes (short flip : Bool) (st : PStore) : ∀ n a b, placeEqWith short flip st n a b = nodeEqWith short flip (placesAsNodes st) n a b := by
  intro n
  induction n with
  | zero => intros; rfl
  | succ n ih =>
    intro a b
    rw [placeEqWith, nodeEqWith]
    simp only [placesAsNodes_node, ih]
    have h1 : ¬ (([] : Str) ≠ []) := by simp
    have h2 : ¬ (attribEq [] [] = false) := by decide
    conv => rhs; rw [if_neg h1, if_neg h2]
    rfl

theorem sameWays_iff (st : PStore) (a b : Nat) : Spec.SameBelow (placesAsNodes st) a b ↔ Spec.SameWays st a b := by
  have alike : ∀ x y, Spec.Alike (placesAsNodes st) x y := by
    intro x y
    simp [Spec.Alike, placesAsNodes_node]
  unfold Spec.SameBelow Spec.SameWays
  rw [placesAsNodes_kids]
  constructor
  · intro h ks
    refine ⟨fun ⟨x, hx⟩ => ?_, fun ⟨y, hy⟩ => ?_⟩
    · obtain ⟨y, hy, _⟩ := (h ks).1 x hx; exact ⟨y, hy⟩
    · obtain ⟨x, hx, _⟩ := (h ks).2 y hy; exact ⟨x, hx⟩
  · intro h ks
    refine ⟨fun x hx => ?_, fun y hy => ?_⟩
    · obtain ⟨y, hy⟩ := (h ks).1 ⟨x, hx⟩; exact ⟨y, hy, alike _ _⟩
    · obtain ⟨x, hx⟩ := (h ks).2 ⟨y, hy⟩; exact ⟨x, hx, alike _ _⟩

/-- C130: where `==` answers, it says whether the same ways lead down from both places; with more room for calls it answers the same. -/
theorem C130_answer (flip : Bool) (st : PStore) (hok : Spec.PlacesOk st) (n a b : Nat) :
    (placeEqWith true flip st n a b = some true → Spec.SameWays st a b) ∧ (placeEqWith true flip st n a b = some false → ¬ Spec.SameWays st a b) ∧
    ∀ m, n ≤ m → ∀ v, placeEqWith true flip st n a b = some v → placeEqWith true flip st m a b = some v := by
  simp only [placeEqWith_nodes, ← sameWays_iff]
  exact C124_answer flip _ (placesAsNodes_ok hok).1 (placesAsNodes_ok hok).2 n a b

/-- C130, the exact condition: unless both places contain themselves, `==` answers, and two places are equal exactly if the same ways lead down from both. -/
theorem C130_iff (flip : Bool) (st : PStore) (hok : Spec.PlacesOk st) (a b : Nat) (ha : a < st.length) (hb : b < st.length)
    (hc : ¬ (Circular (placeKids st) a ∧ Circular (placeKids st) b)) :
    ∃ n, ∀ m, n ≤ m → (placeEqWith true flip st m a b = some true ↔ Spec.SameWays st a b) ∧
      (placeEqWith true flip st m a b = some false ↔ ¬ Spec.SameWays st a b) := by
  simp only [placeEqWith_nodes, ← sameWays_iff]
  refine C124_returns flip _ (placesAsNodes_ok hok).1 (placesAsNodes_ok hok).2 a b (by simpa [placesAsNodes] using ha) (by simpa [placesAsNodes] using hb) ?_
  rw [placesAsNodes_kids]; exact hc

/-- C130, the part that holds: places that agree in all details are equal, if one of them does not contain itself; a place is equal to itself; places with
different entries are unequal. -/
theorem C130_partial (flip : Bool) (st : PStore) (hok : Spec.PlacesOk st) (a b : Nat) (ha : a < st.length) (hb : b < st.length) :
    (Spec.SamePlaces st a b → ¬ (Circular (placeKids st) a ∧ Circular (placeKids st) b) → ∃ n, ∀ m, n ≤ m → placeEqWith true flip st m a b = some true) ∧
    (∀ n, placeEqWith true flip st (n + 1) a a = some true) ∧
    (∀ n, ¬ Spec.SameWays st a b → placeEqWith true flip st n a b ≠ some true) := by
  refine ⟨fun hs hc => ?_, fun n => ?_, fun n hs e => hs ((C130_answer flip st hok n a b).1 e)⟩
  · obtain ⟨n, hn⟩ := C130_iff flip st hok a b ha hb hc
    exact ⟨n, fun m hm => (hn m hm).1.2 hs.1⟩
  · rw [placeEqWith_nodes]
    exact C124_itself flip _ (placesAsNodes_ok hok).1 (placesAsNodes_ok hok).2 n a

/-- C130, refuted: two places without entries are equal, whatever their labels, readings and aliases, and so is a place with one such entry and another place
with an entry of this label. -/
theorem C130_refuted (flip : Bool) (l l' k : Str) (r r' : Option Str) (a a' : Option (List Str))
    (h1 : placeInit l r a = .ok ()) (h2 : placeInit l' r' a' = .ok ()) (h3 : placeInit k r a = .ok ()) (h4 : placeInit k r' a' = .ok ()) :
    let st := PlaceOp.run [] [.new l r a, .new l' r' a', .new k r a, .new k r' a', .append 0 2, .append 1 3]
    placeEqWith true flip st 2 0 1 = some true ∧ placeEqWith true flip st 1 2 3 = some true ∧
    (Spec.SamePlaces st 0 1 → l = l' ∧ r = r' ∧ a = a') ∧ (Spec.SamePlaces st 2 3 → r = r' ∧ a = a') := by
  intro st
  have hst : st = [⟨l, r, a, [(k, 2)]⟩, ⟨l', r', a', [(k, 3)]⟩, ⟨k, r, a, []⟩, ⟨k, r', a', []⟩] := by
    simp only [st, PlaceOp.run, PlaceOp.step, h1, h2, h3, h4]
    rfl
  refine ⟨?_, ?_, fun h => ?_, fun h => ?_⟩
  · rw [hst]; cases flip <;> simp [placeEqWith, placeKids, Dict.get?]
  · rw [hst]; simp [placeEqWith, placeKids]
  · have := h.2 [] 0 1 (.here _) (.here _)
    rw [hst] at this
    simpa using this
  · have := h.2 [] 2 3 (.here _) (.here _)
    rw [hst] at this
    simpa using this

/-- C130: `==` is symmetric and transitive as far as it answers. -/
theorem C130_equivalence (flip : Bool) (st : PStore) (hok : Spec.PlacesOk st) (n m k a b c : Nat) :
    (∀ v w, placeEqWith true flip st n a b = some v → placeEqWith true flip st m b a = some w → v = w) ∧
    (∀ v, placeEqWith true flip st n a b = some true → placeEqWith true flip st m b c = some true → placeEqWith true flip st k a c = some v → v = true) := by
  have symm : ∀ {a b}, Spec.SameWays st a b → Spec.SameWays st b a := fun h ks => (h ks).symm
  refine ⟨fun v w h1 h2 => ?_, fun v h1 h2 h3 => ?_⟩
  · cases v <;> cases w
    · rfl
    · exact absurd (symm ((C130_answer flip st hok m b a).1 h2)) ((C130_answer flip st hok n a b).2.1 h1)
    · exact absurd (symm ((C130_answer flip st hok n a b).1 h1)) ((C130_answer flip st hok m b a).2.1 h2)
    · rfl
  · cases v
    · exact absurd (fun ks => (((C130_answer flip st hok n a b).1 h1) ks).trans (((C130_answer flip st hok m b c).1 h2) ks))
        ((C130_answer flip st hok k a c).2.1 h3)
    · rfl

/-! The entries of two countries are added in different orders, one of them with a reading. -/

def equalPlaces : PStore := PlaceOp.run []
  [.new u!"日本" none none, .new u!"東京" (some u!"とうきょう") none, .new u!"大阪" none none, .append 0 1, .append 0 2,
   .new u!"Nippon" (some u!"にっぽん") none, .new u!"大阪" none (some [u!"Naniwa"]), .new u!"東京" none none, .append 3 4, .append 3 5, .append 5 3, .delItem 5 u!"Nippon"]

example : Spec.PlacesOk equalPlaces := C120_programs _ (by
  unfold PlaceOp.allInStore
  simp only [PlaceOp.allInStore, PlaceOp.inStore]
  decide +kernel)
example : placeEqWith true true equalPlaces 2 0 3 = some true ∧ placeEqWith true false equalPlaces 2 0 1 = some false := by decide +kernel
example : placeInit u!"日本" none none = .ok () ∧ placeInit u!"東京" (some u!"とうきょう") (some [u!"Edo"]) = .ok () := by decide +kernel

end Cjk
