import Verif.Model.MapsHeap

/-!
# C144: results of the functions on mappings are new objects
-/

namespace Cjk
open Py

section
variable {X : Type} [DecidableEq X]

namespace Spec

/-- What a dictionary of objects shows. -/
def shown (h : Cells X) (d : Dict X Nat) : Dict X (List X) := d.map (fun kr => (kr.1, h.items kr.2))

/-- All objects of a dictionary exist. -/
def InCells (h : Cells X) (d : Dict X Nat) : Prop := ∀ kr ∈ d, kr.2 < h.length

/-- The objects that existed are as they were, and those of the new dictionary are new and not the same under two keys. -/
def NewObjects (h : Cells X) (s : Cells X × Dict X Nat) : Prop :=
  (∀ r < h.length, s.1[r]? = h[r]?) ∧ (∀ k r, Dict.get? s.2 k = some r → h.length ≤ r ∧ r < s.1.length) ∧
  ∀ k k' r, Dict.get? s.2 k = some r → Dict.get? s.2 k' = some r → k = k'

end Spec
open Spec (shown InCells NewObjects)

theorem get_shown (h : Cells X) (d : Dict X Nat) (k : X) : Dict.get? (shown h d) k = (Dict.get? d k).map h.items := by
  induction d with
  | nil => rfl
  | cons kr d ih =>
    obtain ⟨k', r⟩ := kr
    simp only [shown, List.map_cons, Dict.get?_cons]
    split
    · rfl
    · exact ih

theorem keys_shown (h : Cells X) (d : Dict X Nat) : Dict.keys (shown h d) = Dict.keys d := by
  simp [shown, Dict.keys]

/-- Cells that are not referred to do not show. -/
theorem shown_congr {h h' : Cells X} {d : Dict X Nat} (hh : ∀ kr ∈ d, h'.items kr.2 = h.items kr.2) : shown h' d = shown h d := by
  apply List.map_congr_left
  intro kr hkr
  rw [hh kr hkr]

theorem items_of_getElem? {h h' : Cells X} {r : Nat} (e : h'[r]? = h[r]?) : h'.items r = h.items r := by
  unfold Cells.items
  rw [List.getD_eq_getElem?_getD, List.getD_eq_getElem?_getD, e]

/-- The invariant of the loops. -/
structure CellsInv (h0 : Cells X) (s : Cells X × Dict X Nat) : Prop where
  new : NewObjects h0 s
  wf : Dict.WF s.2
  longer : h0.length ≤ s.1.length

theorem cellsInv_start (h : Cells X) : CellsInv h (h, []) :=
  ⟨⟨fun _ _ => rfl, (by intro k r e; cases e), (by intro k k' r e; cases e)⟩, Dict.WF_nil, Nat.le_refl _⟩

theorem cellsInv_change {h0 : Cells X} {s : Cells X × Dict X Nat} (hi : CellsInv h0 s) {k : X} {r : Nat} (hr : Dict.get? s.2 k = some r) (y : List X) :
    CellsInv h0 (s.1.set r y, s.2) ∧ shown (s.1.set r y) s.2 = Dict.set (shown s.1 s.2) k y := by
  obtain ⟨h, d⟩ := s
  obtain ⟨⟨n1, n2, n3⟩, wf, lg⟩ := hi
  obtain ⟨r1, r2⟩ := n2 k r hr
  refine ⟨⟨⟨?_, ?_, n3⟩, wf, by simpa using lg⟩, ?_⟩
  · intro q hq
    show (h.set r y)[q]? = _
    rw [List.getElem?_set_ne (by omega)]
    exact n1 q hq
  · intro k' r' e
    have := n2 k' r' e
    simpa using this
  · simp only at hr r1 r2 ⊢
    have hother : ∀ k' r', (k', r') ∈ d → k' ≠ k → r' ≠ r := by
      intro k' r' hm hk e
      subst e
      exact hk (n3 k' k r' ((Dict.get?_eq_some_iff wf k' r').2 hm) hr)
    have hself : ∀ r', (k, r') ∈ d → r' = r := by
      intro r' hm
      have := (Dict.get?_eq_some_iff wf k r').2 hm
      simp only at this
      rw [hr] at this
      cases this
      rfl
    have hmem := Dict.mem_of_get?_eq_some hr
    clear n1 n2 n3 lg hr
    have hitem : (Cells.items (h.set r y) r) = y := by
      unfold Cells.items
      rw [List.getD_eq_getElem?_getD, List.getElem?_set_self r2, Option.getD_some]
    have hne : ∀ r', r' ≠ r → Cells.items (h.set r y) r' = h.items r' := by
      intro r' hr'
      exact items_of_getElem? (List.getElem?_set_ne (Ne.symm hr'))
    induction d with
    | nil => cases hmem
    | cons kr d ih =>
      obtain ⟨k', r'⟩ := kr
      simp only [shown, List.map_cons]
      by_cases hk : k' = k
      · subst hk
        have := hself r' (by simp)
        subst this
        rw [hitem]
        simp only [Dict.set, if_pos]
        congr 1
        apply List.map_congr_left
        intro kr hkr
        have hk' : kr.1 ≠ k' := by
          intro e
          have hnd := (Dict.WF_cons.1 wf).1
          exact hnd (by rw [← e]; exact List.mem_map.2 ⟨kr, hkr, rfl⟩)
        rw [hne _ (hother kr.1 kr.2 (List.mem_cons_of_mem _ hkr) hk')]
      · rw [hne r' (hother k' r' (by simp) hk)]
        simp only [Dict.set, if_neg hk]
        congr 1
        refine ih (Dict.WF_cons.1 wf).2 ?_ ?_ ?_
        · intro a b hm; exact hother a b (List.mem_cons_of_mem _ hm)
        · intro a hm; exact hself a (List.mem_cons_of_mem _ hm)
        · rcases List.mem_cons.1 hmem with e | e
          · cases e; exact absurd rfl hk
          · exact e

theorem cellsInv_new {h0 : Cells X} {s : Cells X × Dict X Nat} (hi : CellsInv h0 s) {k : X} (hr : Dict.get? s.2 k = none) (y : List X) :
    CellsInv h0 (s.1 ++ [y], Dict.set s.2 k s.1.length) ∧ shown (s.1 ++ [y]) (Dict.set s.2 k s.1.length) = Dict.set (shown s.1 s.2) k y := by
  obtain ⟨h, d⟩ := s
  obtain ⟨⟨n1, n2, n3⟩, wf, lg⟩ := hi
  simp only at hr n1 n2 n3 wf lg ⊢
  have hk := (Dict.get?_eq_none_iff d k).1 hr
  refine ⟨⟨⟨?_, ?_, ?_⟩, Dict.WF_set wf k _, by simp; omega⟩, ?_⟩
  · intro q hq
    show (h ++ [y])[q]? = _
    rw [List.getElem?_append_left (Nat.lt_of_lt_of_le hq lg)]
    exact n1 q hq
  · intro k' r' e
    simp only [Dict.get?_set] at e
    simp only [List.length_append, List.length_singleton]
    split at e
    · cases e; omega
    · have := n2 k' r' e; omega
  · intro k1 k2 r e1 e2
    simp only [Dict.get?_set] at e1 e2
    split at e1
    · rename_i hk1
      cases e1
      split at e2
      · rename_i hk2; exact hk1.symm.trans hk2
      · have := n2 k2 _ e2; omega
    · split at e2
      · cases e2; have := n2 k1 _ e1; omega
      · exact n3 k1 k2 r e1 e2
  · rw [Dict.set_of_not_mem d k _ hk, Dict.set_of_not_mem (shown h d) k _ (by rw [keys_shown]; exact hk)]
    simp only [shown, List.map_append, List.map_cons, List.map_nil]
    congr 1
    · apply List.map_congr_left
      intro kr hkr
      have := (n2 kr.1 kr.2 ((Dict.get?_eq_some_iff wf kr.1 kr.2).2 hkr)).2
      rw [items_of_getElem? (List.getElem?_append_left this)]
    · unfold Cells.items
      rw [List.getD_eq_getElem?_getD, List.getElem?_concat_length, Option.getD_some]

theorem appendCell_inv {h0 : Cells X} {s : Cells X × Dict X Nat} (hi : CellsInv h0 s) (k x : X) :
    CellsInv h0 (appendCell s k x) ∧ shown (appendCell s k x).1 (appendCell s k x).2 = setdefaultAppend (shown s.1 s.2) k x := by
  unfold appendCell setdefaultAppend
  rw [get_shown]
  cases e : Dict.get? s.2 k with
  | some r => exact cellsInv_change hi e _
  | none => exact cellsInv_new hi e _

theorem mergeCell_inv {h0 : Cells X} {s : Cells X × Dict X Nat} (hi : CellsInv h0 s) (kr : X × Nat) (hr : kr.2 < h0.length) :
    CellsInv h0 (mergeCell s kr) ∧ shown (mergeCell s kr).1 (mergeCell s kr).2 = mergeStep (shown s.1 s.2) (kr.1, h0.items kr.2) := by
  have hitem : s.1.items kr.2 = h0.items kr.2 := items_of_getElem? (hi.new.1 kr.2 hr)
  unfold mergeCell mergeStep
  rw [get_shown, hitem]
  cases e : Dict.get? s.2 kr.1 with
  | some r => exact cellsInv_change hi e _
  | none => exact cellsInv_new hi e _

/-- C144: `multi_dict` changes no object; the lists in its result are new and not shared between keys. -/
theorem C144_multi_dict (h : Cells X) (pairs : List (X × X)) :
    NewObjects h (multiCells h pairs) ∧ shown (multiCells h pairs).1 (multiCells h pairs).2 = multiDict pairs := by
  have key : ∀ (pairs : List (X × X)) (s : Cells X × Dict X Nat), CellsInv h s →
      CellsInv h (pairs.foldl (fun s kv => appendCell s kv.1 kv.2) s) ∧
      shown (pairs.foldl (fun s kv => appendCell s kv.1 kv.2) s).1 (pairs.foldl (fun s kv => appendCell s kv.1 kv.2) s).2 =
        pairs.foldl (fun out kv => Dict.set out kv.1 ((Dict.get? out kv.1).getD [] ++ [kv.2])) (shown s.1 s.2) := by
    intro pairs
    induction pairs with
    | nil => intro s hi; exact ⟨hi, rfl⟩
    | cons kv pairs ih =>
      intro s hi
      obtain ⟨h1, h2⟩ := appendCell_inv hi kv.1 kv.2
      simp only [List.foldl_cons]
      obtain ⟨h3, h4⟩ := ih _ h1
      refine ⟨h3, ?_⟩
      rw [h4, h2]
      congr 1
      unfold setdefaultAppend
      cases Dict.get? (shown s.1 s.2) kv.1 with
      | none => rfl
      | some l => rfl
  obtain ⟨h1, h2⟩ := key pairs (h, []) (cellsInv_start h)
  exact ⟨h1.new, h2⟩

/-- C144: likewise `invert_mapping`, for any dictionary of lists or sets. -/
theorem C144_invert_mapping (h : Cells X) (d : Dict X Nat) (hd : InCells h d) :
    NewObjects h (invertCells h d) ∧ shown (invertCells h d).1 (invertCells h d).2 = invertMapping (shown h d) := by
  have inner : ∀ (k : X) (vs : List X) (s : Cells X × Dict X Nat), CellsInv h s →
      CellsInv h (vs.foldl (fun s v => appendCell s v k) s) ∧
      shown (vs.foldl (fun s v => appendCell s v k) s).1 (vs.foldl (fun s v => appendCell s v k) s).2 =
        vs.foldl (fun inv v => setdefaultAppend inv v k) (shown s.1 s.2) := by
    intro k vs
    induction vs with
    | nil => intro s hi; exact ⟨hi, rfl⟩
    | cons v vs ih =>
      intro s hi
      obtain ⟨h1, h2⟩ := appendCell_inv hi v k
      simp only [List.foldl_cons]
      obtain ⟨h3, h4⟩ := ih _ h1
      exact ⟨h3, by rw [h4, h2]⟩
  have outer : ∀ (d : List (X × Nat)), (∀ kr ∈ d, kr.2 < h.length) → ∀ (s : Cells X × Dict X Nat), CellsInv h s →
      CellsInv h (d.foldl (fun s kr => (s.1.items kr.2).foldl (fun s v => appendCell s v kr.1) s) s) ∧
      shown (d.foldl (fun s kr => (s.1.items kr.2).foldl (fun s v => appendCell s v kr.1) s) s).1
          (d.foldl (fun s kr => (s.1.items kr.2).foldl (fun s v => appendCell s v kr.1) s) s).2 =
        (d.map (fun kr => (kr.1, h.items kr.2))).foldl (fun inv kv => kv.2.foldl (fun inv v => setdefaultAppend inv v kv.1) inv) (shown s.1 s.2) := by
    intro d
    induction d with
    | nil => intro _ s hi; exact ⟨hi, rfl⟩
    | cons kr d ih =>
      intro hd s hi
      have hitem : s.1.items kr.2 = h.items kr.2 := items_of_getElem? (hi.new.1 kr.2 (hd kr (by simp)))
      obtain ⟨h1, h2⟩ := inner kr.1 (s.1.items kr.2) s hi
      simp only [List.foldl_cons, List.map_cons]
      obtain ⟨h3, h4⟩ := ih (fun kr hkr => hd kr (List.mem_cons_of_mem _ hkr)) _ h1
      exact ⟨h3, by rw [h4, h2, hitem]⟩
  obtain ⟨h1, h2⟩ := outer d hd (h, []) (cellsInv_start h)
  exact ⟨h1.new, h2⟩

/-- C144: likewise `merge_dicts`, also when the same object or the same dictionary is given several times. -/
theorem C144_merge_dicts (h : Cells X) (args : List (Dict X Nat)) (hd : ∀ d ∈ args, InCells h d) :
    NewObjects h (mergeCells h args) ∧ shown (mergeCells h args).1 (mergeCells h args).2 = mergeDicts (args.map (shown h)) := by
  have key : ∀ (l : List (X × Nat)), (∀ kr ∈ l, kr.2 < h.length) → ∀ (s : Cells X × Dict X Nat), CellsInv h s →
      CellsInv h (l.foldl mergeCell s) ∧
      shown (l.foldl mergeCell s).1 (l.foldl mergeCell s).2 = (l.map (fun kr => (kr.1, h.items kr.2))).foldl mergeStep (shown s.1 s.2) := by
    intro l
    induction l with
    | nil => intro _ s hi; exact ⟨hi, rfl⟩
    | cons kr l ih =>
      intro hl s hi
      obtain ⟨h1, h2⟩ := mergeCell_inv hi kr (hl kr (by simp))
      simp only [List.foldl_cons, List.map_cons]
      obtain ⟨h3, h4⟩ := ih (fun kr hkr => hl kr (List.mem_cons_of_mem _ hkr)) _ h1
      exact ⟨h3, by rw [h4, h2]⟩
  obtain ⟨h1, h2⟩ := key args.flatten (by
    intro kr hkr
    obtain ⟨d, hd1, hd2⟩ := List.mem_flatten.1 hkr
    exact hd d hd1 kr hd2) (h, []) (cellsInv_start h)
  refine ⟨h1.new, ?_⟩
  unfold mergeCells mergeDicts
  rw [h2, List.map_flatten]
  rfl

/-- C144: so whatever is done to the object under one key of the result, the dictionaries of the program show what they showed, and so do the other keys. -/
theorem C144_independent (h : Cells X) (s : Cells X × Dict X Nat) (hs : NewObjects h s) (k : X) (r : Nat) (hr : Dict.get? s.2 k = some r) (y : List X) :
    (∀ d, InCells h d → shown (s.1.set r y) d = shown h d) ∧
    ∀ k', Dict.get? (shown (s.1.set r y) s.2) k' = if k' = k then some y else Dict.get? (shown s.1 s.2) k' := by
  obtain ⟨n1, n2, n3⟩ := hs
  obtain ⟨r1, r2⟩ := n2 k r hr
  constructor
  · intro d hd
    apply shown_congr
    intro kr hkr
    apply items_of_getElem?
    rw [List.getElem?_set_ne (by have := hd kr hkr; omega)]
    exact n1 kr.2 (hd kr hkr)
  · intro k'
    rw [get_shown, get_shown]
    split
    · rename_i e
      subst e
      rw [hr, Option.map_some]
      unfold Cells.items
      rw [List.getD_eq_getElem?_getD, List.getElem?_set_self r2, Option.getD_some]
    · rename_i e
      cases e1 : Dict.get? s.2 k' with
      | none => rfl
      | some r' =>
        rw [Option.map_some, Option.map_some]
        congr 1
        apply items_of_getElem?
        apply List.getElem?_set_ne
        rintro rfl
        exact e (n3 k' k r e1 hr)

end

/-- The cells of a program with two dictionaries, one of which holds the same list under two keys. -/
def mergeDemo : Cells Nat := [[1, 2], [2, 3]]
example : ∀ d ∈ ([[(10, 0), (11, 0)], [(11, 1)]] : List (Dict Nat Nat)), Spec.InCells mergeDemo d := by unfold Spec.InCells; decide
example : mergeCells mergeDemo [[(10, 0), (11, 0)], [(11, 1)]] = ([[1, 2], [2, 3], [1, 2], [1, 2, 3]], [(10, 2), (11, 3)]) := by decide
example : invertCells mergeDemo [(10, 0), (11, 1)] = ([[1, 2], [2, 3], [10], [10, 11], [11]], [(1, 2), (2, 3), (3, 4)]) := by decide

end Cjk
