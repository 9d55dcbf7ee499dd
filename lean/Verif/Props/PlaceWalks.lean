import Verif.Model.PlaceWalks
import Verif.Spec.PlaceWalks
import Verif.Props.PlaceHeap

/-!
# C148: changing places while walking over them
-/

namespace Cjk
open Py
open Spec (genAt callAt passed lastLabel labelsAbove)

theorem placeGen_over (sts : Nat → PStore) : ∀ i, genAt PlaceGen.next sts ⟨none, []⟩ i = ⟨none, []⟩ := by
  intro i
  induction i with
  | zero => rfl
  | succ i ih =>
    show (PlaceGen.next (sts i) (genAt PlaceGen.next sts ⟨none, []⟩ i)).2 = _
    rw [ih]; rfl

theorem genAt_shift {St γ O : Type} (next : St → γ → O × γ) (sts : Nat → St) (g : γ) : ∀ i,
    genAt next sts g (i + 1) = genAt next (fun j => sts (j + 1)) (next (sts 0) g).2 i := by
  intro i
  induction i with
  | zero => rfl
  | succ i ih =>
    show (next (sts (i + 1)) (genAt next sts g (i + 1))).2 = _
    rw [ih]; rfl

theorem callAt_shift {St γ O : Type} (next : St → γ → O × γ) (sts : Nat → St) (g : γ) (i : Nat) :
    callAt next sts g (i + 1) = callAt next (fun j => sts (j + 1)) (next (sts 0) g).2 i := by
  show (next (sts (i + 1)) (genAt next sts g (i + 1))).1 = _
  rw [genAt_shift]; rfl

theorem placeGen_yields (st : PStore) : ∀ (ns : List (Nat × Nat)) (sts : Nat → PStore) (g : PlaceGen),
    (∀ i (hi : i < ns.length), placeKids (sts (i + 1)) ns[i].2 = placeKids st ns[i].2) →
    ((∀ i, callAt PlaceGen.next sts g i = ns[i]?) ↔ heapWalk st ns.length (g.extended (sts 0)) = (ns, [])) := by
  intro ns
  induction ns with
  | nil =>
    intro sts g _
    cases e : g.extended (sts 0) with
    | nil =>
      have h1 : PlaceGen.next (sts 0) g = (none, ⟨none, []⟩) := by simp only [PlaceGen.next, e]
      refine ⟨fun _ => rfl, fun _ i => ?_⟩
      cases i with
      | zero => show (PlaceGen.next (sts 0) g).1 = _; rw [h1]; rfl
      | succ i =>
        rw [callAt_shift, h1]
        show (PlaceGen.next _ (genAt PlaceGen.next _ ⟨none, []⟩ i)).1 = _
        rw [placeGen_over]; rfl
    | cons x stack =>
      have h1 : PlaceGen.next (sts 0) g = (some x, ⟨some x, stack⟩) := by simp only [PlaceGen.next, e]
      constructor
      · intro hy
        have : (PlaceGen.next (sts 0) g).1 = none := hy 0
        rw [h1] at this
        cases this
      · intro hp
        simp only [List.length_nil, heapWalk] at hp
        cases hp
  | cons y ns ih =>
    intro sts g hag
    cases e : g.extended (sts 0) with
    | nil =>
      have h1 : PlaceGen.next (sts 0) g = (none, ⟨none, []⟩) := by simp only [PlaceGen.next, e]
      constructor
      · intro hy
        have : (PlaceGen.next (sts 0) g).1 = some y := hy 0
        rw [h1] at this
        cases this
      · intro hp
        simp only [List.length_cons, heapWalk] at hp
        cases hp
    | cons x stack =>
      have h1 : PlaceGen.next (sts 0) g = (some x, ⟨some x, stack⟩) := by simp only [PlaceGen.next, e]
      obtain ⟨d, r⟩ := x
      have hw : heapWalk st (ns.length + 1) ((d, r) :: stack) =
          ((d, r) :: (heapWalk st ns.length ((placeKids st r).map (fun kp => (d + 1, kp.2)) ++ stack)).1,
            (heapWalk st ns.length ((placeKids st r).map (fun kp => (d + 1, kp.2)) ++ stack)).2) := rfl
      by_cases hx : (d, r) = y
      · subst hx
        have hk : placeKids (sts 1) r = placeKids st r := hag 0 (by simp)
        have hih := ih (fun j => sts (j + 1)) ⟨some (d, r), stack⟩ (fun i hi => hag (i + 1) (Nat.succ_lt_succ hi))
        have hext : (PlaceGen.mk (some (d, r)) stack).extended (sts 1) = (placeKids st r).map (fun kp => (d + 1, kp.2)) ++ stack := by
          simp only [PlaceGen.extended, hk]
        simp only [Nat.zero_add, hext] at hih
        rw [show ((d, r) :: ns).length = ns.length + 1 from rfl, hw]
        constructor
        · intro hy
          have h2 := hih.1 (fun i => by
            have := hy (i + 1)
            rw [callAt_shift, h1] at this
            simpa using this)
          rw [h2]
        · intro hp i
          have h2 : heapWalk st ns.length ((placeKids st r).map (fun kp => (d + 1, kp.2)) ++ stack) = (ns, []) := by
            rw [Prod.mk.injEq, List.cons.injEq] at hp
            exact Prod.ext hp.1.2 hp.2
          cases i with
          | zero => show (PlaceGen.next (sts 0) g).1 = _; rw [h1]; rfl
          | succ i => rw [callAt_shift, h1]; simpa using hih.2 h2 i
      · constructor
        · intro hy
          have : (PlaceGen.next (sts 0) g).1 = some y := hy 0
          rw [h1] at this
          cases this
          exact absurd rfl hx
        · intro hp
          rw [show (y :: ns).length = ns.length + 1 from rfl, hw, Prod.mk.injEq, List.cons.injEq] at hp
          exact absurd hp.1.1 hx

/-- C148: let the program change places between the calls of `next` on a walk (the places are `sts i` at the `i`-th call), and let each visited place have the entries in `st` that it has at the call
after the one that yielded it.  The walk yields these depths and places, and ends, if and only if a walk over `st` does: entries are looked at when the next place is asked for. -/
theorem C148_walk (st : PStore) (sts : Nat → PStore) (r : Nat) (ns : List (Nat × Nat))
    (hag : ∀ i (hi : i < ns.length), placeKids (sts (i + 1)) ns[i].2 = placeKids st ns[i].2) :
    (∀ i, callAt PlaceGen.next sts (.start r) i = ns[i]?) ↔ heapWalk st ns.length [(0, r)] = (ns, []) :=
  placeGen_yields st ns sts (.start r) hag

/-- What holds before each call. -/
structure WalkInv (sts : Nat → PStore) (r i : Nat) (g : PlaceGen) : Prop where
  /-- the place yielded last -/
  pending : ∀ x, g.pending = some x → ∃ k, i = k + 1 ∧ callAt PlaceGen.next sts (.start r) k = some x ∧ ∀ y ∈ g.stack, y.1 ≤ x.1
  /-- nothing was yielded: the start or the end -/
  fresh : g.pending = none → (i = 0 ∧ g.stack = [(0, r)]) ∨ (0 < i ∧ g.stack = [])
  sorted : g.stack.Pairwise (fun a b => b.1 ≤ a.1)
  parents : 0 < i → ∀ y ∈ g.stack, ∃ d j m, y.1 = d + 1 ∧ j < i ∧ callAt PlaceGen.next sts (.start r) j = some (d, m) ∧ y.2 ∈ Dict.values (placeKids (sts (j + 1)) m) ∧
    ∀ j', j < j' → j' < i → ∀ x, callAt PlaceGen.next sts (.start r) j' = some x → d < x.1

/-- The output stack when it has been extended. -/
theorem extended_inv {sts : Nat → PStore} {r i : Nat} {g : PlaceGen} (h : WalkInv sts r i g) (hi : 0 < i) :
    (g.extended (sts i)).Pairwise (fun a b => b.1 ≤ a.1) ∧ ∀ y ∈ g.extended (sts i), ∃ d j m, y.1 = d + 1 ∧ j < i ∧ callAt PlaceGen.next sts (.start r) j = some (d, m) ∧
      y.2 ∈ Dict.values (placeKids (sts (j + 1)) m) ∧ ∀ j', j < j' → j' < i → ∀ x, callAt PlaceGen.next sts (.start r) j' = some x → d < x.1 := by
  unfold PlaceGen.extended
  cases hp : g.pending with
  | none => exact ⟨h.sorted, h.parents hi⟩
  | some x =>
    obtain ⟨d, n⟩ := x
    obtain ⟨k, rfl, hc, hle⟩ := h.pending _ hp
    simp only
    refine ⟨List.pairwise_append.2 ⟨?_, h.sorted, ?_⟩, ?_⟩
    · rw [List.pairwise_map]
      exact List.pairwise_of_forall (fun _ _ => Nat.le_refl _)
    · intro a ha b hb
      obtain ⟨kp, _, rfl⟩ := List.mem_map.1 ha
      exact Nat.le_succ_of_le (hle b hb)
    · intro y hy
      rcases List.mem_append.1 hy with hy | hy
      · obtain ⟨kp, hkp, rfl⟩ := List.mem_map.1 hy
        exact ⟨d, k, n, rfl, Nat.lt_succ_self _, hc, List.mem_map.2 ⟨kp, hkp, rfl⟩, fun j' h1 h2 => by omega⟩
      · exact h.parents hi y hy

theorem walkInv (sts : Nat → PStore) (r : Nat) : ∀ i, WalkInv sts r i (genAt PlaceGen.next sts (.start r) i) := by
  intro i
  induction i with
  | zero =>
    refine ⟨fun x hx => (by cases hx), fun _ => .inl ⟨rfl, rfl⟩, ?_, fun h => absurd h (Nat.lt_irrefl _)⟩
    exact List.pairwise_singleton ..
  | succ i ih =>
    have hcall : callAt PlaceGen.next sts (.start r) i = (PlaceGen.next (sts i) (genAt PlaceGen.next sts (.start r) i)).1 := rfl
    show WalkInv sts r (i + 1) (PlaceGen.next (sts i) (genAt PlaceGen.next sts (.start r) i)).2
    generalize genAt PlaceGen.next sts (.start r) i = g at ih hcall
    cases e : g.extended (sts i) with
    | nil =>
      have h1 : PlaceGen.next (sts i) g = (none, ⟨none, []⟩) := by simp only [PlaceGen.next, e]
      rw [h1]
      exact ⟨fun x hx => (by cases hx), fun _ => .inr ⟨Nat.succ_pos _, rfl⟩, List.Pairwise.nil, fun _ y hy => (by cases hy)⟩
    | cons x stack =>
      have h1 : PlaceGen.next (sts i) g = (some x, ⟨some x, stack⟩) := by simp only [PlaceGen.next, e]
      rw [h1] at hcall
      rw [h1]
      rcases Nat.eq_zero_or_pos i with hi | hi
      · subst hi
        have hg : g.extended (sts 0) = [(0, r)] := by
          unfold PlaceGen.extended
          cases hp : g.pending with
          | none =>
            rcases ih.fresh hp with h | h
            · exact h.2
            · exact absurd h.1 (Nat.lt_irrefl _)
          | some y =>
            obtain ⟨k, hk, _⟩ := ih.pending y hp
            exact absurd hk (by omega)
        rw [hg] at e
        cases e
        refine ⟨fun x hx => ?_, fun h => (by cases h), List.Pairwise.nil, fun _ y hy => (by cases hy)⟩
        cases hx
        exact ⟨0, rfl, hcall, fun y hy => by cases hy⟩
      · obtain ⟨hs, hpar⟩ := extended_inv ih hi
        rw [e] at hs hpar
        have hs' := List.pairwise_cons.1 hs
        refine ⟨fun z hz => ?_, fun h => (by cases h), hs'.2, fun _ y hy => ?_⟩
        · cases hz
          exact ⟨i, rfl, hcall, fun y hy => hs'.1 y hy⟩
        · obtain ⟨d, j, m, g1, g2, g3, g4, g5⟩ := hpar y (List.mem_cons_of_mem _ hy)
          refine ⟨d, j, m, g1, by omega, g3, g4, fun j' h2 h3 z hz => ?_⟩
          by_cases hj : j' = i
          · subst hj
            rw [hcall] at hz
            cases hz
            have := hs'.1 y hy
            omega
          · exact g5 j' h2 (by omega) z hz

/-- C148: the first place is the root, at depth 0; every other one was, when the program asked for the place after it, in the entries of the place that was yielded last one level higher, and only deeper places came
between; so the depth of a place exceeds the one before by at most one. -/
theorem C148_depths (sts : Nat → PStore) (r : Nat) :
    callAt PlaceGen.next sts (.start r) 0 = some (0, r) ∧
    (∀ i x, callAt PlaceGen.next sts (.start r) (i + 1) = some x → ∃ d j m, x.1 = d + 1 ∧ j ≤ i ∧ callAt PlaceGen.next sts (.start r) j = some (d, m) ∧
      x.2 ∈ Dict.values (placeKids (sts (j + 1)) m) ∧ ∀ j', j < j' → j' ≤ i → ∀ y, callAt PlaceGen.next sts (.start r) j' = some y → d < y.1) ∧
    (∀ i, callAt PlaceGen.next sts (.start r) i = none → callAt PlaceGen.next sts (.start r) (i + 1) = none) := by
  refine ⟨rfl, fun i x hx => ?_, fun i hi => ?_⟩
  · have hinv := walkInv sts r (i + 1)
    have hcall : callAt PlaceGen.next sts (.start r) (i + 1) = (PlaceGen.next (sts (i + 1)) (genAt PlaceGen.next sts (.start r) (i + 1))).1 := rfl
    rw [hcall] at hx
    obtain ⟨_, hpar⟩ := extended_inv hinv (Nat.succ_pos _)
    generalize genAt PlaceGen.next sts (.start r) (i + 1) = g at hx hpar
    have hm : x ∈ g.extended (sts (i + 1)) := by
      unfold PlaceGen.next at hx
      cases e : g.extended (sts (i + 1)) with
      | nil => rw [e] at hx; cases hx
      | cons y stack => rw [e] at hx; cases hx; simp
    obtain ⟨d, j, m, g1, g2, g3, g4, g5⟩ := hpar x hm
    exact ⟨d, j, m, g1, by omega, g3, g4, fun j' h1 h2 => g5 j' h1 (by omega)⟩
  · have hcall : callAt PlaceGen.next sts (.start r) i = (PlaceGen.next (sts i) (genAt PlaceGen.next sts (.start r) i)).1 := rfl
    show (PlaceGen.next (sts (i + 1)) (PlaceGen.next (sts i) (genAt PlaceGen.next sts (.start r) i)).2).1 = none
    rw [hcall] at hi
    generalize genAt PlaceGen.next sts (.start r) i = g at hi
    unfold PlaceGen.next at hi
    cases e : g.extended (sts i) with
    | nil => simp only [PlaceGen.next, e]; rfl
    | cons y stack => rw [e] at hi; cases hi

/-! ### Paths -/

theorem lastLabel_append (l : List (Nat × Str)) (d : Nat) (s : Str) (k : Nat) : lastLabel (l ++ [(d, s)]) k = if d = k then s else lastLabel l k := by
  unfold lastLabel
  rw [List.filter_append]
  by_cases e : d = k
  · rw [if_pos e, List.filter_cons_of_pos (by simpa using e)]
    simp
  · rw [if_neg e, List.filter_cons_of_neg (by simpa using e)]
    simp

theorem labelsAbove_le (l : List (Nat × Str)) (d : Nat) (s : Str) (k : Nat) (h : k ≤ d) : labelsAbove (l ++ [(d, s)]) k = labelsAbove l k := by
  unfold labelsAbove
  apply List.map_congr_left
  intro x hx
  rw [lastLabel_append, if_neg (by have := List.mem_range.1 hx; omega)]

theorem labelsAbove_succ (l : List (Nat × Str)) (d : Nat) (s : Str) : labelsAbove (l ++ [(d, s)]) (d + 1) = labelsAbove l d ++ [s] := by
  have h1 : labelsAbove (l ++ [(d, s)]) (d + 1) = labelsAbove (l ++ [(d, s)]) d ++ [lastLabel (l ++ [(d, s)]) d] := by
    unfold labelsAbove
    rw [List.range_succ, List.map_append]; rfl
  rw [h1, labelsAbove_le l d s d (Nat.le_refl _), lastLabel_append, if_pos rfl]

theorem labelsAbove_take (l : List (Nat × Str)) (d k : Nat) (h : k ≤ d) : (labelsAbove l d).take k = labelsAbove l k := by
  unfold labelsAbove
  rw [← List.map_take, List.take_range, Nat.min_eq_left h]

theorem labelsAbove_length (l : List (Nat × Str)) (d : Nat) : (labelsAbove l d).length = d := by simp [labelsAbove]

theorem passed_succ (y : Nat → Option (Nat × Nat)) (sts : Nat → PStore) (i : Nat) (x : Nat × Nat) (h : y i = some x) :
    passed y sts (i + 1) = passed y sts i ++ [(x.1, placeLabel (sts (i + 1)) x.2)] := by
  unfold passed
  rw [List.range_succ, List.filterMap_append]
  simp [h]

/-- What holds before each call of `next` on `walk_with_path`. -/
def PathInv (sts : Nat → PStore) (r i : Nat) (g : PathGen) : Prop :=
  g.walk = genAt PlaceGen.next sts (.start r) i ∧ (i = 0 → g = .start r) ∧
  ∀ k x, i = k + 1 → callAt PlaceGen.next sts (.start r) k = some x →
    g.lastDepth = x.1 ∧ g.lastNode = some x.2 ∧ g.path = labelsAbove (passed (callAt PlaceGen.next sts (.start r)) sts k) x.1

/-- One call. -/
theorem pathGen_call (sts : Nat → PStore) (r i : Nat) (g : PathGen) (h : PathInv sts r i g) :
    (PathGen.next (sts i) g).1 = .ok ((callAt PlaceGen.next sts (.start r) i).map
      (fun x => (join u!"/" (labelsAbove (passed (callAt PlaceGen.next sts (.start r)) sts i) x.1), x.2))) ∧ PathInv sts r (i + 1) (PathGen.next (sts i) g).2 := by
  obtain ⟨hw, h0, hk⟩ := h
  have hcall : callAt PlaceGen.next sts (.start r) i = (PlaceGen.next (sts i) g.walk).1 := by rw [hw]; rfl
  have hgen : genAt PlaceGen.next sts (.start r) (i + 1) = (PlaceGen.next (sts i) g.walk).2 := by rw [hw]; rfl
  unfold PathGen.next
  cases e : PlaceGen.next (sts i) g.walk with
  | mk o w =>
    rw [e] at hcall hgen
    cases o with
    | none =>
      simp only
      rw [hcall]
      refine ⟨rfl, hgen.symm, fun hc => by omega, fun k x hi hx => ?_⟩
      have : k = i := by omega
      subst this
      rw [hcall] at hx
      cases hx
    | some x =>
      obtain ⟨d, n⟩ := x
      simp only
      have hpath : g.nextPath (sts i) d = .ok (labelsAbove (passed (callAt PlaceGen.next sts (.start r)) sts i) d) := by
        cases i with
        | zero =>
          have hg := h0 rfl
          have hd : callAt PlaceGen.next sts (.start r) 0 = some (0, r) := rfl
          rw [hcall] at hd
          cases hd
          rw [hg]
          rfl
        | succ k =>
          obtain ⟨d', j, m, g1, g2, g3, _, g5⟩ := (C148_depths sts r).2.1 k (d, n) (by rw [hcall])
          cases hprev : callAt PlaceGen.next sts (.start r) k with
          | none =>
            have := (C148_depths sts r).2.2 k hprev
            rw [hcall] at this
            cases this
          | some x =>
            obtain ⟨q1, q2, q3⟩ := hk k x rfl hprev
            have hle : d ≤ x.1 + 1 := by
              simp only at g1
              by_cases hjk : j = k
              · subst hjk
                rw [g3] at hprev
                cases hprev
                omega
              · have := g5 k (by omega) (Nat.le_refl _) x hprev
                omega
            rw [passed_succ _ _ _ x hprev]
            unfold PathGen.nextPath
            rw [q1, q2, q3]
            by_cases c1 : d = x.1 + 1
            · rw [if_pos c1, c1, labelsAbove_succ]
            · rw [if_neg c1]
              by_cases c2 : d = x.1
              · rw [if_pos c2, c2, labelsAbove_le _ _ _ _ (Nat.le_refl _)]
              · rw [if_neg c2, if_pos (by omega), labelsAbove_length, labelsAbove_le _ _ _ _ (by omega)]
                rw [show x.1 - (x.1 - d) = d by omega, labelsAbove_take _ _ _ (by omega)]
      rw [hpath]
      simp only
      rw [hcall]
      refine ⟨rfl, hgen.symm, fun hc => by omega, fun k x hi hx => ?_⟩
      have : k = i := by omega
      subst this
      rw [hcall] at hx
      cases hx
      exact ⟨rfl, rfl, rfl⟩

/-- C148: whatever the program changes between the calls, `walk_with_path` raises nothing, and yields the places that a walk yields with the same changes, each with a path of as many labels as its depth: at every level the
label of the place that was yielded last there, read when the program asked for the place after it. -/
theorem C148_paths (sts : Nat → PStore) (r i : Nat) :
    callAt PathGen.next sts (.start r) i = .ok ((callAt PlaceGen.next sts (.start r) i).map
      (fun x => (join u!"/" (labelsAbove (passed (callAt PlaceGen.next sts (.start r)) sts i) x.1), x.2))) := by
  have hinv : ∀ i, PathInv sts r i (genAt PathGen.next sts (.start r) i) := by
    intro i
    induction i with
    | zero => exact ⟨rfl, fun _ => rfl, fun k x h => (by omega)⟩
    | succ i ih => exact (pathGen_call sts r i _ ih).2
  exact (pathGen_call sts r i _ (hinv i)).1

/-- C148: if the places stay as they are, both generators yield what the walks of C120 yield. -/
theorem C148_unchanged (st : PStore) (r : Nat) (ns : List (Nat × Nat)) (h : heapWalk st ns.length [(0, r)] = (ns, [])) (i : Nat) :
    callAt PlaceGen.next (fun _ => st) (.start r) i = ns[i]? :=
  (C148_walk st (fun _ => st) r ns (fun _ _ => rfl)).2 h i

/-! ### Cases that meet the hypotheses -/

/-- A country with two towns. -/
def walkPlaces : PStore := [⟨u!"日本", none, none, [(u!"東京", 1), (u!"京都", 2)]⟩, ⟨u!"東京", none, none, []⟩, ⟨u!"京都", none, none, []⟩]

/-- The same places, with a new label and one town less, from the second call on. -/
def walkPlacesLater : Nat → PStore
  | 0 => walkPlaces
  | _ + 1 => [⟨u!"日本国", none, none, [(u!"京都", 2)]⟩, ⟨u!"東京", none, none, []⟩, ⟨u!"京都", none, none, []⟩]

example : (List.range 3).map (callAt PathGen.next walkPlacesLater (.start 0)) = [.ok (some ([], 0)), .ok (some (u!"日本国", 2)), .ok none] := by rfl
example : ∀ i, callAt PlaceGen.next walkPlacesLater (.start 0) i = [(0, 0), (1, 2)][i]? :=
  (C148_walk (walkPlacesLater 1) walkPlacesLater 0 [(0, 0), (1, 2)] (fun _ _ => rfl)).2 rfl

end Cjk
