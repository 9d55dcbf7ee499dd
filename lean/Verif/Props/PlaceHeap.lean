import Verif.Model.PlaceHeap
import Verif.Spec.Place
import Verif.Lemmas.Graph
import Verif.Props.Place
import Mathlib.Data.List.Forall2
import Mathlib.Data.List.Nodup
/-!
# C120: places as objects
-/

namespace Cjk
open Py
open Spec (Leads Circular)

/-- A store as programs build them: keys occur once, entries exist. -/
def Spec.PlacesOk (st : PStore) : Prop := ∀ n ∈ st, Dict.WF n.kids ∧ ∀ kp ∈ n.kids, kp.2 < st.length

theorem placesOk_modify {st : PStore} (h : Spec.PlacesOk st) (p : Nat) (f : PNode → PNode)
    (hf : ∀ n, Dict.WF n.kids → Dict.WF (f n).kids) (hb : ∀ n, ∀ kp ∈ (f n).kids, kp ∈ n.kids ∨ kp.2 < st.length) :
    Spec.PlacesOk (st.modify p f) := by
  intro n hn
  rw [List.length_modify]
  obtain ⟨i, hi, rfl⟩ := List.getElem_of_mem hn
  rw [List.length_modify] at hi
  rw [List.getElem_modify]
  have hm : st[i] ∈ st := List.getElem_mem hi
  split
  · refine ⟨hf _ (h _ hm).1, ?_⟩
    intro kp hkp
    rcases hb _ kp hkp with h1 | h1
    · exact (h _ hm).2 kp h1
    · exact h1
  · exact h _ hm

theorem placesOk_step {st : PStore} (h : Spec.PlacesOk st) (op : PlaceOp) (ho : op.inStore st) : Spec.PlacesOk (op.step st) := by
  cases op with
  | new label reading aliases =>
    simp only [PlaceOp.step]
    split
    · intro n hn
      rcases List.mem_append.1 hn with hn | hn
      · refine ⟨(h n hn).1, fun kp hkp => ?_⟩
        have := (h n hn).2 kp hkp
        simp only [List.length_append, List.length_singleton]; omega
      · rw [List.mem_singleton] at hn
        subst hn
        exact ⟨Dict.WF_nil, by simp⟩
    · exact h
  | append p c =>
    refine placesOk_modify h p _ (fun n hn => Dict.WF_set hn _ _) (fun n kp hkp => ?_)
    rcases mem_set_dict hkp with h1 | h1
    · exact Or.inl h1
    · exact Or.inr (h1 ▸ ho.2)
  | setItem p key c =>
    refine placesOk_modify h p _ (fun n hn => Dict.WF_set hn _ _) (fun n kp hkp => ?_)
    rcases mem_set_dict hkp with h1 | h1
    · exact Or.inl h1
    · exact Or.inr (h1 ▸ ho.2)
  | delItem p key =>
    exact placesOk_modify h p _ (fun n hn => Dict.WF_del hn _) (fun n kp hkp => Or.inl ((Dict.del_sublist _ _).subset hkp))
  | relabel p label => exact placesOk_modify h p _ (fun n hn => hn) (fun n kp hkp => Or.inl hkp)

/-- Every program leaves such a store. -/
theorem C120_programs (ops : List PlaceOp) (h : PlaceOp.allInStore [] ops) : Spec.PlacesOk (PlaceOp.run [] ops) := by
  have key : ∀ (ops : List PlaceOp) (st : PStore), Spec.PlacesOk st → PlaceOp.allInStore st ops → Spec.PlacesOk (PlaceOp.run st ops) := by
    intro ops
    induction ops with
    | nil => intro st h _; exact h
    | cons op ops ih => intro st h ho; exact ih _ (placesOk_step h op ho.1) ho.2
  exact key ops [] (by intro n hn; cases hn) h

theorem placeKids_ok {st : PStore} (h : Spec.PlacesOk st) (r : Nat) : Dict.WF (placeKids st r) ∧ ∀ kp ∈ placeKids st r, kp.2 < st.length := by
  unfold placeKids
  cases e : st[r]? with
  | none => exact ⟨Dict.WF_nil, by simp⟩
  | some n => exact h n (List.mem_of_getElem? e)

/-! ### `walk` -/

theorem heapWalk_path (st : PStore) : ∀ (n : Nat) (stack : List (Nat × Nat)), (heapWalk st n stack).2 = [] →
    ∀ d r, (d, r) ∈ stack → ∀ ks x, Leads (placeKids st) r ks x → ks.length < n := by
  intro n
  induction n with
  | zero => intro stack h d r hm; simp only [heapWalk] at h; rw [h] at hm; cases hm
  | succ n ih =>
    intro stack h d r hm ks x hl
    cases stack with
    | nil => cases hm
    | cons s stack =>
      obtain ⟨d0, r0⟩ := s
      simp only [heapWalk] at h
      rcases List.mem_cons.1 hm with e | hm
      · cases e
        cases hl with
        | here => simp
        | step h1 h2 =>
          have := ih _ h (d + 1) _ (List.mem_append_left _ (List.mem_map.2 ⟨_, h1, rfl⟩)) _ _ h2
          simp only [List.length_cons]; omega
      · have := ih _ h d r (List.mem_append_right _ hm) ks x hl
        omega

/-- As long as the walk has not ended, every round yields a place. -/
theorem heapWalk_length (st : PStore) : ∀ (n : Nat) (stack : List (Nat × Nat)), (heapWalk st n stack).2 ≠ [] → (heapWalk st n stack).1.length = n := by
  intro n
  induction n with
  | zero => intro stack _; rfl
  | succ n ih =>
    intro stack h
    cases stack with
    | nil => exact absurd rfl h
    | cons s stack =>
      obtain ⟨d0, r0⟩ := s
      simp only [heapWalk, List.length_cons] at h ⊢
      rw [ih _ h]

theorem heapWalk_more (st : PStore) : ∀ (n : Nat) (stack : List (Nat × Nat)), (heapWalk st n stack).2 = [] → ∀ m, n ≤ m → heapWalk st m stack = heapWalk st n stack := by
  intro n
  induction n with
  | zero =>
    intro stack h m _
    simp only [heapWalk] at h
    subst h
    cases m <;> rfl
  | succ n ih =>
    intro stack h m hm
    obtain ⟨m, rfl⟩ : ∃ k, m = k + 1 := ⟨m - 1, by omega⟩
    cases stack with
    | nil => rfl
    | cons s stack =>
      obtain ⟨d0, r0⟩ := s
      simp only [heapWalk] at h ⊢
      rw [ih _ h m (by omega)]

/-- The place at a reference as a value. -/
abbrev SamePlace (st : PStore) (a : Nat × Nat) (b : Nat × Place) : Prop := a.1 = b.1 ∧ Spec.Holds st a.2 b.2

theorem holds_kids {st : PStore} {r : Nat} {l : Str} {rd : Option Str} {a : Option (List Str)} {k : Places} (h : Spec.Holds st r (.node l rd a k)) :
    Spec.HoldsAll st (placeKids st r) k ∧ placeLabel st r = l ∧ st[r]? = some ⟨l, rd, a, placeKids st r⟩ := by
  obtain ⟨n, e, h1, h2, h3, h4⟩ := h
  simp only [placeKids, placeLabel, e, Option.map_some, Option.getD_some]
  refine ⟨h4, h1, ?_⟩
  rw [← h1, ← h2, ← h3]

theorem holds_placeLabel {st : PStore} {r : Nat} {p : Place} (h : Spec.Holds st r p) : placeLabel st r = p.label := by
  cases p; exact (holds_kids h).2.1

mutual
theorem heapWalk_place (st : PStore) : ∀ (p : Place) (r : Nat), Spec.Holds st r p → ∀ d stack n, ∃ out,
    heapWalk st (p.size + n) ((d, r) :: stack) = (out ++ (heapWalk st n stack).1, (heapWalk st n stack).2) ∧
    List.Forall₂ (SamePlace st) out (p.preorder d)
  | .node l rd a k, r, h, d, stack, n => by
    obtain ⟨out, e, hf⟩ := heapWalk_places st k (placeKids st r) (holds_kids h).1 (d + 1) stack n
    refine ⟨(d, r) :: out, ?_, .cons ⟨rfl, h⟩ hf⟩
    have : (Place.node l rd a k).size + n = (k.size + n) + 1 := by simp only [Place.size]; omega
    rw [this]
    simp only [heapWalk, e, List.cons_append]
theorem heapWalk_places (st : PStore) : ∀ (k : Places) (dict : Dict Str Nat), Spec.HoldsAll st dict k → ∀ d stack n, ∃ out,
    heapWalk st (k.size + n) (dict.map (fun kp => (d, kp.2)) ++ stack) = (out ++ (heapWalk st n stack).1, (heapWalk st n stack).2) ∧
    List.Forall₂ (SamePlace st) out (k.preorder d)
  | .nil, dict, h, d, stack, n => by
    cases (show dict = [] from h)
    refine ⟨[], ?_, .nil⟩
    simp [Places.size]
  | .cons key p rest, dict, h, d, stack, n => by
    obtain ⟨ref, d', rfl, h1, h2⟩ := h
    obtain ⟨o2, e2, f2⟩ := heapWalk_places st rest d' h2 d stack n
    obtain ⟨o1, e1, f1⟩ := heapWalk_place st p ref h1 d (d'.map (fun kp => (d, kp.2)) ++ stack) (rest.size + n)
    refine ⟨o1 ++ o2, ?_, List.rel_append f1 f2⟩
    have : (Places.cons key p rest).size + n = p.size + (rest.size + n) := by simp only [Places.size]; omega
    rw [this, List.map_cons, List.cons_append, e1, e2, List.append_assoc]
end

/-- Without loops the objects unfold to a hierarchy. -/
theorem unfold_exists {st : PStore} (h : Spec.PlacesOk st) (r : Nat) (hr : r < st.length) (hc : ¬ Circular (placeKids st) r) :
    ∃ p, Spec.Holds st r p := by
  refine Circular.induct st.length (fun r _ => (placeKids_ok h r).2) (fun r => ∃ p, Spec.Holds st r p) ?_ r hr hc
  intro r hr ih
  have : ∃ k, Spec.HoldsAll st (placeKids st r) k := by
    revert ih
    generalize placeKids st r = d
    intro ih
    induction d with
    | nil => exact ⟨.nil, rfl⟩
    | cons kp d ihd =>
      obtain ⟨p, hp⟩ := ih kp (by simp)
      obtain ⟨k, hk⟩ := ihd (fun x hx => ih x (by simp [hx]))
      exact ⟨.cons kp.1 p k, kp.2, d, rfl, hp, hk⟩
  obtain ⟨k, hk⟩ := this
  have e : st[r]? = some st[r] := List.getElem?_eq_getElem hr
  refine ⟨.node st[r].label st[r].reading st[r].aliases k, st[r], e, rfl, rfl, rfl, ?_⟩
  simpa [placeKids, e] using hk

/-- C120: `walk` ends exactly if no place below (or the place itself) contains itself, directly or not; otherwise it yields places for ever. -/
theorem C120_walk_ends_iff (st : PStore) (h : Spec.PlacesOk st) (r : Nat) (hr : r < st.length) :
    ((∃ n, (heapWalk st n [(0, r)]).2 = []) ↔ ¬ Circular (placeKids st) r) ∧
    (Circular (placeKids st) r → ∀ n, (heapWalk st n [(0, r)]).1.length = n) := by
  have key : (∃ n, (heapWalk st n [(0, r)]).2 = []) → ¬ Circular (placeKids st) r := by
    rintro ⟨n, hn⟩ hc
    obtain ⟨ks, x, h1, h2⟩ := Circular.paths hc n
    have := heapWalk_path st n _ hn 0 r (by simp) ks x h1
    omega
  refine ⟨⟨key, fun hc => ?_⟩, fun hc n => ?_⟩
  · obtain ⟨p, hp⟩ := unfold_exists h r hr hc
    obtain ⟨out, e, _⟩ := heapWalk_place st p r hp 0 [] 0
    exact ⟨p.size + 0, by rw [e]; rfl⟩
  · exact heapWalk_length st n _ (fun e => key ⟨n, e⟩ hc)

/-- C120: if it ends, it is the walk of the hierarchy that the objects unfold to: a place that is entered several times is yielded every time. -/
theorem C120_walk (st : PStore) (h : Spec.PlacesOk st) (r : Nat) (hr : r < st.length) (hc : ¬ Circular (placeKids st) r) :
    ∃ p out, Spec.Holds st r p ∧ List.Forall₂ (SamePlace st) out (placeWalk p) ∧ ∀ n, p.size ≤ n → heapWalk st n [(0, r)] = (out, []) := by
  obtain ⟨p, hp⟩ := unfold_exists h r hr hc
  obtain ⟨out, e, f⟩ := heapWalk_place st p r hp 0 [] 0
  simp only [heapWalk, List.append_nil, Nat.add_zero] at e
  refine ⟨p, out, hp, by rw [C42_walk]; exact f, fun n hn => ?_⟩
  rw [heapWalk_more st p.size _ (by rw [e]) n hn, e]

/-! ### The ways to a place -/

mutual
/-- The keys on the way to each place, in pre-order. -/
def Place.ways : Place → List (List Str)
  | .node _ _ _ k => [] :: k.ways
/-- The same for entries. -/
def Places.ways : Places → List (List Str)
  | .nil => []
  | .cons key p rest => p.ways.map (key :: ·) ++ rest.ways
end

mutual
theorem ways_out (st : PStore) : ∀ (p : Place) (r : Nat), Spec.Holds st r p → ∀ d (pre : List Str) (r0 : Nat), Leads (placeKids st) r0 pre r → pre.length = d →
    ∀ out, List.Forall₂ (SamePlace st) out (p.preorder d) → ∀ n stack, heapWalk st (p.size + n) ((d, r) :: stack) = (out ++ (heapWalk st n stack).1, (heapWalk st n stack).2) →
    List.Forall₂ (fun (a : Nat × Nat) ks => a.1 = d + ks.length ∧ Leads (placeKids st) r0 (pre ++ ks) a.2) out p.ways
  | .node l rd a k, r, h, d, pre, r0, hl, hd, out, hf, n, stack, e => by
    simp only [Place.preorder] at hf
    cases hf with
    | cons hf1 hf2 =>
      rename_i o out
      have e1 : (Place.node l rd a k).size + n = (k.size + n) + 1 := by simp only [Place.size]; omega
      rw [e1] at e
      simp only [heapWalk, List.cons_append, Prod.mk.injEq, List.cons.injEq] at e
      refine .cons ?_ ?_
      · rw [← e.1.1]; exact ⟨by simp, by simpa using hl⟩
      · exact ways_outs st k (placeKids st r) (holds_kids h).1 d pre r0 r hl hd (fun kp h => h) out hf2 n stack (Prod.ext e.1.2 e.2)
theorem ways_outs (st : PStore) : ∀ (k : Places) (dict : Dict Str Nat), Spec.HoldsAll st dict k → ∀ d (pre : List Str) (r0 r : Nat), Leads (placeKids st) r0 pre r → pre.length = d →
    (∀ kp ∈ dict, kp ∈ placeKids st r) →
    ∀ out, List.Forall₂ (SamePlace st) out (k.preorder (d + 1)) → ∀ n stack,
    heapWalk st (k.size + n) (dict.map (fun kp => (d + 1, kp.2)) ++ stack) = (out ++ (heapWalk st n stack).1, (heapWalk st n stack).2) →
    List.Forall₂ (fun (a : Nat × Nat) ks => a.1 = d + ks.length ∧ Leads (placeKids st) r0 (pre ++ ks) a.2) out k.ways
  | .nil, dict, h, d, pre, r0, r, hl, hd, hs, out, hf, n, stack, e => by
    simp only [Places.preorder] at hf
    cases hf
    exact .nil
  | .cons key p rest, dict, h, d, pre, r0, r, hl, hd, hs, out, hf, n, stack, e => by
    obtain ⟨ref, d', rfl, h1, h2⟩ := h
    simp only [Places.preorder] at hf
    obtain ⟨o1, e1, f1⟩ := heapWalk_place st p ref h1 (d + 1) (d'.map (fun kp => (d + 1, kp.2)) ++ stack) (rest.size + n)
    obtain ⟨o2, e2, f2⟩ := heapWalk_places st rest d' h2 (d + 1) stack n
    have e3 : (Places.cons key p rest).size + n = p.size + (rest.size + n) := by simp only [Places.size]; omega
    rw [e3, List.map_cons, List.cons_append, e1, e2] at e
    have e4 : o1 ++ o2 = out := by
      have := (Prod.mk.inj e).1
      rw [← List.append_assoc] at this
      exact List.append_cancel_right this
    subst e4
    refine List.rel_append ?_ ?_
    · have hk : Leads (placeKids st) r0 (pre ++ [key]) ref := Spec.Leads.snoc.2 ⟨r, hl, hs _ (by simp)⟩
      have := ways_out st p ref h1 (d + 1) (pre ++ [key]) r0 hk (by simp [hd]) o1 f1 (rest.size + n) _ e1
      rw [List.forall₂_map_right_iff]
      refine this.imp ?_
      rintro a ks ⟨g1, g2⟩
      refine ⟨by simp only [List.length_cons]; omega, by simpa using g2⟩
    · exact ways_outs st rest d' h2 d pre r0 r hl hd (fun kp hkp => hs kp (by simp [hkp])) o2 f2 n stack e2
end

mutual
theorem ways_complete (st : PStore) : ∀ (p : Place) (r : Nat), Spec.Holds st r p → ∀ ks x, Leads (placeKids st) r ks x → ks ∈ p.ways
  | .node l rd a k, r, h, ks, x, hl => by
    cases hl with
    | here => simp [Place.ways]
    | step h1 h2 =>
      simp only [Place.ways]
      exact List.mem_cons_of_mem _ (ways_completes st k _ (holds_kids h).1 _ _ _ _ h1 h2)
theorem ways_completes (st : PStore) : ∀ (k : Places) (d : Dict Str Nat), Spec.HoldsAll st d k → ∀ key c ks x, (key, c) ∈ d → Leads (placeKids st) c ks x →
    (key :: ks) ∈ k.ways
  | .nil, d, h, key, c, ks, x, hm, _ => by cases (show d = [] from h); cases hm
  | .cons key' p rest, d, h, key, c, ks, x, hm, hl => by
    obtain ⟨ref, d', rfl, h1, h2⟩ := h
    simp only [Places.ways, List.mem_append, List.mem_map]
    rcases List.mem_cons.1 hm with e | hm
    · cases e
      exact Or.inl ⟨ks, ways_complete st p _ h1 ks x hl, rfl⟩
    · exact Or.inr (ways_completes st rest d' h2 key c ks x hm hl)
end

mutual
theorem ways_nodup (st : PStore) (hok : Spec.PlacesOk st) : ∀ (p : Place) (r : Nat), Spec.Holds st r p → p.ways.Nodup
  | .node l rd a k, r, h => by
    simp only [Place.ways, List.nodup_cons]
    refine ⟨?_, ways_nodups st hok k _ (holds_kids h).1 (placeKids_ok hok r).1⟩
    intro hm
    exact absurd rfl (ways_nonempty k [] hm)
theorem ways_nodups (st : PStore) (hok : Spec.PlacesOk st) : ∀ (k : Places) (d : Dict Str Nat), Spec.HoldsAll st d k → Dict.WF d → k.ways.Nodup
  | .nil, d, h, _ => by simp [Places.ways]
  | .cons key p rest, d, h, hw => by
    obtain ⟨ref, d', rfl, h1, h2⟩ := h
    rw [Dict.WF_cons] at hw
    simp only [Places.ways]
    rw [List.nodup_append]
    refine ⟨?_, ways_nodups st hok rest d' h2 hw.2, ?_⟩
    · exact List.Nodup.map (fun a b e => (List.cons.inj e).2) (ways_nodup st hok p ref h1)
    · intro a ha b hb e
      subst e
      obtain ⟨ks, _, rfl⟩ := List.mem_map.1 ha
      exact hw.1 (ways_key rest d' h2 _ _ hb)
theorem ways_nonempty : ∀ (k : Places) (ks : List Str), ks ∈ k.ways → ks ≠ []
  | .nil, ks, h => by simp [Places.ways] at h
  | .cons key p rest, ks, h => by
    simp only [Places.ways, List.mem_append, List.mem_map] at h
    rcases h with ⟨_, _, rfl⟩ | h
    · simp
    · exact ways_nonempty rest ks h
theorem ways_key : ∀ (k : Places) (d : Dict Str Nat), Spec.HoldsAll st d k → ∀ key ks, (key :: ks) ∈ k.ways → key ∈ Dict.keys d
  | .nil, d, h, key, ks, hm => by simp [Places.ways] at hm
  | .cons key' p rest, d, h, key, ks, hm => by
    obtain ⟨ref, d', rfl, h1, h2⟩ := h
    simp only [Places.ways, List.mem_append, List.mem_map] at hm
    rcases hm with ⟨_, _, e⟩ | hm
    · cases e; simp
    · simp only [Dict.keys_cons]; exact List.mem_cons_of_mem _ (ways_key rest d' h2 key ks hm)
end

/-- C120: every way to a place (a sequence of keys) is walked exactly once, and the depth is the length of the way. -/
theorem C120_walk_ways (st : PStore) (h : Spec.PlacesOk st) (r : Nat) (hr : r < st.length) (hc : ¬ Circular (placeKids st) r) :
    ∃ (ways : List (List Str)) (out : List (Nat × Nat)) (n : Nat), heapWalk st n [(0, r)] = (out, []) ∧ ways.Nodup ∧
      (∀ ks, ks ∈ ways ↔ ∃ x, Leads (placeKids st) r ks x) ∧
      List.Forall₂ (fun (a : Nat × Nat) ks => a.1 = ks.length ∧ Leads (placeKids st) r ks a.2) out ways := by
  obtain ⟨p, hp⟩ := unfold_exists h r hr hc
  obtain ⟨out, e, f⟩ := heapWalk_place st p r hp 0 [] 0
  have hw := ways_out st p r hp 0 [] r (.here r) rfl out f 0 [] e
  simp only [List.nil_append, Nat.zero_add] at hw
  refine ⟨p.ways, out, p.size + 0, by simpa [heapWalk] using e, ways_nodup st h p r hp, ?_, hw⟩
  intro ks
  constructor
  · intro hm
    have g := List.forall₂_iff_get.1 hw
    obtain ⟨i, hi, rfl⟩ := List.getElem_of_mem hm
    exact ⟨_, (g.2 i (by rw [g.1]; exact hi) hi).2⟩
  · rintro ⟨x, hx⟩
    exact ways_complete st p r hp ks x hx

/-! ### `walk_with_path`, `find_all`, `dump` -/

theorem heapPathLoop_same (st : PStore) : ∀ (out : List (Nat × Nat)) (ps : List (Nat × Place)), List.Forall₂ (SamePlace st) out ps →
    ∀ path d l, List.Forall₂ (fun (a : Str × Nat) (b : Str × Place) => a.1 = b.1 ∧ Spec.Holds st a.2 b.2) (heapPathLoop st path d l out).1 (walkPathLoop path d l ps).1 ∧
      (heapPathLoop st path d l out).2 = (walkPathLoop path d l ps).2 := by
  intro out ps h
  induction h with
  | nil => intro path d l; exact ⟨.nil, rfl⟩
  | @cons a b out ps hab _ ih =>
    intro path d l
    obtain ⟨da, ra⟩ := a
    obtain ⟨db, pb⟩ := b
    obtain ⟨e, hh⟩ := hab
    simp only at e hh
    subst e
    simp only [heapPathLoop, walkPathLoop, holds_placeLabel hh]
    split
    · exact ⟨.cons ⟨rfl, hh⟩ (ih _ _ _).1, (ih _ _ _).2⟩
    · split
      · exact ⟨.cons ⟨rfl, hh⟩ (ih _ _ _).1, (ih _ _ _).2⟩
      · split
        · exact ⟨.cons ⟨rfl, hh⟩ (ih _ _ _).1, (ih _ _ _).2⟩
        · exact ⟨.nil, rfl⟩

theorem forall₂_filter {α β : Type} {R : α → β → Prop} (f : α → Bool) (g : β → Bool) : ∀ (l : List α) (m : List β), List.Forall₂ R l m →
    (∀ a b, R a b → f a = g b) → List.Forall₂ R (l.filter f) (m.filter g) := by
  intro l m h he
  induction h with
  | nil => exact .nil
  | @cons a b l m hab _ ih =>
    rw [List.filter_cons, List.filter_cons, he a b hab]
    split
    · exact .cons hab ih
    · exact ih

/-- C120: without loops, `walk_with_path`, `find_all` and `dump` do what they do on the hierarchy that the objects unfold to, which is always there;
with a loop `find_all` and `dump` never end. -/
theorem C120_reports (st : PStore) (h : Spec.PlacesOk st) (r : Nat) (hr : r < st.length) :
    (¬ Circular (placeKids st) r → ∃ p, Spec.Holds st r p ∧ ∀ n, p.size ≤ n →
      (∃ out, heapPathLoop st [] 0 [] (heapWalk st n [(0, r)]).1 = (out, none) ∧
        List.Forall₂ (fun (a : Str × Nat) (b : Str × Place) => a.1 = b.1 ∧ Spec.Holds st a.2 b.2) out (placeWalkWithPath p).1) ∧
      (∀ label, ∃ found found', heapFindAll st n r label = some (.ok found) ∧ placeFindAll p label = .ok found' ∧
        List.Forall₂ (fun (a : Str × Nat) (b : Str × Place) => a.1 = b.1 ∧ Spec.Holds st a.2 b.2) found found') ∧
      (∀ rep, heapDump rep st n r = some (placeDump rep p))) ∧
    (Circular (placeKids st) r → ∀ n, (∀ label, heapFindAll st n r label = none) ∧ ∀ rep, heapDump rep st n r = none) := by
  constructor
  · intro hc
    obtain ⟨p, out, hp, hf, hn⟩ := C120_walk st h r hr hc
    refine ⟨p, hp, fun n hle => ?_⟩
    rw [hn n hle]
    have hpath := heapPathLoop_same st out (placeWalk p) hf [] 0 []
    have herr : (heapPathLoop st [] 0 [] out).2 = none := by
      rw [hpath.2]
      have := C43_paths p
      unfold placeWalkWithPath at this
      rw [this]
    refine ⟨⟨_, Prod.ext rfl herr, hpath.1⟩, ?_, ?_⟩
    · intro label
      unfold heapFindAll placeFindAll
      rw [hn n hle]
      have h2 : (placeWalkWithPath p).2 = none := by rw [C43_paths]
      have hp1 := hpath.1
      unfold placeWalkWithPath at h2 ⊢
      rcases e2 : walkPathLoop [] 0 [] (placeWalk p) with ⟨l2, x2⟩
      rw [e2] at h2 hp1
      simp only at h2
      subst h2
      rcases e1 : heapPathLoop st [] 0 [] out with ⟨l1, x1⟩
      rw [e1] at herr hp1
      simp only at herr
      subst herr
      simp only [e1]
      refine ⟨_, _, rfl, rfl, ?_⟩
      refine forall₂_filter _ _ _ _ hp1 ?_
      rintro ⟨a, x⟩ ⟨b, y⟩ ⟨_, hh⟩
      simp only [holds_placeLabel hh]
    · intro rep
      unfold heapDump placeDump
      rw [hn n hle]
      simp only [Option.some.injEq]
      clear hn hpath herr
      generalize placeWalk p = ps at hf
      induction hf with
      | nil => rfl
      | @cons a b out ps hab _ ih =>
        obtain ⟨da, ra⟩ := a
        obtain ⟨db, pb⟩ := b
        obtain ⟨e, hh⟩ := hab
        simp only at e hh
        subst e
        rw [List.map_cons, List.map_cons, ih]
        congr 1
        cases pb
        simp only [heapLine, (holds_kids hh).2.2, Place.label, Place.reading, Place.aliases]
  · intro hc n
    have : (heapWalk st n [(0, r)]).2 ≠ [] := fun e => (C120_walk_ends_iff st h r hr).1.1 ⟨n, e⟩ hc
    constructor
    · intro label
      unfold heapFindAll
      rcases e : heapWalk st n [(0, r)] with ⟨o, s⟩
      rw [e] at this
      cases s with
      | nil => exact absurd rfl this
      | cons _ _ => rfl
    · intro rep
      unfold heapDump
      rcases e : heapWalk st n [(0, r)] with ⟨o, s⟩
      rw [e] at this
      cases s with
      | nil => exact absurd rfl this
      | cons _ _ => rfl

/-! ### `find_node` -/

theorem heapFindLevel_cases {st : PStore} (hok : Spec.PlacesOk st) (label : Str) : ∀ (frontier next : List (List Str × Nat)),
    (∀ t way, heapFindLevel st label frontier next = .inl (t, way) → ∃ path r, (path, r) ∈ frontier ∧ (label, t) ∈ placeKids st r ∧ way = path ++ [label]) ∧
    (∀ out, heapFindLevel st label frontier next = .inr out →
      (∀ path r, (path, r) ∈ frontier → ∀ t, (label, t) ∉ placeKids st r) ∧
      ∀ way x, (way, x) ∈ out ↔ (way, x) ∈ next ∨ ∃ path r k, (path, r) ∈ frontier ∧ (k, x) ∈ placeKids st r ∧ way = path ++ [k]) := by
  intro frontier
  induction frontier with
  | nil =>
    intro next
    refine ⟨fun t way h => (by cases h), fun out h => ?_⟩
    cases h
    exact ⟨by simp, by simp⟩
  | cons f frontier ih =>
    intro next
    obtain ⟨path, r⟩ := f
    simp only [heapFindLevel]
    cases hg : Dict.get? (placeKids st r) label with
    | some target =>
      refine ⟨fun t way h => ?_, fun out h => (by cases h)⟩
      cases h
      exact ⟨path, r, by simp, Dict.mem_of_get?_eq_some hg, rfl⟩
    | none =>
      obtain ⟨i1, i2⟩ := ih (next ++ (placeKids st r).map (fun kp => (path ++ [kp.1], kp.2)))
      refine ⟨fun t way h => ?_, fun out h => ?_⟩
      · obtain ⟨p0, r0, h1, h2⟩ := i1 t way h
        exact ⟨p0, r0, List.mem_cons_of_mem _ h1, h2⟩
      · obtain ⟨j1, j2⟩ := i2 out h
        refine ⟨?_, ?_⟩
        · intro p0 r0 hm t ht
          rcases List.mem_cons.1 hm with e | hm
          · cases e
            rw [(Dict.get?_eq_some_iff (placeKids_ok hok r).1 label t).2 ht] at hg
            cases hg
          · exact j1 p0 r0 hm t ht
        · intro way x
          rw [j2 way x, List.mem_append, List.mem_map]
          constructor
          · rintro ((h | ⟨kp, h1, h2⟩) | ⟨p0, r0, k, h1, h2, h3⟩)
            · exact Or.inl h
            · cases h2
              exact Or.inr ⟨path, r, kp.1, by simp, h1, rfl⟩
            · exact Or.inr ⟨p0, r0, k, List.mem_cons_of_mem _ h1, h2, h3⟩
          · rintro (h | ⟨p0, r0, k, h1, h2, h3⟩)
            · exact Or.inl (Or.inl h)
            · rcases List.mem_cons.1 h1 with e | h1
              · cases e
                exact Or.inl (Or.inr ⟨(k, x), h2, by rw [h3]⟩)
              · exact Or.inr ⟨p0, r0, k, h1, h2, h3⟩

/-- Whether keys lead to an entry with this key. -/
def Spec.FoundAt (st : PStore) (r : Nat) (label : Str) (way : List Str) (x : Nat) : Prop :=
  way.getLast? = some label ∧ Leads (placeKids st) r way x

theorem heapFindLoop_spec {st : PStore} (hok : Spec.PlacesOk st) (shuffle : Nat → List (List Str × Nat) → List (List Str × Nat))
    (hs : ∀ n l, (shuffle n l).Perm l) (label : Str) (r : Nat) : ∀ (rounds depth n : Nat) (frontier : List (List Str × Nat)),
    (∀ way x, (way, x) ∈ frontier ↔ Leads (placeKids st) r way x ∧ way.length = depth) →
    (∀ way x, Spec.FoundAt st r label way x → depth < way.length) →
    (∀ t way, heapFindLoop st shuffle label rounds n frontier = some (.ok (t, way)) →
      Spec.FoundAt st r label way t ∧ ∀ way' x', Spec.FoundAt st r label way' x' → way.length ≤ way'.length) ∧
    (∀ e, heapFindLoop st shuffle label rounds n frontier = some (.error e) →
      e = .keyError ∧ (∀ way x, ¬ Spec.FoundAt st r label way x) ∧ ∃ m, ∀ way x, Leads (placeKids st) r way x → way.length < m) ∧
    (heapFindLoop st shuffle label rounds n frontier = none →
      (∀ way x, Spec.FoundAt st r label way x → depth + rounds < way.length) ∧ (rounds ≠ 0 → ∃ way x, Leads (placeKids st) r way x ∧ way.length = depth + rounds)) := by
  intro rounds
  induction rounds with
  | zero =>
    intro depth n frontier hf hd
    refine ⟨fun t way h => (by cases h), fun e h => (by cases h), fun _ => ⟨by simpa using hd, by simp⟩⟩
  | succ rounds ih =>
    intro depth n frontier hf hd
    obtain ⟨c1, c2⟩ := heapFindLevel_cases hok label frontier.reverse []
    simp only [heapFindLoop]
    cases hl : heapFindLevel st label frontier.reverse [] with
    | inl hit =>
      refine ⟨fun t way h => ?_, fun e h => (by cases h), fun h => (by cases h)⟩
      obtain ⟨t0, way0⟩ := hit
      cases h
      obtain ⟨path, r0, h1, h2, rfl⟩ := c1 t way hl
      obtain ⟨h3, h4⟩ := (hf path r0).1 (List.mem_reverse.1 h1)
      refine ⟨⟨by simp, Spec.Leads.snoc.2 ⟨r0, h3, h2⟩⟩, ?_⟩
      intro way' x' h'
      have := hd way' x' h'
      simp only [List.length_append, List.length_singleton]; omega
    | inr out =>
      obtain ⟨j1, j2⟩ := c2 out hl
      have hout : ∀ way x, (way, x) ∈ out ↔ Leads (placeKids st) r way x ∧ way.length = depth + 1 := by
        intro way x
        rw [j2 way x]
        constructor
        · rintro (h | ⟨path, r0, k, h1, h2, rfl⟩)
          · cases h
          · obtain ⟨h3, h4⟩ := (hf path r0).1 (List.mem_reverse.1 h1)
            exact ⟨Spec.Leads.snoc.2 ⟨r0, h3, h2⟩, by simp [h4]⟩
        · rintro ⟨h1, h2⟩
          rcases List.eq_nil_or_concat way with rfl | ⟨path, k, rfl⟩
          · simp at h2
          · rw [List.concat_eq_append] at h1 h2 ⊢
            obtain ⟨r0, h3, h4⟩ := Spec.Leads.snoc.1 h1
            refine Or.inr ⟨path, r0, k, List.mem_reverse.2 ((hf path r0).2 ⟨h3, by simpa using h2⟩), h4, rfl⟩
      have hd' : ∀ way x, Spec.FoundAt st r label way x → depth + 1 < way.length := by
        rintro way x ⟨g1, g2⟩
        have hlt := hd way x ⟨g1, g2⟩
        rcases List.eq_nil_or_concat way with rfl | ⟨path, k, rfl⟩
        · simp at hlt
        · rw [List.concat_eq_append] at g1 g2 hlt ⊢
          simp only [List.getLast?_append, List.getLast?_singleton, Option.some_or, Option.some.injEq] at g1
          subst g1
          obtain ⟨r0, h3, h4⟩ := Spec.Leads.snoc.1 g2
          simp only [List.length_append, List.length_singleton] at hlt ⊢
          by_cases e : path.length = depth
          · exact absurd h4 (j1 path r0 (List.mem_reverse.2 ((hf path r0).2 ⟨h3, e⟩)) x)
          · omega
      cases out with
      | nil =>
        refine ⟨fun t way h => (by cases h), fun e h => ?_, fun h => (by cases h)⟩
        cases h
        have hno : ∀ way x, Leads (placeKids st) r way x → way.length < depth + 1 := by
          intro way x h
          by_cases hlt : way.length < depth + 1
          · exact hlt
          · have h5 := h
            rw [← List.take_append_drop (depth + 1) way] at h5
            obtain ⟨y, h6, _⟩ := h5.split
            have := (hout _ y).2 ⟨h6, by simp only [List.length_take]; omega⟩
            cases this
        refine ⟨rfl, ?_, depth + 1, hno⟩
        intro way x g
        have := hno way x g.2
        have := hd' way x g
        omega
      | cons o out =>
        have := ih (depth + 1) (n + 1) (shuffle n (o :: out)) (by
          intro way x
          rw [(hs n (o :: out)).mem_iff]
          exact hout way x) hd'
        refine ⟨this.1, this.2.1, fun h => ?_⟩
        obtain ⟨g1, g2⟩ := this.2.2 h
        refine ⟨fun way x g => by have := g1 way x g; omega, fun _ => ?_⟩
        by_cases e : rounds = 0
        · subst e
          obtain ⟨way, x⟩ := o
          obtain ⟨h1, h2⟩ := (hout way x).1 (by simp)
          exact ⟨way, x, h1, by omega⟩
        · obtain ⟨way, x, h1, h2⟩ := g2 e
          exact ⟨way, x, h1, by omega⟩

/-- C120: `find_node` on any places whatsoever, for every outcome of the shuffles, and for a label other than the place's own: it returns a place
under that key with the keys leading to it, as few as possible, if there is one; else it raises `KeyError` if no place below contains itself; else it
never ends. -/
theorem C120_find_node (st : PStore) (h : Spec.PlacesOk st) (r : Nat) (hr : r < st.length)
    (shuffle : Nat → List (List Str × Nat) → List (List Str × Nat)) (hs : ∀ n l, (shuffle n l).Perm l) (label : Str) :
    (label = placeLabel st r → ∀ n, heapFindNode st shuffle n r label = some (.ok none)) ∧
    (label ≠ placeLabel st r →
      ((∃ way x, Spec.FoundAt st r label way x) → ∃ rounds way x, Spec.FoundAt st r label way x ∧
        (∀ way' x', Spec.FoundAt st r label way' x' → way.length ≤ way'.length) ∧ ∀ n, rounds ≤ n → heapFindNode st shuffle n r label = some (.ok (some (x, way)))) ∧
      ((¬ ∃ way x, Spec.FoundAt st r label way x) → ¬ Circular (placeKids st) r →
        ∃ rounds, ∀ n, rounds ≤ n → heapFindNode st shuffle n r label = some (.error .keyError)) ∧
      ((¬ ∃ way x, Spec.FoundAt st r label way x) → Circular (placeKids st) r → ∀ n, heapFindNode st shuffle n r label = none)) := by
  have hmono : ∀ (a b : Nat) (n : Nat) (f : List (List Str × Nat)) res, a ≤ b → heapFindLoop st shuffle label a n f = some res →
      heapFindLoop st shuffle label b n f = some res := by
    intro a
    induction a with
    | zero => intro b n f res _ he; cases he
    | succ a ih =>
      intro b n f res hab he
      obtain ⟨b, rfl⟩ : ∃ k, b = k + 1 := ⟨b - 1, by omega⟩
      simp only [heapFindLoop] at he ⊢
      split at he
      · rename_i e1; exact he
      · rename_i e1; exact he
      · rename_i e1; exact ih _ _ _ _ (by omega) he
  have spec := fun rounds => heapFindLoop_spec h shuffle hs label r rounds 0 0 [([], r)] (by
    intro way x
    simp only [List.mem_singleton, Prod.mk.injEq]
    constructor
    · rintro ⟨rfl, rfl⟩; exact ⟨.here _, rfl⟩
    · rintro ⟨h1, h2⟩
      have := List.length_eq_zero_iff.1 h2
      subst this
      cases h1
      exact ⟨rfl, rfl⟩) (by
    rintro way x ⟨g1, _⟩
    cases way with
    | nil => cases g1
    | cons _ _ => simp)
  refine ⟨fun e n => by simp [heapFindNode, e], fun hne => ⟨?_, ?_, ?_⟩⟩
  · rintro ⟨way, x, hf⟩
    obtain ⟨s1, s2, s3⟩ := spec way.length
    cases he : heapFindLoop st shuffle label way.length 0 [([], r)] with
    | none =>
      have := (s3 he).1 way x hf
      omega
    | some res =>
      cases res with
      | error e => exact absurd hf ((s2 e he).2.1 way x)
      | ok tw =>
        obtain ⟨t, way'⟩ := tw
        obtain ⟨g1, g2⟩ := s1 t way' he
        refine ⟨way.length, way', t, g1, g2, fun n hn => ?_⟩
        simp only [heapFindNode, hne, if_false, hmono _ n 0 _ _ hn he, Option.map_some, Except.map]
  · intro hno hc
    obtain ⟨m, hm⟩ := Circular.bound st.length (fun r _ => (placeKids_ok h r).2) r hr hc
    obtain ⟨s1, s2, s3⟩ := spec (m + 1)
    cases he : heapFindLoop st shuffle label (m + 1) 0 [([], r)] with
    | none =>
      obtain ⟨way, x, h1, h2⟩ := (s3 he).2 (by omega)
      have := hm way x h1
      omega
    | some res =>
      cases res with
      | ok tw => exact absurd ⟨_, _, (s1 tw.1 tw.2 he).1⟩ hno
      | error e =>
        have := (s2 e he).1
        subst this
        refine ⟨m + 1, fun n hn => ?_⟩
        simp only [heapFindNode, hne, if_false, hmono _ n 0 _ _ hn he, Option.map_some, Except.map]
  · intro hno hc n
    obtain ⟨s1, s2, s3⟩ := spec n
    simp only [heapFindNode, hne, if_false]
    cases he : heapFindLoop st shuffle label n 0 [([], r)] with
    | none => rfl
    | some res =>
      cases res with
      | ok tw => exact absurd ⟨_, _, (s1 tw.1 tw.2 he).1⟩ hno
      | error e =>
        obtain ⟨m, hm⟩ := (s2 e he).2.2
        obtain ⟨ks, x, h1, h2⟩ := Circular.paths hc m
        have := hm ks x h1
        omega

end Cjk
