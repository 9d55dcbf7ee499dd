import Verif.Props.PlaceHeap
import Verif.Props.PlaceOutline
/-!
# C120: which programs make places that contain themselves
-/

namespace Cjk
open Py
open Spec (Leads Circular)

/-- No place contains itself, directly or not. -/
def Spec.NoLoops (st : PStore) : Prop := ∀ r < st.length, ¬ Circular (placeKids st) r

theorem placeKids_modify (st : PStore) (p : Nat) (f : PNode → PNode) (r : Nat) :
    placeKids (st.modify p f) r = if r = p then ((st[r]?.map f).map PNode.kids).getD [] else placeKids st r := by
  unfold placeKids
  rw [List.getElem?_modify]
  by_cases e : r = p
  · subst e; simp
  · have : ¬ p = r := fun h => e h.symm
    cases h : st[r]? <;> simp [e, this]

theorem noLoops_iff (st : PStore) (_ : Spec.PlacesOk st) : Spec.NoLoops st ↔ ∀ x ks, Leads (placeKids st) x ks x → ks = [] := by
  constructor
  · intro hn x ks hl
    by_cases hx : x < st.length
    · exact Classical.byContradiction fun hne => hn x hx ⟨[], x, ks, .here x, hne, hl⟩
    · cases hl with
      | here => rfl
      | step hm _ =>
        have : st[x]? = none := List.getElem?_eq_none (by omega)
        simp [placeKids, this] at hm
  · rintro hn r _ ⟨ks, x, loop, _, hne, h2⟩
    exact hne (hn x loop h2)

theorem noLoops_sub {st st' : PStore} (h : Spec.PlacesOk st) (h' : Spec.PlacesOk st') (hs : ∀ r kc, kc ∈ placeKids st' r → kc ∈ placeKids st r)
    (hn : Spec.NoLoops st) : Spec.NoLoops st' := by
  rw [noLoops_iff st' h']
  intro x ks hl
  exact (noLoops_iff st h).1 hn x ks (hl.mono hs)

/-- What an entry that is set does to the loops. -/
theorem noLoops_set {st st' : PStore} (h : Spec.PlacesOk st) (h' : Spec.PlacesOk st') (p c : Nat) (key : Str)
    (he : ∀ r, placeKids st' r = if r = p then Dict.set (placeKids st p) key c else placeKids st r) (hn : Spec.NoLoops st) :
    Spec.NoLoops st' ↔ ¬ ∃ ks, Leads (placeKids st) c ks p := by
  rw [noLoops_iff st' h']
  exact loopless_set p c key he ((noLoops_iff st h).1 hn)

/-- C120: entering `c` in `p` makes a loop exactly if `p` is below `c` (or is `c`) already. -/
theorem C120_append_iff (st : PStore) (h : Spec.PlacesOk st) (hn : Spec.NoLoops st) (p c : Nat) (hp : p < st.length) (hc : c < st.length) :
    (Spec.NoLoops ((PlaceOp.append p c).step st) ↔ ¬ ∃ ks, Leads (placeKids st) c ks p) ∧
    ∀ key, Spec.NoLoops ((PlaceOp.setItem p key c).step st) ↔ ¬ ∃ ks, Leads (placeKids st) c ks p := by
  have he : ∀ (key : Str) r, placeKids (st.modify p (fun n => { n with kids := Dict.set n.kids key c })) r =
      if r = p then Dict.set (placeKids st p) key c else placeKids st r := by
    intro key r
    rw [placeKids_modify]
    split
    · rename_i e
      subst e
      simp [placeKids, List.getElem?_eq_getElem hp]
    · rfl
  exact ⟨noLoops_set h (placesOk_step h (.append p c) ⟨hp, hc⟩) p c _ (he _) hn,
    fun key => noLoops_set h (placesOk_step h (.setItem p key c) ⟨hp, hc⟩) p c _ (he key) hn⟩

/-- An operation that does not enter a place in one below it. -/
def Spec.SafeOp (st : PStore) : PlaceOp → Prop
  | .append p c => ¬ ∃ ks, Leads (placeKids st) c ks p
  | .setItem p _ c => ¬ ∃ ks, Leads (placeKids st) c ks p
  | _ => True

/-- All operations of a program are. -/
def Spec.SafeProgram (st : PStore) : List PlaceOp → Prop
  | [] => True
  | op :: ops => Spec.SafeOp st op ∧ Spec.SafeProgram (op.step st) ops

theorem noLoops_step (st : PStore) (h : Spec.PlacesOk st) (hn : Spec.NoLoops st) (op : PlaceOp) (ho : op.inStore st) :
    Spec.NoLoops (op.step st) ↔ Spec.SafeOp st op := by
  cases op with
  | append p c => exact (C120_append_iff st h hn p c ho.1 ho.2).1
  | setItem p key c => exact (C120_append_iff st h hn p c ho.1 ho.2).2 key
  | new label reading aliases =>
    refine ⟨fun _ => trivial, fun _ => noLoops_sub h (placesOk_step h _ ho) ?_ hn⟩
    intro r kc hm
    simp only [PlaceOp.step] at hm
    split at hm
    · simp only [placeKids] at hm ⊢
      by_cases hlt : r < st.length
      · rwa [List.getElem?_append_left hlt] at hm
      · rw [List.getElem?_append_right (by omega)] at hm
        cases hr : r - st.length with
        | zero => rw [hr] at hm; simp at hm
        | succ i => rw [hr] at hm; simp at hm
    · exact hm
  | delItem p key =>
    refine ⟨fun _ => trivial, fun _ => noLoops_sub h (placesOk_step h _ ho) ?_ hn⟩
    intro r kc hm
    simp only [PlaceOp.step, placeKids_modify] at hm
    split at hm
    · simp only [placeKids]
      cases e : st[r]? with
      | none => rw [e] at hm; simp at hm
      | some n =>
        rw [e] at hm
        exact (Dict.del_sublist _ _).subset hm
    · exact hm
  | relabel p label =>
    refine ⟨fun _ => trivial, fun _ => noLoops_sub h (placesOk_step h _ ho) ?_ hn⟩
    intro r kc hm
    simp only [PlaceOp.step, placeKids_modify] at hm
    split at hm
    · simp only [placeKids]
      cases e : st[r]? with
      | none => rw [e] at hm; simp at hm
      | some n => rw [e] at hm; exact hm
    · exact hm

/-- C120: every walk and every search of every place ends at every moment of a program exactly if the program never enters a place in one below it
(or in itself). -/
theorem C120_programs_iff (ops : List PlaceOp) (h : PlaceOp.allInStore [] ops) :
    (∀ done rest, ops = done ++ rest → ∀ r < (PlaceOp.run [] done).length, ∃ n, (heapWalk (PlaceOp.run [] done) n [(0, r)]).2 = []) ↔ Spec.SafeProgram [] ops := by
  have conv : ∀ (ops : List PlaceOp) (st : PStore), Spec.PlacesOk st → PlaceOp.allInStore st ops → ∀ done rest, ops = done ++ rest →
      Spec.PlacesOk (PlaceOp.run st done) := by
    intro ops
    induction ops with
    | nil =>
      intro st h _ done rest e
      obtain ⟨rfl, rfl⟩ := List.append_eq_nil_iff.1 e.symm
      exact h
    | cons op ops ih =>
      intro st h ho done rest e
      cases done with
      | nil => exact h
      | cons op' done =>
        simp only [List.cons_append, List.cons.injEq] at e
        obtain ⟨rfl, e⟩ := e
        exact ih _ (placesOk_step h op ho.1) ho.2 done rest e
  have key : ∀ (ops : List PlaceOp) (st : PStore), Spec.PlacesOk st → Spec.NoLoops st → PlaceOp.allInStore st ops →
      ((∀ done rest, ops = done ++ rest → Spec.NoLoops (PlaceOp.run st done)) ↔ Spec.SafeProgram st ops) := by
    intro ops
    induction ops with
    | nil =>
      intro st h hn _
      refine ⟨fun _ => trivial, fun _ done rest e => ?_⟩
      obtain ⟨rfl, rfl⟩ := List.append_eq_nil_iff.1 e.symm
      exact hn
    | cons op ops ih =>
      intro st h hn ho
      constructor
      · intro hall
        have h1 : Spec.NoLoops (op.step st) := hall [op] ops rfl
        refine ⟨(noLoops_step st h hn op ho.1).1 h1, (ih _ (placesOk_step h op ho.1) h1 ho.2).1 ?_⟩
        intro done rest e
        exact hall (op :: done) rest (by rw [e]; rfl)
      · rintro ⟨h1, h2⟩ done rest e
        cases done with
        | nil => exact hn
        | cons op' done =>
          simp only [List.cons_append, List.cons.injEq] at e
          obtain ⟨rfl, e⟩ := e
          exact (ih _ (placesOk_step h op ho.1) ((noLoops_step st h hn op ho.1).2 h1) ho.2).2 h2 done rest e
  have ok0 : Spec.PlacesOk [] := by intro n hn; cases hn
  rw [← key ops [] ok0 (by intro r hr; exact absurd hr (by simp)) h]
  constructor
  · intro hall done rest e r hr
    exact (C120_walk_ends_iff _ (conv ops [] ok0 h done rest e) r hr).1.1 (hall done rest e r hr)
  · intro hall done rest e r hr
    exact (C120_walk_ends_iff _ (conv ops [] ok0 h done rest e) r hr).1.2 (hall done rest e r hr)

/-- A program whose operations are safe: a country with a town entered in it. -/
example : PlaceOp.allInStore [] [.new u!"a" none none, .new u!"b" none none, .append 0 1] ∧
    Spec.SafeProgram [] [.new u!"a" none none, .new u!"b" none none, .append 0 1] := by
  refine ⟨⟨trivial, trivial, ⟨by decide, by decide⟩, trivial⟩, trivial, trivial, ?_, trivial⟩
  rintro ⟨ks, h⟩
  generalize e : (1 : Nat) = one at h
  cases h with
  | here => cases e
  | step hm _ => subst e; exact absurd hm (by change _ ∉ ([] : List (Str × Nat)); simp)

/-- C120 (refutation): `p.append(p)` raises nothing, and `p.walk()` never ends. -/
theorem C120_refuted : ∃ ops : List PlaceOp, PlaceOp.allInStore [] ops ∧ (PlaceOp.run [] ops).length = 1 ∧
    (∀ n, (heapWalk (PlaceOp.run [] ops) n [(0, 0)]).1.length = n) ∧
    ∀ shuffle : Nat → List (List Str × Nat) → List (List Str × Nat), (∀ n l, (shuffle n l).Perm l) → ∀ label ≠ u!"a",
      ∀ n, heapFindNode (PlaceOp.run [] ops) shuffle n 0 label = none := by
  have hin : PlaceOp.allInStore [] [.new u!"a" none none, .append 0 0] := ⟨trivial, ⟨by decide, by decide⟩, trivial⟩
  have hok := C120_programs _ hin
  have hrun : PlaceOp.run [] [.new u!"a" none none, .append 0 0] = [⟨u!"a", none, none, [(u!"a", 0)]⟩] := rfl
  have hcirc : Circular (placeKids [⟨u!"a", none, none, [(u!"a", 0)]⟩]) 0 :=
    ⟨[], 0, [u!"a"], .here 0, by simp, .step (by simp [placeKids]) (.here 0)⟩
  refine ⟨_, hin, rfl, ?_, ?_⟩
  · rw [hrun] at hok ⊢
    exact (C120_walk_ends_iff _ hok 0 (by decide)).2 hcirc
  · intro shuffle hs label hl
    rw [hrun] at hok ⊢
    refine ((C120_find_node _ hok 0 (by decide) shuffle hs label).2 (by simpa [placeLabel] using hl)).2.2 ?_ hcirc
    rintro ⟨way, x, g1, g2⟩
    have : ∀ (r : Nat) (ks : List Str) (x : Nat), Leads (placeKids [⟨u!"a", none, none, [(u!"a", 0)]⟩]) r ks x → ∀ k ∈ ks, k = u!"a" := by
      intro r ks x h
      induction h with
      | here => simp
      | @step r c x k ks hm _ ih =>
        intro k' hk'
        rcases List.mem_cons.1 hk' with rfl | hk'
        · cases r with
          | zero => simp only [placeKids, List.getElem?_cons_zero, Option.map_some, Option.getD_some, List.mem_singleton, Prod.mk.injEq] at hm; exact hm.1
          | succ r => simp [placeKids] at hm
        · exact ih k' hk'
    exact hl (this 0 way x g2 label (List.mem_of_getLast? g1))

theorem mem_ofList_val {V : Type} {l : List (Str × V)} {kv : Str × V} (h : kv ∈ Dict.ofList l) : ∃ kv' ∈ l, kv'.2 = kv.2 := by
  have : ∀ (l : List (Str × V)) (d : Dict Str V), kv ∈ Dict.update d l → kv ∈ d ∨ ∃ kv' ∈ l, kv'.2 = kv.2 := by
    intro l
    induction l with
    | nil => intro d h; exact Or.inl h
    | cons x l ih =>
      intro d h
      rcases ih (Dict.set d x.1 x.2) h with h1 | ⟨kv', h1, h2⟩
      · rcases mem_set_dict h1 with h3 | h3
        · exact Or.inl h3
        · exact Or.inr ⟨x, List.mem_cons_self, h3.symm⟩
      · exact Or.inr ⟨kv', List.mem_cons_of_mem _ h1, h2⟩
  rcases this l [] h with h1 | h1
  · cases h1
  · exact h1

theorem entriesOf_up (rs : List Spec.PlaceRec) (i : Nat) (kc : Str × Nat) (h : kc ∈ Spec.entriesOf rs i) : i < kc.2 ∧ kc.2 < rs.length := by
  simp only [Spec.entriesOf, List.mem_filterMap, List.mem_range] at h
  obtain ⟨j, hj, h⟩ := h
  rw [List.getElem?_eq_getElem hj] at h
  simp only at h
  split at h
  · rename_i hc
    obtain ⟨h0, h1⟩ := hc
    obtain rfl := Option.some.inj h
    refine ⟨?_, hj⟩
    simp only [Spec.parentLine] at h1
    split at h1
    · obtain rfl := Option.some.inj h1
      exact Nat.pos_of_ne_zero h0
    · have := List.mem_of_getLast? h1
      simp only [List.mem_filter, List.mem_range, List.length_map, List.length_take] at this
      show i < j
      omega
  · cases h

/-- C120: what is read from a file of places has no loop, however the file looks: every walk and search of every place in it ends. -/
theorem C120_from_file (lines : List Str) (st : PStore) (h : placeFromFile lines = .ok st) : Spec.PlacesOk st ∧ Spec.NoLoops st ∧
    ∀ r < st.length, ∃ n, (heapWalk st n [(0, r)]).2 = [] := by
  have hold : ∃ rs : List Spec.PlaceRec, Spec.HoldsOutline st rs := by
    rcases C91_cases lines with rfl | ⟨line, rest, rfl, ⟨e, h1⟩ | ⟨r, h1, h2⟩⟩ | ⟨rs, h1, h2⟩ | ⟨pre, rs, a, bad, rest, e, rfl, h1, h2, h3, h4⟩
    · rw [C91_first_line.1] at h; cases h
    · rw [C91_first_line.2.1 line rest e h1] at h; cases h
    · rw [C91_first_line.2.2 line rest r h1 h2] at h; cases h
    · obtain ⟨st', h3, h4⟩ := C91_outline lines rs h1 h2
      obtain rfl := Except.ok.inj (h.symm.trans h3)
      exact ⟨rs, h4⟩
    · rw [C91_error pre rs h1 h2 a h3 bad rest e h4] at h; cases h
  obtain ⟨rs, hlen, hold⟩ := hold
  have up : ∀ r kc, kc ∈ placeKids st r → r < kc.2 ∧ kc.2 < st.length := by
    intro r kc hm
    by_cases hr : r < rs.length
    · simp only [placeKids, hold r rs[r] (List.getElem?_eq_getElem hr), Option.map_some, Option.getD_some] at hm
      rw [hlen]
      obtain ⟨kc', h1, h2⟩ := mem_ofList_val hm
      rw [← h2]
      exact entriesOf_up rs r kc' h1
    · rw [placeKids, List.getElem?_eq_none (by omega)] at hm
      simp at hm
  have hok : Spec.PlacesOk st := by
    intro n hn
    obtain ⟨i, hi, rfl⟩ := List.getElem_of_mem hn
    have e : st[i] = ⟨(rs[i]'(by omega)).2.1, (rs[i]'(by omega)).2.2.1, (rs[i]'(by omega)).2.2.2, Dict.ofList (Spec.entriesOf rs i)⟩ := by
      have := hold i (rs[i]'(by omega)) (List.getElem?_eq_getElem (by omega))
      rw [List.getElem?_eq_getElem hi] at this
      exact Option.some.inj this
    refine ⟨by rw [e]; exact Dict.WF_ofList _, ?_⟩
    intro kp hkp
    refine (up i kp ?_).2
    simpa [placeKids, List.getElem?_eq_getElem hi] using hkp
  have hn : Spec.NoLoops st := by
    rw [noLoops_iff st hok]
    have : ∀ (a b : Nat) (ks : List Str), Leads (placeKids st) a ks b → a ≤ b ∧ (ks ≠ [] → a < b) := by
      intro a b ks hl
      induction hl with
      | here => simp
      | step hm _ ih =>
        have := (up _ _ hm).1
        simp only at this
        exact ⟨by omega, fun _ => by omega⟩
    intro x ks hl
    exact Classical.byContradiction fun hne => absurd ((this x x ks hl).2 hne) (by omega)
  exact ⟨hok, hn, fun r hr => (C120_walk_ends_iff st hok r hr).1.2 (hn r hr)⟩

end Cjk
