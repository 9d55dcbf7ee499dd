import Verif.Spec.ReaderViews
import Verif.Model.Dates
/-!
# C153: what a reader hands out, and files that are assigned later
-/

namespace Cjk
open Py

variable {V : Type} (ld : Rows → Except PyErr (PyMapping V))

/-! ### One step -/

theorem ViewWorld.turn_keeps (w : ViewWorld V) (i : Nat) (kind : ViewKind) (d n : Nat) :
    (w.turn i kind d n).1.dicts = w.dicts ∧ (w.turn i kind d n).1.cur = w.cur ∧ ∃ o, (w.turn i kind d n).1.objs = w.objs.set i o := by
  unfold ViewWorld.turn
  split
  · exact ⟨rfl, rfl, _, rfl⟩
  · cases kind
    · exact ⟨rfl, rfl, _, rfl⟩
    · simp only
      split <;> exact ⟨rfl, rfl, _, rfl⟩
    · simp only
      split <;> exact ⟨rfl, rfl, _, rfl⟩

/-- A state in which the reader's dictionary is in the store. -/
def ViewWorld.Ok (w : ViewWorld V) : Prop := w.cur < w.dicts.length

/-- `w'` comes after `w`: the dictionaries of `w` are as they were. -/
structure ViewsAfter (w w' : ViewWorld V) : Prop where
  dicts : ∃ more, w'.dicts = w.dicts ++ more
  ok : w'.Ok
  objs : w.objs.length ≤ w'.objs.length

theorem ViewsAfter.at {w w' : ViewWorld V} (h : ViewsAfter w w') {d : Nat} (hd : d < w.dicts.length) : w'.at d = w.at d := by
  obtain ⟨more, hm⟩ := h.dicts
  unfold ViewWorld.at
  rw [hm]
  simp only [List.getD_eq_getElem?_getD]
  rw [List.getElem?_append_left hd]

theorem step_shape (w : ViewWorld V) (op : ViewOp) :
    ((∀ rows, op ≠ .load rows) → (w.step ld op).1.dicts = w.dicts ∧ (w.step ld op).1.cur = w.cur) ∧
    (∃ os, (w.step ld op).1.objs = os ∧ w.objs.length ≤ os.length) := by
  have put : ∀ i o, ((w.put i o).objs).length = w.objs.length := by intro i o; simp [ViewWorld.put]
  have give : ∀ o, w.objs.length ≤ ((w.give o).objs).length := by intro o; simp [ViewWorld.give]
  cases op with
  | load rows =>
    refine ⟨fun h => absurd rfl (h rows), _, rfl, ?_⟩
    simp only [ViewWorld.step]
    split <;> exact Nat.le_refl _
  | takeIds => exact ⟨fun _ => ⟨rfl, rfl⟩, _, rfl, give _⟩
  | iter => exact ⟨fun _ => ⟨rfl, rfl⟩, _, rfl, give _⟩
  | iterIds i =>
    simp only [ViewWorld.step]
    split <;> exact ⟨fun _ => ⟨rfl, rfl⟩, _, rfl, give _⟩
  | iterView kind => exact ⟨fun _ => ⟨rfl, rfl⟩, _, rfl, give _⟩
  | next i =>
    simp only [ViewWorld.step]
    split
    · exact ⟨fun _ => ⟨rfl, rfl⟩, _, rfl, Nat.le_refl _⟩
    · rename_i o _
      cases o with
      | ids d => exact ⟨fun _ => ⟨rfl, rfl⟩, _, rfl, Nat.le_refl _⟩
      | dictIter d n =>
        simp only [ViewWorld.ask]
        split
        · exact ⟨fun _ => ⟨rfl, rfl⟩, _, rfl, Nat.le_refl _⟩
        · exact ⟨fun _ => ⟨rfl, rfl⟩, _, rfl, Nat.le_of_eq (put _ _).symm⟩
      | fresh kind =>
        obtain ⟨h1, h2, o, h3⟩ := w.turn_keeps i kind w.cur 0
        exact ⟨fun _ => ⟨h1, h2⟩, _, rfl, by simp only [ViewWorld.ask]; rw [h3]; simp⟩
      | loop kind d n =>
        obtain ⟨h1, h2, o, h3⟩ := w.turn_keeps i kind d n
        exact ⟨fun _ => ⟨h1, h2⟩, _, rfl, by simp only [ViewWorld.ask]; rw [h3]; simp⟩
      | ended => exact ⟨fun _ => ⟨rfl, rfl⟩, _, rfl, Nat.le_refl _⟩
  | list i =>
    simp only [ViewWorld.step]
    split <;> exact ⟨fun _ => ⟨rfl, rfl⟩, _, rfl, Nat.le_refl _⟩
  | get k =>
    simp only [ViewWorld.step]
    split <;> exact ⟨fun _ => ⟨rfl, rfl⟩, _, rfl, Nat.le_refl _⟩
  | inKeys k =>
    simp only [ViewWorld.step]
    split <;> exact ⟨fun _ => ⟨rfl, rfl⟩, _, rfl, Nat.le_refl _⟩
  | len => exact ⟨fun _ => ⟨rfl, rfl⟩, _, rfl, Nat.le_refl _⟩

theorem step_after (w : ViewWorld V) (hw : w.Ok) (op : ViewOp) : ViewsAfter w (w.step ld op).1 := by
  obtain ⟨h1, _, rfl, h2⟩ := step_shape ld w op
  by_cases hl : ∀ rows, op ≠ .load rows
  · obtain ⟨hd, hc⟩ := h1 hl
    exact ⟨⟨[], by rw [hd, List.append_nil]⟩, by unfold ViewWorld.Ok; rw [hd, hc]; exact hw, h2⟩
  · obtain ⟨rows, hl⟩ := Classical.not_forall.1 hl
    have hl := Classical.not_not.1 hl
    subst hl
    simp only [ViewWorld.step] at h2 ⊢
    cases ld rows with
    | error e => exact ⟨⟨[], by simp⟩, hw, Nat.le_refl _⟩
    | ok m => exact ⟨⟨[m], rfl⟩, by simp [ViewWorld.Ok], Nat.le_refl _⟩

/-- The data after one step. -/
def held1 (m : PyMapping V) : ViewOp → PyMapping V
  | .load rows => (ld rows).toOption.getD m
  | _ => m

theorem step_reader (w : ViewWorld V) (hw : w.Ok) (op : ViewOp) : (w.step ld op).1.reader = held1 ld w.reader op := by
  by_cases hl : ∀ rows, op ≠ .load rows
  · obtain ⟨hd, hc⟩ := (step_shape ld w op).1 hl
    have : held1 ld w.reader op = w.reader := by
      cases op with
      | load rows => exact absurd rfl (hl rows)
      | _ => rfl
    rw [this]
    unfold ViewWorld.reader ViewWorld.at
    rw [hd, hc]
  · obtain ⟨rows, hl⟩ := Classical.not_forall.1 hl
    have hl := Classical.not_not.1 hl
    subst hl
    simp only [ViewWorld.step, held1]
    cases ld rows with
    | error e => rfl
    | ok m => simp [ViewWorld.reader, ViewWorld.at, Except.toOption]

theorem holding_cons (m : PyMapping V) (op : ViewOp) (ops : List ViewOp) : Spec.holding ld m (op :: ops) = Spec.holding ld (held1 ld m op) ops := by
  cases op <;> rfl

/-! ### Programs -/

theorem final_after (w : ViewWorld V) (hw : w.Ok) (ops : List ViewOp) : ViewsAfter w (w.final ld ops) ∧ (w.final ld ops).reader = Spec.holding ld w.reader ops := by
  induction ops generalizing w with
  | nil => exact ⟨⟨⟨[], (List.append_nil _).symm⟩, hw, Nat.le_refl _⟩, rfl⟩
  | cons op ops ih =>
    have h1 := step_after ld w hw op
    obtain ⟨h2, h3⟩ := ih (w.step ld op).1 h1.ok
    refine ⟨⟨?_, h2.ok, Nat.le_trans h1.objs h2.objs⟩, ?_⟩
    · obtain ⟨a, ha⟩ := h1.dicts
      obtain ⟨b, hb⟩ := h2.dicts
      exact ⟨a ++ b, by show (ViewWorld.final ld _ ops).dicts = _; rw [hb, ha, List.append_assoc]⟩
    · rw [holding_cons, ← step_reader ld w hw]
      exact h3

theorem viewsRun_append (w : ViewWorld V) (pre post : List ViewOp) : w.run ld (pre ++ post) = w.run ld pre ++ (w.final ld pre).run ld post := by
  induction pre generalizing w with
  | nil => rfl
  | cons op pre ih => simp only [List.cons_append, ViewWorld.run, ih]; rfl

theorem final_append (w : ViewWorld V) (pre post : List ViewOp) : w.final ld (pre ++ post) = (w.final ld pre).final ld post := by
  induction pre generalizing w with
  | nil => rfl
  | cons op pre ih => exact ih _

theorem start_ok (m : PyMapping V) : (ViewWorld.start m).Ok := by simp [ViewWorld.Ok, ViewWorld.start]

theorem start_reader (m : PyMapping V) : (ViewWorld.start m).reader = m := rfl

/-- The operation hands out an object. -/
def gives : ViewOp → Bool
  | .takeIds => true
  | .iter => true
  | .iterIds _ => true
  | .iterView _ => true
  | _ => false

theorem viewsTaken_cons (op : ViewOp) (ops : List ViewOp) : Spec.taken (op :: ops) = (if gives op then 1 else 0) + Spec.taken ops := by
  unfold Spec.taken
  rw [List.countP_cons, Nat.add_comm]
  cases op <;> rfl

theorem step_count (w : ViewWorld V) (op : ViewOp) : (w.step ld op).1.objs.length = w.objs.length + (if gives op then 1 else 0) := by
  cases op with
  | load rows => simp only [ViewWorld.step]; split <;> rfl
  | takeIds => simp [ViewWorld.step, ViewWorld.give, gives]
  | iter => simp [ViewWorld.step, ViewWorld.give, gives]
  | iterIds i => simp only [ViewWorld.step]; split <;> simp [ViewWorld.give, gives]
  | iterView kind => simp [ViewWorld.step, ViewWorld.give, gives]
  | next i =>
    simp only [ViewWorld.step]
    split
    · rfl
    · rename_i o _
      cases o with
      | ids d => rfl
      | dictIter d n => simp only [ViewWorld.ask]; split <;> simp [ViewWorld.put, gives]
      | fresh kind => obtain ⟨_, _, o, h⟩ := w.turn_keeps i kind w.cur 0; simp only [ViewWorld.ask]; rw [h]; simp [gives]
      | loop kind d n => obtain ⟨_, _, o, h⟩ := w.turn_keeps i kind d n; simp only [ViewWorld.ask]; rw [h]; simp [gives]
      | ended => rfl
  | list i => simp only [ViewWorld.step]; split <;> rfl
  | get k => simp only [ViewWorld.step]; split <;> rfl
  | inKeys k => simp only [ViewWorld.step]; split <;> rfl
  | len => rfl

theorem final_count (w : ViewWorld V) (ops : List ViewOp) : (w.final ld ops).objs.length = w.objs.length + Spec.taken ops := by
  induction ops generalizing w with
  | nil => rfl
  | cons op ops ih =>
    show (ViewWorld.final ld _ ops).objs.length = _
    rw [ih, step_count, viewsTaken_cons, Nat.add_assoc]

/-- A step that does not ask the i-th object leaves it. -/
theorem step_other (w : ViewWorld V) (op : ViewOp) (i : Nat) (hi : i < w.objs.length) (hn : op ≠ .next i) : (w.step ld op).1.objs[i]? = w.objs[i]? := by
  have give : ∀ o, (w.give o).objs[i]? = w.objs[i]? := by intro o; simp [ViewWorld.give, List.getElem?_append_left hi]
  cases op with
  | load rows => simp only [ViewWorld.step]; split <;> rfl
  | takeIds => exact give _
  | iter => exact give _
  | iterIds j => simp only [ViewWorld.step]; split <;> exact give _
  | iterView kind => exact give _
  | next j =>
    have hj : j ≠ i := by rintro rfl; exact hn rfl
    simp only [ViewWorld.step]
    split
    · rfl
    · rename_i o _
      cases o with
      | ids d => rfl
      | dictIter d n =>
        simp only [ViewWorld.ask]
        split
        · rfl
        · simp [ViewWorld.put, List.getElem?_set_ne hj]
      | fresh kind => obtain ⟨_, _, o, h⟩ := w.turn_keeps j kind w.cur 0; simp only [ViewWorld.ask]; rw [h, List.getElem?_set_ne hj]
      | loop kind d n => obtain ⟨_, _, o, h⟩ := w.turn_keeps j kind d n; simp only [ViewWorld.ask]; rw [h, List.getElem?_set_ne hj]
      | ended => rfl
  | list j => simp only [ViewWorld.step]; split <;> rfl
  | get k => simp only [ViewWorld.step]; split <;> rfl
  | inKeys k => simp only [ViewWorld.step]; split <;> rfl
  | len => rfl

theorem shownBy_other (i : Nat) (op : ViewOp) (s : ViewSeen V) (es : List (ViewOp × ViewSeen V)) (hn : op ≠ .next i) :
    Spec.shownBy i ((op, s) :: es) = Spec.shownBy i es := by
  cases op with
  | next j =>
    have hj : j ≠ i := by rintro rfl; exact hn rfl
    simp [Spec.shownBy, hj]
  | _ => rfl

theorem heldAtAsks_other (i : Nat) (m : PyMapping V) (op : ViewOp) (ops : List ViewOp) (hn : op ≠ .next i) :
    Spec.heldAtAsks ld i m (op :: ops) = Spec.heldAtAsks ld i (held1 ld m op) ops := by
  cases op with
  | next j =>
    have hj : j ≠ i := by rintro rfl; exact hn rfl
    simp [Spec.heldAtAsks, hj, held1]
  | _ => rfl

theorem heldAtAsks_next (i : Nat) (m : PyMapping V) (ops : List ViewOp) :
    Spec.heldAtAsks ld i m (.next i :: ops) = m :: Spec.heldAtAsks ld i m ops := by
  simp [Spec.heldAtAsks]

theorem shownBy_next (i : Nat) (s : ViewSeen V) (es : List (ViewOp × ViewSeen V)) : Spec.shownBy i ((.next i, s) :: es) = s :: Spec.shownBy i es := by
  simp [Spec.shownBy]

/-! ### Asking an object again and again -/

theorem shown_ended (w : ViewWorld V) (i : Nat) (hi : w.objs[i]? = some .ended) (ops : List ViewOp) (m : PyMapping V) :
    Spec.shownBy i (w.run ld ops) = (Spec.heldAtAsks ld i m ops).map (fun _ => .stop) := by
  have hlt : i < w.objs.length := (List.getElem?_eq_some_iff.1 hi).1
  induction ops generalizing w m with
  | nil => rfl
  | cons op ops ih =>
    by_cases hn : op = .next i
    · subst hn
      have hs : w.step ld (.next i) = (w, .stop) := by simp only [ViewWorld.step, hi, ViewWorld.ask]
      rw [heldAtAsks_next, ViewWorld.run, hs, shownBy_next, List.map_cons]
      congr 1
      exact ih w hi m hlt
    · rw [ViewWorld.run, shownBy_other _ _ _ _ hn, heldAtAsks_other ld _ _ _ _ hn]
      refine ih _ ?_ _ ?_
      · rw [step_other ld w op i hlt hn]; exact hi
      · rw [step_count]; omega

theorem idsShown_succ_cons (n : Nat) (k : Int) (ks : List Int) : Spec.idsShown (V := V) (n + 1) (k :: ks) = .key k :: Spec.idsShown n ks := by
  unfold Spec.idsShown
  simp only [List.map_cons, List.cons_append, List.take_succ_cons, List.cons.injEq, true_and]
  rw [List.replicate_succ', ← List.append_assoc, List.take_append_of_le_length (by simp)]

theorem idsShown_nil (n : Nat) : Spec.idsShown (V := V) n [] = List.replicate n .stop := by
  simp [Spec.idsShown]

theorem drop_cons_of_get {l : List Int} {n : Nat} {k : Int} (h : l[n]? = some k) : l.drop n = k :: l.drop (n + 1) := by
  obtain ⟨hn, hk⟩ := List.getElem?_eq_some_iff.1 h
  rw [List.drop_eq_getElem_cons hn, hk]

theorem shown_dictIter (w : ViewWorld V) (hw : w.Ok) (i d n : Nat) (hi : w.objs[i]? = some (.dictIter d n)) (hd : d < w.dicts.length) (ops : List ViewOp)
    (m : PyMapping V) :
    Spec.shownBy i (w.run ld ops) = Spec.idsShown (Spec.heldAtAsks ld i m ops).length ((w.at d).iter.drop n) := by
  have hlt : i < w.objs.length := (List.getElem?_eq_some_iff.1 hi).1
  induction ops generalizing w m n with
  | nil => simp [Spec.heldAtAsks, ViewWorld.run, Spec.shownBy, Spec.idsShown]
  | cons op ops ih =>
    by_cases hn : op = .next i
    · subst hn
      rw [heldAtAsks_next, ViewWorld.run, shownBy_next, List.length_cons]
      cases hk : (w.at d).iter[n]? with
      | none =>
        have hs : w.step ld (.next i) = (w, .stop) := by simp only [ViewWorld.step, hi, ViewWorld.ask, hk]
        have hdr : (w.at d).iter.drop n = [] := List.drop_eq_nil_of_le (List.getElem?_eq_none_iff.1 hk)
        rw [hs, ih w hw n hi hd m hlt, hdr, idsShown_nil, idsShown_nil, List.replicate_succ]
      | some k =>
        have hs : w.step ld (.next i) = (w.put i (.dictIter d (n + 1)), .key k) := by simp only [ViewWorld.step, hi, ViewWorld.ask, hk]
        rw [hs, drop_cons_of_get hk, idsShown_succ_cons]
        congr 1
        exact ih (w.put i (.dictIter d (n + 1))) hw (n + 1) (by simp [ViewWorld.put, hlt]) hd m (by simpa [ViewWorld.put] using hlt)
    · rw [ViewWorld.run, shownBy_other _ _ _ _ hn, heldAtAsks_other ld _ _ _ _ hn]
      have ha := step_after ld w hw op
      rw [← ha.at hd]
      refine ih _ ha.ok n ?_ ?_ _ ?_
      · rw [step_other ld w op i hlt hn]; exact hi
      · obtain ⟨more, hm⟩ := ha.dicts
        rw [hm, List.length_append]; omega
      · rw [step_count]; omega

theorem shown_keysLoop (w : ViewWorld V) (hw : w.Ok) (i d n : Nat) (hi : w.objs[i]? = some (.loop .keys d n)) (hd : d < w.dicts.length) (ops : List ViewOp)
    (m : PyMapping V) :
    Spec.shownBy i (w.run ld ops) = Spec.idsShown (Spec.heldAtAsks ld i m ops).length ((w.at d).iter.drop n) := by
  have hlt : i < w.objs.length := (List.getElem?_eq_some_iff.1 hi).1
  induction ops generalizing w m n with
  | nil => simp [Spec.heldAtAsks, ViewWorld.run, Spec.shownBy, Spec.idsShown]
  | cons op ops ih =>
    by_cases hn : op = .next i
    · subst hn
      rw [heldAtAsks_next, ViewWorld.run, shownBy_next, List.length_cons]
      cases hk : (w.at d).iter[n]? with
      | none =>
        have hs : w.step ld (.next i) = (w.put i .ended, .stop) := by simp only [ViewWorld.step, hi, ViewWorld.ask, ViewWorld.turn, hk]
        have hdr : (w.at d).iter.drop n = [] := List.drop_eq_nil_of_le (List.getElem?_eq_none_iff.1 hk)
        rw [hs, shown_ended ld _ i (by simp [ViewWorld.put, hlt]) ops m, hdr, idsShown_nil, List.replicate_succ]
        simp [List.map_const']
      | some k =>
        have hs : w.step ld (.next i) = (w.put i (.loop .keys d (n + 1)), .key k) := by simp only [ViewWorld.step, hi, ViewWorld.ask, ViewWorld.turn, hk]
        rw [hs, drop_cons_of_get hk, idsShown_succ_cons]
        congr 1
        exact ih (w.put i (.loop .keys d (n + 1))) hw (n + 1) (by simp [ViewWorld.put, hlt]) hd m (by simpa [ViewWorld.put] using hlt)
    · rw [ViewWorld.run, shownBy_other _ _ _ _ hn, heldAtAsks_other ld _ _ _ _ hn]
      have ha := step_after ld w hw op
      rw [← ha.at hd]
      refine ih _ ha.ok n ?_ ?_ _ ?_
      · rw [step_other ld w op i hlt hn]; exact hi
      · obtain ⟨more, hm⟩ := ha.dicts
        rw [hm, List.length_append]; omega
      · rw [step_count]; omega

theorem shown_pairsLoop (kind : ViewKind) (hkind : kind ≠ .keys) (w : ViewWorld V) (hw : w.Ok) (i d n : Nat) (hi : w.objs[i]? = some (.loop kind d n))
    (hd : d < w.dicts.length) (ops : List ViewOp) :
    Spec.shownBy i (w.run ld ops) = Spec.pairsShown (Spec.showPair kind) ((w.at d).iter.drop n) (Spec.heldAtAsks ld i w.reader ops) := by
  have hlt : i < w.objs.length := (List.getElem?_eq_some_iff.1 hi).1
  induction ops generalizing w n with
  | nil => simp [Spec.heldAtAsks, ViewWorld.run, Spec.shownBy, Spec.pairsShown]
  | cons op ops ih =>
    by_cases hn : op = .next i
    · subst hn
      rw [heldAtAsks_next, ViewWorld.run, shownBy_next]
      cases hk : (w.at d).iter[n]? with
      | none =>
        have hs : w.step ld (.next i) = (w.put i .ended, .stop) := by simp only [ViewWorld.step, hi, ViewWorld.ask, ViewWorld.turn, hk]
        have hdr : (w.at d).iter.drop n = [] := List.drop_eq_nil_of_le (List.getElem?_eq_none_iff.1 hk)
        rw [hs, shown_ended ld _ i (by simp [ViewWorld.put, hlt]) ops w.reader, hdr]
        rfl
      | some k =>
        rw [drop_cons_of_get hk]
        cases hg : w.reader.getItem k with
        | error e =>
          have hs : w.step ld (.next i) = (w.put i .ended, .raised e) := by
            cases kind with
            | keys => exact absurd rfl hkind
            | items => simp only [ViewWorld.step, hi, ViewWorld.ask, ViewWorld.turn, hk, hg]
            | values => simp only [ViewWorld.step, hi, ViewWorld.ask, ViewWorld.turn, hk, hg]
          rw [hs, shown_ended ld _ i (by simp [ViewWorld.put, hlt]) ops w.reader]
          simp only [Spec.pairsShown, hg]
        | ok v =>
          have hs : w.step ld (.next i) = (w.put i (.loop kind d (n + 1)), Spec.showPair kind k v) := by
            cases kind with
            | keys => exact absurd rfl hkind
            | items => simp only [ViewWorld.step, hi, ViewWorld.ask, ViewWorld.turn, hk, hg, Spec.showPair]
            | values => simp only [ViewWorld.step, hi, ViewWorld.ask, ViewWorld.turn, hk, hg, Spec.showPair]
          rw [hs]
          simp only [Spec.pairsShown, hg]
          congr 1
          exact ih (w.put i (.loop kind d (n + 1))) hw (n + 1) (by simp [ViewWorld.put, hlt]) hd (by simpa [ViewWorld.put] using hlt)
    · rw [ViewWorld.run, shownBy_other _ _ _ _ hn, heldAtAsks_other ld _ _ _ _ hn]
      have ha := step_after ld w hw op
      rw [← ha.at hd, ← step_reader ld w hw op]
      refine ih _ ha.ok n ?_ ?_ ?_
      · rw [step_other ld w op i hlt hn]; exact hi
      · obtain ⟨more, hm⟩ := ha.dicts
        rw [hm, List.length_append]; omega
      · rw [step_count]; omega

/-- An iterator of a view that has not been asked is one at the beginning of the dictionary that the reader holds when it is. -/
theorem shown_fresh (kind : ViewKind) (w : ViewWorld V) (hw : w.Ok) (i : Nat) (hi : w.objs[i]? = some (.fresh kind)) (ops : List ViewOp) :
    (Spec.heldAtAsks ld i w.reader ops = [] ∧ Spec.shownBy i (w.run ld ops) = []) ∨
    ∃ m ms, Spec.heldAtAsks ld i w.reader ops = m :: ms ∧
      Spec.shownBy i (w.run ld ops) =
        if kind = .keys then Spec.idsShown (m :: ms).length m.iter else Spec.pairsShown (Spec.showPair kind) m.iter (m :: ms) := by
  have hlt : i < w.objs.length := (List.getElem?_eq_some_iff.1 hi).1
  induction ops generalizing w with
  | nil => exact Or.inl ⟨rfl, rfl⟩
  | cons op ops ih =>
    by_cases hn : op = .next i
    · subst hn
      refine Or.inr ⟨w.reader, _, heldAtAsks_next ld _ _ _, ?_⟩
      have hsame : w.step ld (.next i) = (w.put i (.loop kind w.cur 0)).step ld (.next i) := by
        have h2 : (w.put i (.loop kind w.cur 0)).objs[i]? = some (.loop kind w.cur 0) := by simp [ViewWorld.put, hlt]
        simp only [ViewWorld.step, hi, h2, ViewWorld.ask]
        have hp : ∀ o, (w.put i (.loop kind w.cur 0)).put i o = w.put i o := by intro o; simp [ViewWorld.put]
        unfold ViewWorld.turn
        simp only [hp]
        rfl
      have hrun : w.run ld (.next i :: ops) = (w.put i (.loop kind w.cur 0)).run ld (.next i :: ops) := by
        rw [ViewWorld.run, ViewWorld.run, ← hsame]
      have h2 : (w.put i (.loop kind w.cur 0)).objs[i]? = some (.loop kind w.cur 0) := by simp [ViewWorld.put, hlt]
      rw [hrun]
      by_cases hk : kind = .keys
      · subst hk
        rw [if_pos rfl]
        have := shown_keysLoop ld (w.put i (.loop .keys w.cur 0)) hw i w.cur 0 h2 hw (.next i :: ops) w.reader
        rw [this, heldAtAsks_next]
        rfl
      · rw [if_neg hk]
        have := shown_pairsLoop ld kind hk (w.put i (.loop kind w.cur 0)) hw i w.cur 0 h2 hw (.next i :: ops)
        rw [this, heldAtAsks_next]
        rfl
    · rw [ViewWorld.run, shownBy_other _ _ _ _ hn, heldAtAsks_other ld _ _ _ _ hn]
      rw [← step_reader ld w hw op]
      refine ih _ (step_after ld w hw op).ok ?_ ?_
      · rw [step_other ld w op i hlt hn]; exact hi
      · rw [step_count]; omega

theorem heldAtAsks_length (i : Nat) (m : PyMapping V) (ops : List ViewOp) : (Spec.heldAtAsks ld i m ops).length = Spec.askedTimes i ops := by
  unfold Spec.askedTimes
  induction ops generalizing m with
  | nil => rfl
  | cons op ops ih =>
    rw [List.countP_cons]
    cases op with
    | next j =>
      by_cases hj : j = i
      · simp [Spec.heldAtAsks, hj, ih]
      · simp [Spec.heldAtAsks, hj, ih]
    | load rows => simpa [Spec.heldAtAsks] using ih _
    | _ => simpa [Spec.heldAtAsks] using ih m

/-! ### The theorems -/

/-- C153: lookups, and views `keys()`, `items()` and `values()` taken at any time, answer for the data of the last file that could be read. -/
theorem C153_live (m : PyMapping V) (ops : List ViewOp) (k : Int) :
    (((ViewWorld.start m).final ld ops).step ld (.get k)).2 =
      (match (Spec.holding ld m ops).getItem k with | .ok v => .value v | .error e => .raised e) ∧
    (((ViewWorld.start m).final ld ops).step ld (.inKeys k)).2 =
      (match (Spec.holding ld m ops).contains k with | .ok b => .truth b | .error e => .raised e) ∧
    (((ViewWorld.start m).final ld ops).step ld .len).2 = .number (Spec.holding ld m ops).len := by
  have h := (final_after ld (ViewWorld.start m) (start_ok m) ops).2
  rw [start_reader] at h
  rw [← h]
  generalize (ViewWorld.start m).final ld ops = w
  refine ⟨?_, ?_, rfl⟩
  · simp only [ViewWorld.step]; cases w.reader.getItem k <;> rfl
  · simp only [ViewWorld.step]; cases w.reader.contains k <;> rfl

theorem ids_object (m : PyMapping V) (pre post : List ViewOp) :
    ∃ d, d < ((ViewWorld.start m).final ld (pre ++ .takeIds :: post)).dicts.length ∧
      ((ViewWorld.start m).final ld (pre ++ .takeIds :: post)).objs[Spec.taken pre]? = some (.ids d) ∧
      (((ViewWorld.start m).final ld (pre ++ .takeIds :: post)).at d).iter = (Spec.holding ld m pre).iter := by
  obtain ⟨h1, h2⟩ := final_after ld (ViewWorld.start m) (start_ok m) pre
  have hc := final_count ld (ViewWorld.start m) pre
  rw [final_append]
  rw [start_reader] at h2
  generalize (ViewWorld.start m).final ld pre = w at *
  have hc : w.objs.length = Spec.taken pre := by rw [hc]; simp [ViewWorld.start]
  rw [← hc, ← h2]
  have hobj : ∀ (w' : ViewWorld V) (ops : List ViewOp), w'.objs[w.objs.length]? = some (.ids w.cur) →
      (w'.final ld ops).objs[w.objs.length]? = some (.ids w.cur) := by
    intro w' ops
    induction ops generalizing w' with
    | nil => exact fun h => h
    | cons op ops ih =>
      intro h
      refine ih _ ?_
      have hlt := (List.getElem?_eq_some_iff.1 h).1
      by_cases hn : op = .next w.objs.length
      · subst hn
        simp only [ViewWorld.step, h, ViewWorld.ask]
      · rw [step_other ld w' op _ hlt hn]; exact h
  have ho := hobj (w.give (.ids w.cur)) post (by simp [ViewWorld.give])
  have ha := (final_after ld (w.give (.ids w.cur)) h1.ok post).1
  refine ⟨w.cur, ?_, ho, ?_⟩
  · show _ < ((w.give (.ids w.cur)).final ld post).dicts.length
    obtain ⟨more, hm⟩ := ha.dicts
    rw [hm, List.length_append]
    exact Nat.lt_of_lt_of_le h1.ok (Nat.le_add_right _ _)
  · show (((w.give (.ids w.cur)).final ld post).at w.cur).iter = _
    rw [ha.at (d := w.cur) h1.ok]
    rfl

/-- C153: `sentence_ids` goes on to show the ids of the file that was in force when it was taken, whatever is assigned later. -/
theorem C153_ids (m : PyMapping V) (pre post : List ViewOp) :
    (((ViewWorld.start m).final ld (pre ++ .takeIds :: post)).step ld (.list (Spec.taken pre))).2 = .ids (Spec.holding ld m pre).iter := by
  obtain ⟨d, _, ho, hit⟩ := ids_object ld m pre post
  simp only [ViewWorld.step, ho, hit]

/-- C153: an iterator from `iter(reader)` gives the ids of the file that was in force when it was made, each once, and then ends. -/
theorem C153_iterator (m : PyMapping V) (pre post : List ViewOp) :
    Spec.shownBy (Spec.taken pre) (((ViewWorld.start m).final ld (pre ++ [.iter])).run ld post) =
      Spec.idsShown (Spec.askedTimes (Spec.taken pre) post) (Spec.holding ld m pre).iter := by
  obtain ⟨h1, h2⟩ := final_after ld (ViewWorld.start m) (start_ok m) pre
  have hc := final_count ld (ViewWorld.start m) pre
  rw [final_append]
  rw [start_reader] at h2
  generalize (ViewWorld.start m).final ld pre = w at *
  have hc : w.objs.length = Spec.taken pre := by rw [hc]; simp [ViewWorld.start]
  rw [← hc, ← h2]
  rw [← heldAtAsks_length ld w.objs.length w.reader]
  exact shown_dictIter ld (w.give (.dictIter w.cur 0)) h1.ok w.objs.length w.cur 0 (by simp [ViewWorld.give]) h1.ok post w.reader

/-- C153: an iterator of a view `keys()` gives the ids of the file that is in force when it is first asked. -/
theorem C153_keys (m : PyMapping V) (pre post : List ViewOp) :
    Spec.shownBy (Spec.taken pre) (((ViewWorld.start m).final ld (pre ++ [.iterView .keys])).run ld post) =
      match Spec.heldAtAsks ld (Spec.taken pre) (Spec.holding ld m pre) post with
      | [] => []
      | m' :: ms => Spec.idsShown (m' :: ms).length m'.iter := by
  obtain ⟨h1, h2⟩ := final_after ld (ViewWorld.start m) (start_ok m) pre
  have hc := final_count ld (ViewWorld.start m) pre
  rw [final_append]
  rw [start_reader] at h2
  generalize (ViewWorld.start m).final ld pre = w at *
  have hc : w.objs.length = Spec.taken pre := by rw [hc]; simp [ViewWorld.start]
  rw [← hc, ← h2]
  have := shown_fresh ld .keys (w.give (.fresh .keys)) h1.ok w.objs.length (by simp [ViewWorld.give]) post
  rw [show (w.give (ViewObj.fresh .keys)).reader = w.reader from rfl] at this
  rcases this with ⟨h3, h4⟩ | ⟨m', ms, h3, h4⟩
  · rw [h3]; exact h4
  · rw [h3]; exact h4

/-- C153: an iterator of a view `items()` or `values()` takes the ids of the file that is in force when it is first asked, and for each the value in the file that is in force when it
comes to it. -/
theorem C153_pairs (kind : ViewKind) (hk : kind ≠ .keys) (m : PyMapping V) (pre post : List ViewOp) :
    Spec.shownBy (Spec.taken pre) (((ViewWorld.start m).final ld (pre ++ [.iterView kind])).run ld post) =
      match Spec.heldAtAsks ld (Spec.taken pre) (Spec.holding ld m pre) post with
      | [] => []
      | m' :: ms => Spec.pairsShown (Spec.showPair kind) m'.iter (m' :: ms) := by
  obtain ⟨h1, h2⟩ := final_after ld (ViewWorld.start m) (start_ok m) pre
  have hc := final_count ld (ViewWorld.start m) pre
  rw [final_append]
  rw [start_reader] at h2
  generalize (ViewWorld.start m).final ld pre = w at *
  have hc : w.objs.length = Spec.taken pre := by rw [hc]; simp [ViewWorld.start]
  rw [← hc, ← h2]
  have := shown_fresh ld kind (w.give (.fresh kind)) h1.ok w.objs.length (by simp [ViewWorld.give]) post
  rw [show (w.give (ViewObj.fresh kind)).reader = w.reader from rfl] at this
  rcases this with ⟨h3, h4⟩ | ⟨m', ms, h3, h4⟩
  · rw [h3]; exact h4
  · rw [h3]
    rw [if_neg hk] at h4
    exact h4

/-- C153: an iterator of `sentence_ids` gives the ids of the file that was in force when `sentence_ids` was taken. -/
theorem C153_ids_iterator (m : PyMapping V) (pre mid post : List ViewOp) :
    Spec.shownBy (Spec.taken (pre ++ .takeIds :: mid)) (((ViewWorld.start m).final ld (pre ++ .takeIds :: mid ++ [.iterIds (Spec.taken pre)])).run ld post) =
      Spec.idsShown (Spec.askedTimes (Spec.taken (pre ++ .takeIds :: mid)) post) (Spec.holding ld m pre).iter := by
  obtain ⟨h1, h2⟩ := final_after ld (ViewWorld.start m) (start_ok m) (pre ++ .takeIds :: mid)
  have hc := final_count ld (ViewWorld.start m) (pre ++ .takeIds :: mid)
  obtain ⟨d, hd, ho, hit⟩ := ids_object ld m pre mid
  rw [final_append]
  generalize (ViewWorld.start m).final ld (pre ++ .takeIds :: mid) = w at *
  have hc : w.objs.length = Spec.taken (pre ++ .takeIds :: mid) := by rw [hc]; simp [ViewWorld.start]
  rw [← hc, ← hit]
  have hs : (w.final ld [.iterIds (Spec.taken pre)]) = w.give (.dictIter d 0) := by
    simp only [ViewWorld.final, ViewWorld.step, ho]
  rw [hs]
  rw [← heldAtAsks_length ld w.objs.length m]
  exact shown_dictIter ld (w.give (.dictIter d 0)) h1.ok w.objs.length d 0 (by simp [ViewWorld.give]) hd post m

theorem pairsShown_one (kind : ViewKind) (m : PyMapping V) (ids : List Int) (ms : List (PyMapping V)) (hm : ∀ k ∈ ids, ∃ v, m.getItem k = .ok v)
    (hinj : kind = .items ∨ kind = .values) :
    Spec.pairsShown (Spec.showPair kind) ids ms = Spec.pairsShown (Spec.showPair kind) ids (ms.map (fun _ => m)) ↔
      ∀ (n : Nat) k m', ids[n]? = some k → ms[n]? = some m' → m'.getItem k = m.getItem k := by
  induction ms generalizing ids with
  | nil => simp [Spec.pairsShown]
  | cons a ms ih =>
    cases ids with
    | nil => simp [Spec.pairsShown]
    | cons k ks =>
      obtain ⟨v, hv⟩ := hm k (by simp)
      have hm' : ∀ k ∈ ks, ∃ v, m.getItem k = .ok v := fun x hx => hm x (by simp [hx])
      have hall : (∀ (n : Nat) k' m', (k :: ks)[n]? = some k' → (a :: ms)[n]? = some m' → m'.getItem k' = m.getItem k') ↔
          a.getItem k = m.getItem k ∧ ∀ (n : Nat) k' m', ks[n]? = some k' → ms[n]? = some m' → m'.getItem k' = m.getItem k' := by
        constructor
        · intro h
          exact ⟨h 0 k a rfl rfl, fun n k' m' h1 h2 => h (n + 1) k' m' h1 h2⟩
        · rintro ⟨h0, h⟩ n k' m' h1 h2
          cases n with
          | zero => cases h1; cases h2; exact h0
          | succ n => exact h n k' m' h1 h2
      rw [hall, ← ih ks hm', List.map_cons]
      simp only [Spec.pairsShown, hv]
      cases ha : a.getItem k with
      | error e =>
        rcases hinj with rfl | rfl <;> simp [Spec.showPair]
      | ok u =>
        simp only [List.cons.injEq, Except.ok.injEq]
        rcases hinj with rfl | rfl <;> simp [Spec.showPair]

/-- C153: such an iterator shows one file, that which is in force when it is first asked, exactly if each time the value of the id it has come to is the one of that file. -/
theorem C153_one_file (kind : ViewKind) (hk : kind = .items ∨ kind = .values) (m : PyMapping V) (pre post : List ViewOp) (m' : PyMapping V) (ms : List (PyMapping V))
    (hasks : Spec.heldAtAsks ld (Spec.taken pre) (Spec.holding ld m pre) post = m' :: ms) (hm' : ∀ k ∈ m'.iter, ∃ v, m'.getItem k = .ok v) :
    Spec.shownBy (Spec.taken pre) (((ViewWorld.start m).final ld (pre ++ [.iterView kind])).run ld post) =
        Spec.pairsShown (Spec.showPair kind) m'.iter ((m' :: ms).map (fun _ => m')) ↔
      ∀ (n : Nat) k now, m'.iter[n]? = some k → (m' :: ms)[n]? = some now → now.getItem k = m'.getItem k := by
  rw [C153_pairs ld kind (by rcases hk with rfl | rfl <;> exact fun h => by cases h), hasks]
  exact pairsShown_one kind m' m'.iter (m' :: ms) hm' hk

theorem heldAtAsks_noFile (i : Nat) (m : PyMapping V) (ops : List ViewOp) (h : Spec.NoFile ops) : ∀ x ∈ Spec.heldAtAsks ld i m ops, x = m := by
  induction ops with
  | nil => intro x hx; cases hx
  | cons op ops ih =>
    have ih := ih (fun rows hr => h rows (by simp [hr]))
    cases op with
    | load rows => exact absurd (by simp) (h rows)
    | next j =>
      simp only [Spec.heldAtAsks]
      split
      · intro x hx
        cases hx with
        | head => rfl
        | tail _ hx => exact ih x hx
      · exact ih
    | _ => exact ih

/-- C153: if no file is assigned while it is used, it shows what the reader holds. -/
theorem C153_no_file (kind : ViewKind) (hk : kind ≠ .keys) (m : PyMapping V) (pre post : List ViewOp) (hp : Spec.NoFile post) :
    Spec.shownBy (Spec.taken pre) (((ViewWorld.start m).final ld (pre ++ [.iterView kind])).run ld post) =
      Spec.pairsShown (Spec.showPair kind) (Spec.holding ld m pre).iter
        ((Spec.heldAtAsks ld (Spec.taken pre) (Spec.holding ld m pre) post).map (fun _ => Spec.holding ld m pre)) := by
  rw [C153_pairs ld kind hk]
  have h := heldAtAsks_noFile ld (Spec.taken pre) (Spec.holding ld m pre) post hp
  cases hq : Spec.heldAtAsks ld (Spec.taken pre) (Spec.holding ld m pre) post with
  | nil => simp [Spec.pairsShown]
  | cons m' ms =>
    rw [hq] at h
    have hmap : (m' :: ms).map (fun _ => Spec.holding ld m pre) = m' :: ms := by
      conv => rhs; rw [← List.map_id (m' :: ms)]
      exact List.map_congr_left (fun x hx => (h x hx).symm)
    rw [hmap, h m' (by simp)]

/-! ### A sentence reader -/

/-- What a sentence reader without language filter makes of a file. -/
def sentenceFile (rows : Rows) : Except PyErr (PyMapping Str) := (sentLoad (D := DateTime) strptime none rows).map SentData.mapping

/-- C153: an iteration over `items()` that goes on while another file is assigned may give a sentence of the one file and then one of the other, and it may raise `KeyError`. -/
theorem C153_mixed :
    ∃ m, sentenceFile ([[u!"1", u!"eng", u!"Hi"], [u!"2", u!"eng", u!"Ho"], [u!"4", u!"eng", u!"Hu"]], none) = .ok m ∧
      Spec.shownBy 0 ((ViewWorld.start m).run sentenceFile
        [.iterView .items, .next 0, .load ([[u!"1", u!"deu", u!"Hallo"], [u!"2", u!"deu", u!"Tag"]], none), .next 0, .next 0, .next 0]) =
        [.item 1 u!"Hi", .item 2 u!"Tag", .raised .keyError, .stop] := by
  refine ⟨_, rfl, ?_⟩
  rfl

/-- The same program with the other iterators: the ids are those of the first file throughout; hypotheses and sides of the theorems are met by real files. -/
example : ∃ m, sentenceFile ([[u!"1", u!"eng", u!"Hi"], [u!"2", u!"eng", u!"Ho"], [u!"4", u!"eng", u!"Hu"]], none) = .ok m ∧
    Spec.shownBy 0 ((ViewWorld.start m).run sentenceFile
      [.iter, .next 0, .load ([[u!"1", u!"deu", u!"Hallo"], [u!"2", u!"deu", u!"Tag"]], none), .next 0, .next 0, .next 0]) = [.key 1, .key 2, .key 4, .stop] ∧
    (∀ k ∈ m.iter, ∃ v, m.getItem k = .ok v) := by
  refine ⟨_, rfl, rfl, ?_⟩
  intro k hk
  have : k = 1 ∨ k = 2 ∨ k = 4 := by
    have hk : k ∈ [(1 : Int), 2, 4] := hk
    simpa using hk
  rcases this with rfl | rfl | rfl
  · exact ⟨u!"Hi", rfl⟩
  · exact ⟨u!"Ho", rfl⟩
  · exact ⟨u!"Hu", rfl⟩

end Cjk
