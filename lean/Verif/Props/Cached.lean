import Verif.Model.Cached
/-!
# C87, C88: memory-cached objects
-/

namespace Cjk
open Py

theorem lazyRun_some {O : Type} (o : O) (ms : List (Except PyErr O)) :
    getRun lazyGet (some o) ms = ms.map (fun _ => (.ok o, false)) := by
  induction ms with
  | nil => rfl
  | cons m ms ih => simp only [getRun, lazyGet, List.map_cons, ih]

/-- C87: the lazy getters (`KanaTable.get_cached`, `get_pinyin_table`, `get_pinyin_segmenter`) run the constructor until it succeeds
once; from then on they return that object, whatever happens to the data files, and never construct again. -/
theorem C87_lazy {O : Type} (errs : List PyErr) (o : O) (rest : List (Except PyErr O)) :
    getRun lazyGet none (errs.map .error ++ .ok o :: rest) =
      errs.map (fun e => (.error e, true)) ++ (.ok o, true) :: rest.map (fun _ => (.ok o, false)) := by
  induction errs with
  | nil => simp only [List.map_nil, List.nil_append, getRun, lazyGet, lazyRun_some]
  | cons e errs ih => simp only [List.map_cons, List.cons_append, getRun, lazyGet, ih]

/-- C87: a failed construction is not remembered: as long as none succeeds, every call tries again and raises its own error. -/
theorem C87_lazy_failing {O : Type} (errs : List PyErr) :
    getRun lazyGet (none : Option O) (errs.map .error) = errs.map (fun e => (.error e, true)) := by
  induction errs with
  | nil => rfl
  | cons e errs ih => simp only [List.map_cons, getRun, lazyGet, ih]

example : getRun lazyGet none [.error .osError, .ok 7, .error .osError, .ok 9] =
    [(.error .osError, true), (.ok 7, true), (.ok 7, false), (.ok 7, false)] := by decide

/-! ### The pinyin table and the segmenter -/

/-- The segmenter in a result. -/
def PinyinGot.seg : PinyinGot → Nat
  | .segmenter i => i
  | .table _ i => i

/-- The call asks for the cached table. -/
def PinyinCall.isTable : PinyinCall → Bool
  | .table _ _ => true
  | _ => false

/-- The call asks for the cached segmenter. -/
def PinyinCall.isSegmenter : PinyinCall → Bool
  | .segmenter _ => true
  | _ => false

/-- The call makes a table of its own. -/
def PinyinCall.isNew : PinyinCall → Bool
  | .newTable _ _ => true
  | _ => false

/-- What holds between an earlier and a later call. -/
structure Spec.Consistent (a b : PinyinCall × Except PyErr PinyinGot) : Prop where
  /-- there is only one segmenter -/
  seg : ∀ x y, a.2 = .ok x → b.2 = .ok y → x.seg = y.seg
  /-- after any success the segmenter can be had whatever happens to its file -/
  segOk : ∀ x, a.2 = .ok x → b.1.isSegmenter = true → ∃ y, b.2 = .ok y
  /-- there is only one cached table and it stays available whatever happens to the files -/
  table : ∀ x, a.1.isTable = true → a.2 = .ok x → b.1.isTable = true → b.2 = .ok x
  /-- a table made by the caller is no other table -/
  fresh : ∀ t i u j, a.1.isNew = true ∨ b.1.isNew = true → a.2 = .ok (.table t i) → b.2 = .ok (.table u j) → t ≠ u

/-- The cached table uses the cached segmenter, and objects are numbered below `next`. -/
structure PinyinCaches.Inv (s : PinyinCaches) : Prop where
  tab : ∀ t i, s.table = some (t, i) → s.seg = some i ∧ t < s.next
  seg : ∀ i, s.seg = some i → i < s.next

theorem PinyinCaches.Inv.start : PinyinCaches.Inv PinyinCaches.start := ⟨by simp [PinyinCaches.start], by simp [PinyinCaches.start]⟩

theorem getSegmenter_spec (s : PinyinCaches) (m : Option PyErr) (h : s.Inv) :
    (getSegmenter s m).2.Inv ∧ (getSegmenter s m).2.table = s.table ∧ s.next ≤ (getSegmenter s m).2.next ∧
    (∀ i, s.seg = some i → (getSegmenter s m).2.seg = some i ∧ (getSegmenter s m).1 = .ok i) ∧
    (∀ i, (getSegmenter s m).1 = .ok i → (getSegmenter s m).2.seg = some i) := by
  unfold getSegmenter
  cases hs : s.seg with
  | some j => exact ⟨h, rfl, Nat.le_refl _, by simp [hs], by simp [hs]⟩
  | none =>
    cases m with
    | some e => exact ⟨h, rfl, Nat.le_refl _, by simp, by simp⟩
    | none =>
      refine ⟨⟨?_, by simp⟩, rfl, by simp, by simp, by simp⟩
      intro t i ht
      have := (h.tab t i ht).1
      rw [hs] at this; cases this

theorem constructTable_spec (s : PinyinCaches) (m n : Option PyErr) (h : s.Inv) :
    (constructTable s m n).2.Inv ∧ (constructTable s m n).2.table = s.table ∧ s.next ≤ (constructTable s m n).2.next ∧
    (∀ i, s.seg = some i → (constructTable s m n).2.seg = some i) ∧
    (∀ t i, (constructTable s m n).1 = .ok (t, i) → (constructTable s m n).2.seg = some i ∧ s.next ≤ t ∧
      t < (constructTable s m n).2.next) := by
  obtain ⟨h1, h2, h3, h4, h5⟩ := getSegmenter_spec s m h
  unfold constructTable
  generalize hg : getSegmenter s m = g at *
  obtain ⟨r, s'⟩ := g
  cases r with
  | error e => exact ⟨h1, h2, h3, fun i hi => (h4 i hi).1, by simp⟩
  | ok i =>
    cases n with
    | some e => exact ⟨h1, h2, h3, fun i hi => (h4 i hi).1, by simp⟩
    | none =>
      simp only at h1 h2 h3 h4 h5 ⊢
      refine ⟨⟨?_, ?_⟩, h2, by omega, fun i hi => (h4 i hi).1, ?_⟩
      · intro t j ht
        have := h1.tab t j ht
        exact ⟨this.1, by simp only; omega⟩
      · intro j hj
        have := h1.seg j hj
        simp only; omega
      · intro t j ht
        simp only [Except.ok.injEq, Prod.mk.injEq] at ht
        obtain ⟨rfl, rfl⟩ := ht
        exact ⟨h5 i rfl, h3, by simp⟩

theorem getTable_spec (s : PinyinCaches) (m n : Option PyErr) (h : s.Inv) :
    (getTable s m n).2.Inv ∧ s.next ≤ (getTable s m n).2.next ∧
    (∀ t, s.table = some t → (getTable s m n).2.table = some t ∧ (getTable s m n).1 = .ok t) ∧
    (∀ i, s.seg = some i → (getTable s m n).2.seg = some i) ∧
    (∀ t i, (getTable s m n).1 = .ok (t, i) → (getTable s m n).2.seg = some i ∧ (getTable s m n).2.table = some (t, i) ∧
      t < (getTable s m n).2.next) ∧
    (∀ t i, (getTable s m n).2.table = some (t, i) → s.next ≤ t ∨ s.table = some (t, i)) := by
  unfold getTable
  cases ht : s.table with
  | some t =>
    refine ⟨h, Nat.le_refl _, by simp [ht], by simp, ?_, fun t' i e => Or.inr (by rw [← ht]; exact e)⟩
    rintro t' i ⟨⟩
    have := h.tab t' i ht
    exact ⟨this.1, ht, this.2⟩
  | none =>
    obtain ⟨h1, h2, h3, h4, h5⟩ := constructTable_spec s m n h
    generalize hg : constructTable s m n = g at *
    obtain ⟨r, s'⟩ := g
    cases r with
    | error e => exact ⟨h1, h3, by simp, h4, by simp, fun t i e => Or.inr (by rw [← ht, ← h2]; exact e)⟩
    | ok t =>
      obtain ⟨t, i⟩ := t
      simp only at h1 h2 h3 h4 h5 ⊢
      obtain ⟨k1, k2, k3⟩ := h5 t i rfl
      refine ⟨⟨?_, h1.seg⟩, h3, by simp, h4, ?_, ?_⟩
      · rintro t' i' ⟨⟩; exact ⟨k1, k3⟩
      · rintro t' i' ⟨⟩; exact ⟨k1, rfl, k3⟩
      · rintro t' i' ⟨⟩; exact Or.inl k2

/-- Everything one call does, in terms of the two caches. -/
theorem step_spec (s : PinyinCaches) (c : PinyinCall) (h : s.Inv) :
    (c.step s).2.Inv ∧ s.next ≤ (c.step s).2.next ∧
    (∀ i, s.seg = some i → (c.step s).2.seg = some i) ∧
    (∀ i, s.seg = some i → c.isSegmenter = true → (c.step s).1 = .ok (.segmenter i)) ∧
    (∀ t, s.table = some t → (c.step s).2.table = some t) ∧
    (∀ t, s.table = some t → c.isTable = true → (c.step s).1 = .ok (.table t.1 t.2)) ∧
    (∀ x, (c.step s).1 = .ok x → (c.step s).2.seg = some x.seg) ∧
    (∀ x, c.isTable = true → (c.step s).1 = .ok x → ∃ t i, x = .table t i ∧ (c.step s).2.table = some (t, i)) ∧
    (∀ t i, (c.step s).1 = .ok (.table t i) → t < (c.step s).2.next) ∧
    (∀ t i, c.isNew = true → (c.step s).1 = .ok (.table t i) → s.next ≤ t ∧ (c.step s).2.table = s.table) ∧
    (∀ t i, (c.step s).1 = .ok (.table t i) → s.next ≤ t ∨ s.table = some (t, i)) ∧
    (∀ t i, (c.step s).2.table = some (t, i) → s.next ≤ t ∨ s.table = some (t, i)) := by
  cases c with
  | segmenter m =>
    obtain ⟨h1, h2, h3, h4, h5⟩ := getSegmenter_spec s m h
    simp only [PinyinCall.step, PinyinCall.isSegmenter, PinyinCall.isTable, PinyinCall.isNew]
    refine ⟨h1, h3, fun i hi => (h4 i hi).1, fun i hi _ => by rw [(h4 i hi).2]; rfl, fun t ht => h2.trans ht, by simp, ?_, by simp,
      ?_, by simp, ?_, fun t i ht => Or.inr (h2.symm.trans ht)⟩
    · intro x hx
      cases hg : (getSegmenter s m).1 with
      | error e => rw [hg] at hx; cases hx
      | ok i => rw [hg] at hx; cases hx; exact h5 i hg
    · intro t i hx
      cases hg : (getSegmenter s m).1 <;> rw [hg] at hx <;> cases hx
    · intro t i hx
      cases hg : (getSegmenter s m).1 <;> rw [hg] at hx <;> cases hx
  | table m n =>
    obtain ⟨h1, h2, h3, h4, h5, h6⟩ := getTable_spec s m n h
    simp only [PinyinCall.step, PinyinCall.isSegmenter, PinyinCall.isTable, PinyinCall.isNew]
    have key : ∀ x, (getTable s m n).1.map (fun t => PinyinGot.table t.1 t.2) = .ok x → ∃ t i, x = .table t i ∧
        (getTable s m n).1 = .ok (t, i) := by
      intro x hx
      cases hg : (getTable s m n).1 with
      | error e => rw [hg] at hx; cases hx
      | ok t => rw [hg] at hx; cases hx; exact ⟨t.1, t.2, rfl, rfl⟩
    refine ⟨h1, h2, h4, by simp, fun t ht => (h3 t ht).1, fun t ht _ => by rw [(h3 t ht).2]; rfl, ?_, ?_, ?_, by simp, ?_, h6⟩
    · intro x hx
      obtain ⟨t, i, rfl, e⟩ := key x hx
      exact (h5 t i e).1
    · intro x _ hx
      obtain ⟨t, i, rfl, e⟩ := key x hx
      exact ⟨t, i, rfl, (h5 t i e).2.1⟩
    · intro t i hx
      obtain ⟨t, i, ⟨⟩, e⟩ := key _ hx
      exact (h5 t i e).2.2
    · intro t i hx
      obtain ⟨t, i, ⟨⟩, e⟩ := key _ hx
      exact h6 t i (h5 t i e).2.1
  | newTable m n =>
    obtain ⟨h1, h2, h3, h4, h5⟩ := constructTable_spec s m n h
    simp only [PinyinCall.step, PinyinCall.isSegmenter, PinyinCall.isTable, PinyinCall.isNew]
    have key : ∀ x, (constructTable s m n).1.map (fun t => PinyinGot.table t.1 t.2) = .ok x → ∃ t i, x = .table t i ∧
        (constructTable s m n).1 = .ok (t, i) := by
      intro x hx
      cases hg : (constructTable s m n).1 with
      | error e => rw [hg] at hx; cases hx
      | ok t => rw [hg] at hx; cases hx; exact ⟨t.1, t.2, rfl, rfl⟩
    refine ⟨h1, h3, h4, by simp, fun t ht => h2.trans ht, by simp, ?_, by simp, ?_, ?_, ?_,
      fun t i ht => Or.inr (h2.symm.trans ht)⟩
    · intro x hx
      obtain ⟨t, i, rfl, e⟩ := key x hx
      exact (h5 t i e).1
    · intro t i hx
      obtain ⟨t, i, ⟨⟩, e⟩ := key _ hx
      exact (h5 t i e).2.2
    · intro t i _ hx
      obtain ⟨t, i, ⟨⟩, e⟩ := key _ hx
      exact ⟨(h5 t i e).2.1, h2⟩
    · intro t i hx
      obtain ⟨t, i, ⟨⟩, e⟩ := key _ hx
      exact Or.inl (h5 t i e).2.1

/-- What is known about all later calls once something is cached. -/
theorem run_later (s : PinyinCaches) (cs : List PinyinCall) (h : s.Inv) :
    ∀ b ∈ pinyinRun s cs,
      (∀ i, s.seg = some i → (∀ y, b.2 = .ok y → y.seg = i) ∧ (b.1.isSegmenter = true → ∃ y, b.2 = .ok y)) ∧
      (∀ t, s.table = some t → b.1.isTable = true → b.2 = .ok (.table t.1 t.2)) ∧
      (∀ t i, b.1.isNew = true → b.2 = .ok (.table t i) → s.next ≤ t) ∧
      (∀ t i, b.2 = .ok (.table t i) → s.next ≤ t ∨ s.table = some (t, i)) := by
  induction cs generalizing s with
  | nil => simp [pinyinRun]
  | cons c cs ih =>
    obtain ⟨a1, a2, a3, a4, a5, a6, a7, a8, a9, a10, a11, a12⟩ := step_spec s c h
    intro b hb
    simp only [pinyinRun, List.mem_cons] at hb
    rcases hb with rfl | hb
    · refine ⟨fun i hi => ⟨fun y hy => ?_, fun hc => ⟨_, a4 i hi hc⟩⟩, a6, fun t i hn ht => (a10 t i hn ht).1, a11⟩
      have := a7 y hy
      rw [a3 i hi] at this
      exact (Option.some.inj this).symm
    · obtain ⟨b1, b2, b3, b4⟩ := ih (c.step s).2 a1 b hb
      refine ⟨fun i hi => b1 i (a3 i hi), fun t ht => b2 t (a5 t ht), fun t i hn ht => Nat.le_trans a2 (b3 t i hn ht), fun t i ht => ?_⟩
      rcases b4 t i ht with hle | htab
      · exact Or.inl (Nat.le_trans a2 hle)
      · exact a12 t i htab

theorem pinyinRun_consistent (s : PinyinCaches) (cs : List PinyinCall) (h : s.Inv) :
    (pinyinRun s cs).Pairwise Spec.Consistent := by
  induction cs generalizing s with
  | nil => exact List.Pairwise.nil
  | cons c cs ih =>
    obtain ⟨a1, a2, a3, a4, a5, a6, a7, a8, a9, a10, a11, a12⟩ := step_spec s c h
    refine List.Pairwise.cons ?_ (ih _ a1)
    intro b hb
    obtain ⟨b1, b2, b3, b4⟩ := run_later (c.step s).2 cs a1 b hb
    refine ⟨?_, ?_, ?_, ?_⟩
    · intro x y hx hy
      exact ((b1 _ (a7 x hx)).1 y hy).symm
    · intro x hx hc
      exact (b1 _ (a7 x hx)).2 hc
    · intro x hc hx hbt
      obtain ⟨t, i, rfl, e⟩ := a8 x hc hx
      exact b2 _ e hbt
    · intro t i u j hn hx hy
      have ht := a9 t i hx
      by_cases hbn : b.1.isNew = true
      · have := b3 u j hbn hy; omega
      · have hc : c.isNew = true := by simpa [hbn] using hn
        obtain ⟨k1, k2⟩ := a10 t i hc hx
        rcases b4 u j hy with hu | hu
        · omega
        · rw [k2] at hu
          have := (h.tab u j hu).2
          omega

/-- C87: in every sequence of calls of `get_pinyin_segmenter`, `get_pinyin_table` and `PinyinTable`, with any failures of the two data
files, all successful calls share one segmenter, all successful `get_pinyin_table` calls return one table, both stay available after
the first success whatever happens to the files, and a table made by `PinyinTable()` is never the cached one nor another such table. -/
theorem C87_pinyin (cs : List PinyinCall) : (pinyinRun .start cs).Pairwise Spec.Consistent :=
  pinyinRun_consistent _ cs .start

/-- A sequence with failures: the table file is missing at first, later both files are gone. -/
example : (pinyinRun .start [.table none (some .osError), .newTable (some .osError) none, .table none none,
      .segmenter (some .osError), .table (some .osError) (some .osError), .newTable none none]).map Prod.snd =
    [.error .osError, .ok (.table 1 0), .ok (.table 2 0), .ok (.segmenter 0), .ok (.table 2 0), .ok (.table 3 0)] := by decide

/-! ### The eager getters -/

theorem eagerRun_some {O : Type} (o : O) (ms : List (Except PyErr O)) :
    getRun eagerGet (some o) ms = ms.map (fun m => (m.map (fun _ => o), true)) := by
  induction ms with
  | nil => rfl
  | cons m ms ih => cases m <;> simp only [getRun, eagerGet, List.map_cons, Option.getD_some, ih, Except.map]

/-- C88 (partial): `RadkDict.get_cached` and `Kanjidic.get_cached` return, whenever they return, the object of the first successful
construction.  They construct an object on every call and fail whenever that construction fails.

Missing from the claim: a getter that already has an object does not read the files again and does not fail
(`C88_eager_refuted`). -/
theorem C88_eager_partial {O : Type} (errs : List PyErr) (o : O) (rest : List (Except PyErr O)) :
    getRun eagerGet none (errs.map .error ++ .ok o :: rest) =
      errs.map (fun e => (.error e, true)) ++ (.ok o, true) :: rest.map (fun m => (m.map (fun _ => o), true)) := by
  induction errs with
  | nil => simp only [List.map_nil, List.nil_append, getRun, eagerGet, Option.getD_none, eagerRun_some]
  | cons e errs ih => simp only [List.map_cons, List.cons_append, getRun, eagerGet, ih]

/-- The claim of C88: after a success no call constructs again or fails. -/
def Spec.StaysCached {O : Type} (run : List (Except PyErr O × Bool)) : Prop :=
  run.Pairwise (fun a b => ∀ o, a.1 = .ok o → b = (.ok o, false))

/-- C88: every call after a successful one constructs again, so the claim fails for every sequence with a call after a success; and the
call fails although the object is there when the data file has gone. -/
theorem C88_eager_refuted {O : Type} (o : O) (m : Except PyErr O) (ms : List (Except PyErr O)) :
    ¬ Spec.StaysCached (getRun eagerGet none (.ok o :: m :: ms)) ∧
    ∀ e : PyErr, m = .error e → (getRun eagerGet none (.ok o :: m :: ms))[1]? = some (.error e, true) := by
  have h := C88_eager_partial [] o (m :: ms)
  simp only [List.map_nil, List.nil_append, List.map_cons] at h
  rw [h]
  refine ⟨?_, ?_⟩
  · intro hs
    have := (List.pairwise_cons.1 hs).1 (m.map (fun _ => o), true) (by simp) o rfl
    simp at this
  · rintro e rfl
    simp [Except.map]

/-- The lazy getters do have the claimed property, for every sequence of calls. -/
theorem C87_stays_cached {O : Type} (ms : List (Except PyErr O)) : Spec.StaysCached (getRun lazyGet none ms) := by
  induction ms with
  | nil => exact List.Pairwise.nil
  | cons m ms ih =>
    cases m with
    | error e => exact List.Pairwise.cons (by intro b _ o ho; cases ho) ih
    | ok o =>
      simp only [Spec.StaysCached, getRun, lazyGet, lazyRun_some]
      refine List.Pairwise.cons ?_ ?_
      · intro b hb o' ho
        cases ho
        obtain ⟨_, _, rfl⟩ := List.mem_map.1 hb
        rfl
      · rw [List.pairwise_map]
        refine List.pairwise_iff_forall_sublist.2 ?_
        intro _ _ _ o' ho
        cases ho; rfl

end Cjk
