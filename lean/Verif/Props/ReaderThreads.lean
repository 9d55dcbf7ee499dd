import Verif.Spec.ReaderThreads
/-!
# C154: readers and threads
-/

namespace Cjk
open Py

variable {A : Type} [DecidableEq A] (stores : List A)

theorem RThreads.run_split (w : RThreads A) (ts : List Nat) (pre post : List (Nat × RSeen A)) (e : Nat × RSeen A) (h : w.run stores ts = pre ++ e :: post) :
    ∃ ts1 t ts2, ts = ts1 ++ t :: ts2 ∧ pre = w.run stores ts1 ∧ e = (t, ((w.final stores ts1).step stores t).2) ∧
      post = ((w.final stores ts1).step stores t).1.run stores ts2 := by
  induction pre generalizing w ts with
  | nil =>
    cases ts with
    | nil => simp [RThreads.run] at h
    | cons t ts =>
      simp only [RThreads.run, List.nil_append, List.cons.injEq] at h
      exact ⟨[], t, ts, rfl, rfl, h.1.symm, h.2.symm⟩
  | cons p pre ih =>
    cases ts with
    | nil => simp [RThreads.run] at h
    | cons t ts =>
      simp only [RThreads.run, List.cons_append, List.cons.injEq] at h
      obtain ⟨ts1, u, ts2, h1, h2, h3, h4⟩ := ih _ ts h.2
      exact ⟨t :: ts1, u, ts2, by rw [h1]; rfl, by rw [h2, ← h.1]; rfl, h3, h4⟩

theorem RThreads.final_append (w : RThreads A) (l l' : List Nat) : w.final stores (l ++ l') = (w.final stores l).final stores l' := by
  induction l generalizing w with
  | nil => rfl
  | cons t l ih => exact ih _

theorem lastStored_append (a : A) (l l' : List (Nat × RSeen A)) (f : Nat) : Spec.lastStored a (l ++ l') f = Spec.lastStored a l' (Spec.lastStored a l f) := by
  induction l generalizing f with
  | nil => rfl
  | cons p l ih =>
    obtain ⟨t, s⟩ := p
    cases s <;> exact ih _

theorem begunFiles_append (l l' : List (Nat × RSeen A)) : Spec.begunFiles (l ++ l') = Spec.begunFiles l ++ Spec.begunFiles l' := by
  induction l with
  | nil => rfl
  | cons p l ih =>
    obtain ⟨t, s⟩ := p
    cases s with
    | began c =>
      cases c with
      | assign f => simp only [List.cons_append, Spec.begunFiles, ih]
      | ask l => exact ih
    | _ => exact ih

theorem endedCount_append (l l' : List (Nat × RSeen A)) : Spec.endedCount (l ++ l') = Spec.endedCount l + Spec.endedCount l' := by
  induction l with
  | nil => simp [Spec.endedCount]
  | cons p l ih =>
    obtain ⟨t, s⟩ := p
    cases s <;> simp only [List.cons_append, Spec.endedCount, ih] <;> omega

/-! ### What is loaded -/

theorem step_attr (w : RThreads A) (t : Nat) (a : A) : (w.step stores t).1.attr a = Spec.lastStored a [(t, (w.step stores t).2)] (w.attr a) := by
  unfold RThreads.step
  cases hp : w.phase t with
  | idle =>
    simp only
    cases hc : w.calls t with
    | nil => rfl
    | cons c cs => cases c <;> rfl
  | storing j l =>
    cases l with
    | nil => rfl
    | cons b l =>
      simp only [Spec.lastStored]
      by_cases hb : a = b
      · rw [if_pos hb, if_pos hb.symm]
      · rw [if_neg hb, if_neg (fun h => hb h.symm)]
  | asking got l => cases l <;> rfl

theorem final_attr (w : RThreads A) (ts : List Nat) (a : A) : (w.final stores ts).attr a = Spec.lastStored a (w.run stores ts) (w.attr a) := by
  induction ts generalizing w with
  | nil => rfl
  | cons t ts ih =>
    show (RThreads.final stores _ ts).attr a = Spec.lastStored a ([(t, (w.step stores t).2)] ++ _) _
    rw [lastStored_append, ← step_attr, ih]

/-- C154: what a thread loads from an attribute is what any thread stored there last. -/
theorem C154_loads (calls : Nat → List (RCall A)) (ts : List Nat) (pre post : List (Nat × RSeen A)) (t : Nat) (a : A) (f : Nat)
    (h : (RThreads.start calls).run stores ts = pre ++ (t, .loaded a f) :: post) : f = Spec.lastStored a pre 0 := by
  obtain ⟨ts1, u, ts2, _, rfl, h3, _⟩ := RThreads.run_split stores _ _ _ _ _ h
  have h0 : (RThreads.start calls).attr a = 0 := rfl
  rw [← h0, ← final_attr]
  generalize (RThreads.start calls).final stores ts1 = w at h3
  obtain ⟨rfl, h3⟩ := Prod.mk.inj h3
  unfold RThreads.step at h3
  cases hp : w.phase t with
  | idle =>
    rw [hp] at h3
    simp only at h3
    cases hc : w.calls t with
    | nil => rw [hc] at h3; cases h3
    | cons c cs => rw [hc] at h3; cases h3
  | storing j l => rw [hp] at h3; cases l <;> cases h3
  | asking got l =>
    rw [hp] at h3
    cases l with
    | nil => cases h3
    | cons b l =>
      simp only [RSeen.loaded.injEq] at h3
      rw [h3.2, h3.1]

/-! ### Lookups -/

/-- From here on thread `t` loads `left`, having got `got`, until it answers. -/
theorem asking_answers (w : RThreads A) (t : Nat) (got : List Nat) (left : List A) (hp : w.phase t = .asking got left) (ts : List Nat)
    (mid post : List (Nat × RSeen A)) (fs : List Nat) (h : w.run stores ts = mid ++ (t, .answered fs) :: post) 
    (ha : ∀ gs, (t, RSeen.answered gs) ∉ mid) :
    ∃ new, fs = got ++ new ∧ Spec.loadsBy t mid = left.zip new ∧ new.length = left.length := by
  induction ts generalizing w got left mid with
  | nil => simp [RThreads.run] at h
  | cons u ts ih =>
    by_cases hu : u = t
    · subst hu
      cases left with
      | nil =>
        have hst : w.step stores u = (w.to u .idle, .answered got) := by simp only [RThreads.step, hp]
        rw [RThreads.run, hst] at h
        cases mid with
        | nil =>
          simp only [List.nil_append, List.cons.injEq, Prod.mk.injEq, RSeen.answered.injEq, true_and] at h
          exact ⟨[], by simp [h.1], rfl, rfl⟩
        | cons p mid =>
          simp only [List.cons_append, List.cons.injEq] at h
          exact absurd (by rw [h.1]; simp) (ha got)
      | cons a left =>
        have hst : w.step stores u = (w.to u (.asking (got ++ [w.attr a]) left), .loaded a (w.attr a)) := by simp only [RThreads.step, hp]
        rw [RThreads.run, hst] at h
        cases mid with
        | nil => simp at h
        | cons p mid =>
          simp only [List.cons_append, List.cons.injEq] at h
          obtain ⟨new, h1, h2, h3⟩ := ih _ (got ++ [w.attr a]) left (by simp [RThreads.to]) mid h.2 (fun c hc => ha c (by simp [hc]))
          refine ⟨w.attr a :: new, by rw [h1]; simp, ?_, by simp [h3]⟩
          rw [← h.1]
          simp [Spec.loadsBy, h2]
    · cases mid with
      | nil =>
        simp only [RThreads.run, List.nil_append, List.cons.injEq, Prod.mk.injEq] at h
        exact absurd h.1.1 hu
      | cons p mid =>
        simp only [RThreads.run, List.cons_append, List.cons.injEq] at h
        have hp' : (w.step stores u).1.phase t = .asking got left := by
          have hne : t ≠ u := fun h => hu h.symm
          unfold RThreads.step
          cases hq : w.phase u with
          | idle =>
            simp only
            cases hc : w.calls u with
            | nil => exact hp
            | cons c cs => simp [RThreads.to, hne, hp]
          | storing j l => cases l <;> simp [RThreads.to, hne, hp]
          | asking g l => cases l <;> simp [RThreads.to, hne, hp]
        obtain ⟨new, h1, h2, h3⟩ := ih _ got left hp' mid h.2 (fun c hc => ha c (by simp [hc]))
        refine ⟨new, h1, ?_, h3⟩
        rw [← h.1]
        cases (w.step stores u).2 with
        | loaded a f => simp [Spec.loadsBy, hu, h2]
        | _ => exact h2

theorem lookup_begin (calls : Nat → List (RCall A)) (ts : List Nat) (t : Nat) (loads : List A) (pre mid : List (Nat × RSeen A)) (fs : List Nat)
    (h : Spec.Lookup ((RThreads.start calls).run stores ts) t loads pre mid fs) :
    ∃ ts1 ts2 post, pre = (RThreads.start calls).run stores ts1 ∧
      ((RThreads.start calls).final stores (ts1 ++ [t])).phase t = .asking [] loads ∧
      ((RThreads.start calls).final stores (ts1 ++ [t])).run stores ts2 = mid ++ (t, .answered fs) :: post ∧
      (RThreads.start calls).run stores (ts1 ++ [t]) = pre ++ [(t, .began (.ask loads))] := by
  obtain ⟨post, hp⟩ := h.trace
  obtain ⟨ts1, u, ts2, h1, h2, h3, h4⟩ := RThreads.run_split stores _ _ _ _ _ hp
  obtain ⟨rfl, h3⟩ := Prod.mk.inj h3
  have hrun : ∀ (w : RThreads A) (l : List Nat), w.run stores (l ++ [t]) = w.run stores l ++ [(t, ((w.final stores l).step stores t).2)] := by
    intro w l
    induction l generalizing w with
    | nil => rfl
    | cons v l ih => simp only [List.cons_append, RThreads.run, ih]; rfl
  refine ⟨ts1, ts2, post, h2, ?_, ?_, ?_⟩
  · rw [RThreads.final_append]
    show (((RThreads.start calls).final stores ts1).step stores t).1.phase t = _
    generalize (RThreads.start calls).final stores ts1 = w at h3
    unfold RThreads.step at h3 ⊢
    cases hq : w.phase t with
    | idle =>
      rw [hq] at h3
      simp only at h3
      cases hc : w.calls t with
      | nil => rw [hc] at h3; cases h3
      | cons c cs =>
        rw [hc] at h3
        simp only [RSeen.began.injEq] at h3
        rw [← h3]
        simp [RThreads.to]
    | storing j l => rw [hq] at h3; cases l <;> cases h3
    | asking g l => rw [hq] at h3; cases l <;> cases h3
  · rw [RThreads.final_append]
    exact h4.symm
  · rw [hrun, ← h3, ← h2]

/-- C154: a lookup loads its attributes, each once and in order, between its begin and its end; its result is that for the dictionaries it got. -/
theorem C154_lookup (calls : Nat → List (RCall A)) (ts : List Nat) (t : Nat) (loads : List A) (pre mid : List (Nat × RSeen A)) (fs : List Nat)
    (h : Spec.Lookup ((RThreads.start calls).run stores ts) t loads pre mid fs) : Spec.loadsBy t mid = loads.zip fs ∧ fs.length = loads.length := by
  obtain ⟨ts1, ts2, post, _, h2, h3, _⟩ := lookup_begin stores calls ts t loads pre mid fs h
  obtain ⟨new, h4, h5, h6⟩ := asking_answers stores _ t [] loads h2 ts2 mid post fs h3 h.first
  rw [List.nil_append] at h4
  subst h4
  exact ⟨h5, h6⟩

/-! ### Every thread makes its calls -/

/-- The calls that a thread has begun. -/
def Spec.begunBy (t : Nat) (evs : List (Nat × RSeen A)) : List (RCall A) :=
  evs.filterMap (fun e => if e.1 = t then (match e.2 with | .began c => some c | _ => none) else none)

/-- How many calls of a thread have ended. -/
def Spec.endedBy (t : Nat) (evs : List (Nat × RSeen A)) : Nat :=
  (evs.filter (fun e => decide (e.1 = t) && (match e.2 with | .assigned _ => true | .answered _ => true | _ => false))).length

/-- The steps of a call: an assignment stores every attribute, a lookup loads those it needs; one step begins a call and one ends it. -/
def Spec.callSteps (stores : List A) : RCall A → Nat
  | .assign _ => stores.length + 2
  | .ask l => l.length + 2

def phaseSteps : RPhase A → Nat
  | .idle => 0
  | .storing _ l => l.length + 1
  | .asking _ l => l.length + 1

def phaseBusy : RPhase A → Nat
  | .idle => 0
  | _ => 1

theorem phaseBusy_le (p : RPhase A) : phaseBusy p ≤ 1 ∧ (phaseSteps p = 0 → phaseBusy p = 0) := by
  cases p <;> simp [phaseBusy, phaseSteps]

def leftSteps (stores : List A) (w : RThreads A) (t : Nat) : Nat := phaseSteps (w.phase t) + ((w.calls t).map (Spec.callSteps stores)).sum

theorem begunBy_cons (t : Nat) (e : Nat × RSeen A) (es : List (Nat × RSeen A)) : Spec.begunBy t (e :: es) = Spec.begunBy t [e] ++ Spec.begunBy t es := by
  unfold Spec.begunBy; rw [← List.filterMap_append]; rfl

theorem endedBy_cons (t : Nat) (e : Nat × RSeen A) (es : List (Nat × RSeen A)) : Spec.endedBy t (e :: es) = Spec.endedBy t [e] + Spec.endedBy t es := by
  unfold Spec.endedBy; rw [← List.length_append, ← List.filter_append]; rfl

theorem step_calls (w : RThreads A) (u t : Nat) :
    w.calls t = Spec.begunBy t [(u, (w.step stores u).2)] ++ (w.step stores u).1.calls t ∧
    leftSteps stores (w.step stores u).1 t = leftSteps stores w t - (if u = t then 1 else 0) ∧
    (Spec.begunBy t [(u, (w.step stores u).2)]).length + phaseBusy (w.phase t) =
      Spec.endedBy t [(u, (w.step stores u).2)] + phaseBusy ((w.step stores u).1.phase t) := by
  by_cases hu : u = t
  · subst hu
    unfold RThreads.step leftSteps
    cases hp : w.phase u with
    | idle =>
      cases hc : w.calls u with
      | nil => simp [Spec.begunBy, Spec.endedBy, phaseSteps, phaseBusy, hp, hc]
      | cons c cs =>
        cases c <;> simp [Spec.begunBy, Spec.endedBy, phaseSteps, phaseBusy, RThreads.to, Spec.callSteps] <;> omega
    | storing j l =>
      cases l with
      | nil => simp [Spec.begunBy, Spec.endedBy, phaseSteps, phaseBusy, RThreads.to]
      | cons a l => simp [Spec.begunBy, Spec.endedBy, phaseSteps, phaseBusy, RThreads.to] <;> omega
    | asking g l =>
      cases l with
      | nil => simp [Spec.begunBy, Spec.endedBy, phaseSteps, phaseBusy, RThreads.to]
      | cons a l => simp [Spec.begunBy, Spec.endedBy, phaseSteps, phaseBusy, RThreads.to] <;> omega
  · have ht : ¬ t = u := fun h => hu h.symm
    unfold RThreads.step leftSteps
    cases hp : w.phase u with
    | idle =>
      cases hc : w.calls u with
      | nil => simp [Spec.begunBy, Spec.endedBy, hu]
      | cons c cs => simp [Spec.begunBy, Spec.endedBy, RThreads.to, hu, ht]
    | storing j l => cases l <;> simp [Spec.begunBy, Spec.endedBy, RThreads.to, hu, ht]
    | asking g l => cases l <;> simp [Spec.begunBy, Spec.endedBy, RThreads.to, hu, ht]

theorem run_calls (ts : List Nat) (w : RThreads A) (t : Nat) :
    w.calls t = Spec.begunBy t (w.run stores ts) ++ (w.final stores ts).calls t ∧
    leftSteps stores (w.final stores ts) t = leftSteps stores w t - ts.count t ∧
    (Spec.begunBy t (w.run stores ts)).length + phaseBusy (w.phase t) =
      Spec.endedBy t (w.run stores ts) + phaseBusy ((w.final stores ts).phase t) := by
  induction ts generalizing w with
  | nil => simp [RThreads.run, RThreads.final, Spec.begunBy, Spec.endedBy]
  | cons u ts ih =>
    obtain ⟨a1, a2, a3⟩ := step_calls stores w u t
    obtain ⟨b1, b2, b3⟩ := ih (w.step stores u).1
    simp only [RThreads.run, RThreads.final]
    rw [begunBy_cons, endedBy_cons]
    refine ⟨?_, ?_, ?_⟩
    · rw [List.append_assoc, ← b1, ← a1]
    · rw [b2, a2, List.count_cons]
      by_cases hu : u = t
      · simp [hu]; omega
      · simp [hu]
    · rw [List.length_append]; omega

/-- C154: in every schedule a thread begins its calls in the order of its program, each once and one after the other; however the threads take turns, after as many steps as its calls have it has
ended them all. -/
theorem C154_calls (calls : Nat → List (RCall A)) (ts : List Nat) (t : Nat) :
    Spec.begunBy t ((RThreads.start calls).run stores ts) <+: calls t ∧
    (Spec.endedBy t ((RThreads.start calls).run stores ts) = (Spec.begunBy t ((RThreads.start calls).run stores ts)).length ∨
      Spec.endedBy t ((RThreads.start calls).run stores ts) + 1 = (Spec.begunBy t ((RThreads.start calls).run stores ts)).length) ∧
    (((calls t).map (Spec.callSteps stores)).sum ≤ ts.count t →
      Spec.begunBy t ((RThreads.start calls).run stores ts) = calls t ∧ Spec.endedBy t ((RThreads.start calls).run stores ts) = (calls t).length) := by
  obtain ⟨h1, h2, h3⟩ := run_calls stores ts (RThreads.start calls) t
  have h0 : phaseSteps ((RThreads.start calls).phase t) = 0 := rfl
  have hb0 : phaseBusy ((RThreads.start calls).phase t) = 0 := rfl
  have hb := phaseBusy_le (((RThreads.start calls).final stores ts).phase t)
  rw [hb0] at h3
  refine ⟨⟨_, h1.symm⟩, ?_, ?_⟩
  · omega
  · intro hle
    have hz : leftSteps stores ((RThreads.start calls).final stores ts) t = 0 := by
      rw [h2]
      have : leftSteps stores (RThreads.start calls) t = ((calls t).map (Spec.callSteps stores)).sum := by
        unfold leftSteps; rw [h0, Nat.zero_add]; rfl
      omega
    unfold leftSteps at hz
    have hc : ((RThreads.start calls).final stores ts).calls t = [] := by
      cases hx : ((RThreads.start calls).final stores ts).calls t with
      | nil => rfl
      | cons c cs =>
        rw [hx] at hz
        cases c <;> simp [Spec.callSteps] at hz
    rw [hc, List.append_nil] at h1
    have hb1 := hb.2 (by omega)
    have hb : (RThreads.start calls).calls t = calls t := rfl
    rw [hb] at h1
    exact ⟨h1.symm, by rw [h1]; omega⟩

/-! ### One thread that assigns -/

/-- The state if only `t0` assigns, the files `hist` have been begun, file 0 among them, and `ended` assignments have ended. -/
structure OneAssignerInv (t0 : Nat) (hist : List Nat) (ended : Nat) (w : RThreads A) : Prop where
  others : ∀ t, t ≠ t0 → (∀ f, RCall.assign f ∉ w.calls t) ∧ ∀ f l, w.phase t ≠ .storing f l
  writer : (hist.length = ended + 1 ∧ (∀ f l, w.phase t0 ≠ .storing f l) ∧ ∀ a, hist[ended]? = some (w.attr a)) ∨
    (hist.length = ended + 2 ∧ ∃ f done left, w.phase t0 = .storing f left ∧ hist[ended + 1]? = some f ∧ stores = done ++ left ∧
      ∀ a, (a ∈ done → w.attr a = f) ∧ (a ∉ done → hist[ended]? = some (w.attr a)))

theorem OneAssignerInv.recent {stores : List A} {t0 : Nat} {hist : List Nat} {ended : Nat} {w : RThreads A} (h : OneAssignerInv stores t0 hist ended w) (a : A) :
    w.attr a ∈ hist.drop ended := by
  have mem : ∀ i, ended ≤ i → ∀ x, hist[i]? = some x → x ∈ hist.drop ended := by
    intro i hi x hx
    refine List.mem_of_getElem? (i := i - ended) ?_
    rw [List.getElem?_drop, show ended + (i - ended) = i from by omega]
    exact hx
  rcases h.writer with ⟨_, _, h1⟩ | ⟨_, f, done, left, _, h2, _, h3⟩
  · exact mem _ (Nat.le_refl _) _ (h1 a)
  · by_cases ha : a ∈ done
    · rw [(h3 a).1 ha]; exact mem _ (Nat.le_succ _) _ h2
    · exact mem _ (Nat.le_refl _) _ ((h3 a).2 ha)

theorem OneAssignerInv.start {t0 : Nat} {calls : Nat → List (RCall A)} (h : Spec.OneAssigner calls t0) : OneAssignerInv stores t0 [0] 0 (RThreads.start calls) where
  others := fun t ht => ⟨h t ht, (fun f l hh => by cases hh)⟩
  writer := Or.inl ⟨rfl, (fun f l hh => by cases hh), fun a => rfl⟩

theorem OneAssignerInv.step {stores : List A} (hall : ∀ a : A, a ∈ stores) {t0 : Nat} {hist : List Nat} {ended : Nat} {w : RThreads A} (h : OneAssignerInv stores t0 hist ended w) (t : Nat) :
    OneAssignerInv stores t0 (hist ++ Spec.begunFiles [(t, (w.step stores t).2)]) (ended + Spec.endedCount [(t, (w.step stores t).2)]) (w.step stores t).1 := by
  by_cases ht : t = t0
  · subst ht
    unfold RThreads.step
    cases hp : w.phase t with
    | idle =>
      simp only
      cases hc : w.calls t with
      | nil => simpa [Spec.begunFiles, Spec.endedCount] using h
      | cons c cs =>
        rcases h.writer with ⟨h1, h2, h3⟩ | ⟨_, f, _, _, h2, _⟩
        · refine ⟨?_, ?_⟩
          · intro u hu
            obtain ⟨g1, g2⟩ := h.others u hu
            exact ⟨by simpa [hu] using g1, by simpa [RThreads.to, hu] using g2⟩
          · cases c with
            | assign f =>
              refine Or.inr ⟨by simp [Spec.begunFiles, Spec.endedCount, h1], f, [], stores, by simp [RThreads.to], ?_, rfl, ?_⟩
              · simp [Spec.begunFiles, Spec.endedCount, ← h1]
              · intro a
                refine ⟨(fun ha => by cases ha), fun _ => ?_⟩
                have := h3 a
                simp only [Spec.begunFiles, Spec.endedCount, Nat.add_zero]
                rw [List.getElem?_append_left (by omega)]
                exact this
            | ask l =>
              refine Or.inl ⟨by simpa [Spec.begunFiles, Spec.endedCount] using h1, by simp [RThreads.to], ?_⟩
              simpa [Spec.begunFiles, Spec.endedCount, RThreads.to] using h3
        · rw [hp] at h2; cases h2
    | storing j l =>
      rcases h.writer with ⟨_, h2, _⟩ | ⟨h1, f, done, left, h2, h3, h4, h5⟩
      · exact absurd hp (h2 j l)
      · rw [hp] at h2
        cases h2
        cases l with
        | nil =>
          refine ⟨?_, Or.inl ⟨by simp [Spec.begunFiles, Spec.endedCount, h1], by simp [RThreads.to], ?_⟩⟩
          · intro u hu
            obtain ⟨g1, g2⟩ := h.others u hu
            exact ⟨g1, by simpa [RThreads.to, hu] using g2⟩
          · intro a
            have ha : a ∈ done := by
              have := hall a
              rw [h4, List.append_nil] at this
              exact this
            simp only [Spec.begunFiles, Spec.endedCount, List.append_nil, Nat.zero_add]
            show hist[ended + 1]? = some (w.attr a)
            rw [(h5 a).1 ha]
            exact h3
        | cons b l =>
          refine ⟨?_, Or.inr ⟨by simpa [Spec.begunFiles, Spec.endedCount] using h1, j, done ++ [b], l, by simp [RThreads.to], ?_, by rw [h4]; simp, ?_⟩⟩
          · intro u hu
            obtain ⟨g1, g2⟩ := h.others u hu
            exact ⟨g1, by simpa [RThreads.to, hu] using g2⟩
          · simpa [Spec.begunFiles, Spec.endedCount] using h3
          · intro a
            simp only [Spec.begunFiles, Spec.endedCount, List.append_nil, Nat.add_zero, List.mem_append, List.mem_singleton]
            constructor
            · intro ha
              by_cases hab : a = b
              · rw [if_pos hab]
              · rw [if_neg hab]
                exact (h5 a).1 (by rcases ha with ha | ha; exact ha; exact absurd ha hab)
            · intro ha
              rw [if_neg (fun hab => ha (Or.inr hab))]
              exact (h5 a).2 (fun hd => ha (Or.inl hd))
    | asking got l =>
      rcases h.writer with ⟨h1, h2, h3⟩ | ⟨_, f, _, _, h2, _⟩
      · cases l with
        | nil =>
          refine ⟨?_, Or.inl ⟨by simpa [Spec.begunFiles, Spec.endedCount] using h1, by simp [RThreads.to], by simpa [Spec.begunFiles, Spec.endedCount, RThreads.to] using h3⟩⟩
          intro u hu
          obtain ⟨g1, g2⟩ := h.others u hu
          exact ⟨g1, by simpa [RThreads.to, hu] using g2⟩
        | cons b l =>
          refine ⟨?_, Or.inl ⟨by simpa [Spec.begunFiles, Spec.endedCount] using h1, by simp [RThreads.to], by simpa [Spec.begunFiles, Spec.endedCount, RThreads.to] using h3⟩⟩
          intro u hu
          obtain ⟨g1, g2⟩ := h.others u hu
          exact ⟨g1, by simpa [RThreads.to, hu] using g2⟩
      · rw [hp] at h2; cases h2
  · obtain ⟨g1, g2⟩ := h.others t ht
    have hne : t0 ≠ t := fun h => ht h.symm
    have key : Spec.begunFiles [(t, (w.step stores t).2)] = [] ∧ Spec.endedCount [(t, (w.step stores t).2)] = 0 ∧ (w.step stores t).1.attr = w.attr ∧
        (w.step stores t).1.phase t0 = w.phase t0 ∧
        ∀ u, u ≠ t0 → (∀ f, RCall.assign f ∉ (w.step stores t).1.calls u) ∧ ∀ f l, (w.step stores t).1.phase u ≠ .storing f l := by
      unfold RThreads.step
      cases hp : w.phase t with
      | idle =>
        simp only
        cases hc : w.calls t with
        | nil => exact ⟨rfl, rfl, rfl, rfl, h.others⟩
        | cons c cs =>
          cases c with
          | assign f => exact absurd (by rw [hc]; simp) (g1 f)
          | ask l =>
            refine ⟨rfl, rfl, rfl, by simp [RThreads.to, hne], ?_⟩
            intro u hu
            by_cases hut : u = t
            · subst hut
              refine ⟨fun f hf => g1 f ?_, by simp [RThreads.to]⟩
              rw [hc]
              simp only [if_true] at hf
              simp [hf]
            · obtain ⟨k1, k2⟩ := h.others u hu
              exact ⟨by simpa [hut] using k1, by simpa [RThreads.to, hut] using k2⟩
      | storing j l => exact absurd hp (g2 j l)
      | asking got l =>
        cases l with
        | nil =>
          refine ⟨rfl, rfl, rfl, by simp [RThreads.to, hne], ?_⟩
          intro u hu
          obtain ⟨k1, k2⟩ := h.others u hu
          refine ⟨k1, ?_⟩
          by_cases hut : u = t
          · subst hut; simp [RThreads.to]
          · simpa [RThreads.to, hut] using k2
        | cons b l =>
          refine ⟨rfl, rfl, rfl, by simp [RThreads.to, hne], ?_⟩
          intro u hu
          obtain ⟨k1, k2⟩ := h.others u hu
          refine ⟨k1, ?_⟩
          by_cases hut : u = t
          · subst hut; simp [RThreads.to]
          · simpa [RThreads.to, hut] using k2
    obtain ⟨k1, k2, k3, k4, k5⟩ := key
    rw [k1, k2, List.append_nil, Nat.add_zero]
    refine ⟨k5, ?_⟩
    rw [k3, k4]
    exact h.writer

theorem OneAssignerInv.final {stores : List A} (hall : ∀ a : A, a ∈ stores) {t0 : Nat} (ts : List Nat) {hist : List Nat} {ended : Nat} {w : RThreads A}
    (h : OneAssignerInv stores t0 hist ended w) :
    OneAssignerInv stores t0 (hist ++ Spec.begunFiles (w.run stores ts)) (ended + Spec.endedCount (w.run stores ts)) (w.final stores ts) := by
  induction ts generalizing hist ended w with
  | nil => simpa [RThreads.run, Spec.begunFiles, Spec.endedCount, RThreads.final] using h
  | cons t ts ih =>
    have h1 := ih (h.step hall t)
    have hr : w.run stores (t :: ts) = [(t, (w.step stores t).2)] ++ (w.step stores t).1.run stores ts := rfl
    rw [hr, begunFiles_append, endedCount_append, ← List.append_assoc, ← Nat.add_assoc]
    exact h1

/-- What a lookup gets from here on is recent. -/
theorem asking_recent (hall : ∀ a : A, a ∈ stores) (t0 : Nat) (c0 : Nat) (w : RThreads A) (hist : List Nat) (ended : Nat) (hw : OneAssignerInv stores t0 hist ended w) (hc : c0 ≤ ended)
    (t : Nat) (got : List Nat) (left : List A)
    (hp : w.phase t = .asking got left) (hg : ∀ f ∈ got, f ∈ hist.drop c0) (ts : List Nat) (mid post : List (Nat × RSeen A)) (fs : List Nat)
    (h : w.run stores ts = mid ++ (t, .answered fs) :: post) (ha : ∀ gs, (t, RSeen.answered gs) ∉ mid) :
    ∀ f ∈ fs, f ∈ (hist ++ Spec.begunFiles mid).drop c0 := by
  induction ts generalizing w hist ended got left mid with
  | nil => simp [RThreads.run] at h
  | cons u ts ih =>
    have hgrow : ∀ (l : List Nat) x, x ∈ hist.drop c0 → x ∈ (hist ++ l).drop c0 := by
      intro l x hx
      rw [List.drop_append]
      exact List.mem_append_left _ hx
    cases mid with
    | nil =>
      simp only [RThreads.run, List.nil_append, List.cons.injEq, Prod.mk.injEq] at h
      obtain ⟨⟨rfl, h1⟩, _⟩ := h
      cases left with
      | nil =>
        simp only [RThreads.step, hp, RSeen.answered.injEq] at h1
        subst h1
        simpa [Spec.begunFiles] using hg
      | cons a left => simp [RThreads.step, hp] at h1
    | cons p mid =>
      simp only [RThreads.run, List.cons_append, List.cons.injEq] at h
      have hstep := hw.step hall u
      rw [h.1] at hstep
      rw [show Spec.begunFiles (p :: mid) = Spec.begunFiles [p] ++ Spec.begunFiles mid from begunFiles_append [p] mid, ← List.append_assoc]
      by_cases hu : u = t
      · subst hu
        cases left with
        | nil =>
          have hst : w.step stores u = (w.to u .idle, .answered got) := by simp only [RThreads.step, hp]
          rw [hst] at h
          exact absurd (by rw [← h.1]; simp) (ha got)
        | cons a left =>
          have hst : w.step stores u = (w.to u (.asking (got ++ [w.attr a]) left), .loaded a (w.attr a)) := by simp only [RThreads.step, hp]
          refine ih _ _ _ hstep (Nat.le_trans hc (Nat.le_add_right _ _)) (got ++ [w.attr a]) left (by rw [hst]; simp [RThreads.to]) ?_ mid h.2 (fun c hc => ha c (by simp [hc]))
          intro f hf
          apply hgrow
          rcases List.mem_append.1 hf with hf | hf
          · exact hg f hf
          · rw [List.mem_singleton] at hf
            rw [hf]
            have := hw.recent a
            rw [show ended = c0 + (ended - c0) from by omega, ← List.drop_drop] at this
            exact List.mem_of_mem_drop this
      · refine ih _ _ _ hstep (Nat.le_trans hc (Nat.le_add_right _ _)) got left ?_ (fun f hf => hgrow _ f (hg f hf)) mid h.2 (fun c hc => ha c (by simp [hc]))
        have hne : t ≠ u := fun h => hu h.symm
        unfold RThreads.step
        cases hq : w.phase u with
        | idle =>
          simp only
          cases hc : w.calls u with
          | nil => exact hp
          | cons c cs => simp [RThreads.to, hne, hp]
        | storing j l => cases l <;> simp [RThreads.to, hne, hp]
        | asking g l => cases l <;> simp [RThreads.to, hne, hp]

/-- C154: if one thread assigns the files, every dictionary that a lookup gets is that of a file whose assignment ended last before the lookup began, or began later and before the lookup ended. -/
theorem C154_recent (hall : ∀ a : A, a ∈ stores) (calls : Nat → List (RCall A)) (t0 : Nat) (h1 : Spec.OneAssigner calls t0) (ts : List Nat) (t : Nat) (loads : List A)
    (pre mid : List (Nat × RSeen A)) (fs : List Nat) (h : Spec.Lookup ((RThreads.start calls).run stores ts) t loads pre mid fs) :
    ∀ f ∈ fs, f ∈ (0 :: Spec.begunFiles (pre ++ mid)).drop (Spec.endedCount pre) := by
  obtain ⟨ts1, ts2, post, hpre, h2, h3, h4⟩ := lookup_begin stores calls ts t loads pre mid fs h
  have hinv := (OneAssignerInv.start stores h1).final hall (ts1 ++ [t])
  rw [h4, begunFiles_append, endedCount_append] at hinv
  simp only [Spec.begunFiles, Spec.endedCount, List.append_nil, Nat.add_zero, Nat.zero_add] at hinv
  have := asking_recent stores hall t0 (Spec.endedCount pre) _ _ _ hinv (Nat.le_refl _) t [] loads h2 (by intro f hf; cases hf) ts2 mid post fs h3 h.first
  rw [begunFiles_append]
  exact this

/-- C154: if moreover no assignment is under way when the lookup begins and none begins while it runs, all its dictionaries are those of the last file assigned. -/
theorem C154_quiet (hall : ∀ a : A, a ∈ stores) (calls : Nat → List (RCall A)) (t0 : Nat) (h1 : Spec.OneAssigner calls t0) (ts : List Nat) (t : Nat) (loads : List A)
    (pre mid : List (Nat × RSeen A)) (fs : List Nat) (h : Spec.Lookup ((RThreads.start calls).run stores ts) t loads pre mid fs)
    (hq : Spec.endedCount pre = (Spec.begunFiles pre).length) (hn : Spec.begunFiles mid = []) : ∀ f ∈ fs, some f = (0 :: Spec.begunFiles pre).getLast? := by
  intro f hf
  have := C154_recent stores hall calls t0 h1 ts t loads pre mid fs h f hf
  rw [begunFiles_append, hn, List.append_nil, hq] at this
  have hl : ∀ (x : Nat) (l : List Nat), (x :: l).drop l.length = ((x :: l).getLast?).toList := by
    intro x l
    induction l generalizing x with
    | nil => rfl
    | cons y l ih => rw [List.length_cons, List.drop_succ_cons, ih, List.getLast?_cons_cons]
  rw [hl] at this
  cases hgl : (0 :: Spec.begunFiles pre).getLast? with
  | none => rw [hgl] at this; cases this
  | some g =>
    rw [hgl] at this
    simp only [Option.toList, List.mem_singleton] at this
    rw [this]

/-! ### The classes -/

/-- C154: a lookup that needs one attribute (sentence, language, sentence_ids, groups, link, the words of an index, len, in, iter) is answered, if one thread assigns the files, from one file:
the one assigned last before it began, or one whose assignment began later and before it ended. -/
theorem C154_single (hall : ∀ a : A, a ∈ stores) (calls : Nat → List (RCall A)) (t0 : Nat) (h1 : Spec.OneAssigner calls t0) (ts : List Nat) (t : Nat) (a : A)
    (pre mid : List (Nat × RSeen A)) (fs : List Nat) (h : Spec.Lookup ((RThreads.start calls).run stores ts) t [a] pre mid fs) :
    ∃ f, fs = [f] ∧ f ∈ (0 :: Spec.begunFiles (pre ++ mid)).drop (Spec.endedCount pre) := by
  have h2 := (C154_lookup stores calls ts t [a] pre mid fs h).2
  match fs, h2 with
  | [f], _ => exact ⟨f, rfl, C154_recent stores hall calls t0 h1 ts t [a] pre mid [f] h f (by simp)⟩

theorem sentStores_all (a : SentAttr) : a ∈ sentStores := by cases a <;> simp [sentStores]

theorem linkStores_all (a : LinkAttr) : a ∈ linkStores := by cases a <;> simp [linkStores]

/-- C154: so `sentence` answers for one file. -/
theorem C154_sentence {D : Type} (files : Nat → SentData D) (calls : Nat → List (RCall SentAttr)) (t0 : Nat) (h1 : Spec.OneAssigner calls t0) (ts : List Nat) (t : Nat) (i : Int)
    (pre mid : List (Nat × RSeen SentAttr)) (fs : List Nat) (h : Spec.Lookup ((RThreads.start calls).run sentStores ts) t [.sentence] pre mid fs) :
    ∃ f ∈ (0 :: Spec.begunFiles (pre ++ mid)).drop (Spec.endedCount pre), threadSentence files i fs = Dict.getItem (files f).sent i := by
  obtain ⟨f, rfl, hf⟩ := C154_single sentStores sentStores_all calls t0 h1 ts t .sentence pre mid fs h
  exact ⟨f, hf, rfl⟩

/-- C154: `reader[i]` of a links reader finds the group in one file and its number in another, each of which may be any file assigned last or assigned meanwhile; if no assignment is under way
and none begins, both are the last file, and the answer is that of the file. -/
theorem C154_group (files : Nat → LinkData) (calls : Nat → List (RCall LinkAttr)) (t0 : Nat) (h1 : Spec.OneAssigner calls t0) (ts : List Nat) (t : Nat) (i : Int)
    (pre mid : List (Nat × RSeen LinkAttr)) (fs : List Nat) (h : Spec.Lookup ((RThreads.start calls).run linkStores ts) t linkLoads pre mid fs) :
    (∃ g ∈ (0 :: Spec.begunFiles (pre ++ mid)).drop (Spec.endedCount pre), ∃ l ∈ (0 :: Spec.begunFiles (pre ++ mid)).drop (Spec.endedCount pre),
      threadGroup files i fs = (match Dict.getItem (files l).link i with | .ok node => Dict.getItem (files g).group node | .error e => .error e)) ∧
    (Spec.endedCount pre = (Spec.begunFiles pre).length → Spec.begunFiles mid = [] →
      ∃ f, (0 :: Spec.begunFiles pre).getLast? = some f ∧ threadGroup files i fs = (files f).getItem i) := by
  have h2 := (C154_lookup linkStores calls ts t linkLoads pre mid fs h).2
  have h3 := C154_recent linkStores linkStores_all calls t0 h1 ts t linkLoads pre mid fs h
  match fs, h2 with
  | [g, l], _ =>
    refine ⟨⟨g, h3 g (by simp), l, h3 l (by simp), ?_⟩, ?_⟩
    · simp only [threadGroup]
      cases Dict.getItem (files l).link i <;> rfl
    · intro hq hn
      have h4 := C154_quiet linkStores linkStores_all calls t0 h1 ts t linkLoads pre mid [g, l] h hq hn
      have hg := h4 g (by simp)
      have hl := h4 l (by simp)
      refine ⟨g, hg.symm, ?_⟩
      have : g = l := Option.some.inj (hg.trans hl.symm)
      subst this
      simp only [threadGroup, LinkData.getItem, bind, Except.bind]
      cases Dict.getItem (files g).link i <;> rfl

/-- C154: `details` answers for a file that was assigned last or meanwhile, or raises `TypeError`: exactly if it found a detailed file when it asked for `None` and a plain one after that. -/
theorem C154_details {D : Type} (files : Nat → SentData D) (calls : Nat → List (RCall SentAttr)) (t0 : Nat) (h1 : Spec.OneAssigner calls t0) (ts : List Nat) (t : Nat) (i : Int)
    (pre mid : List (Nat × RSeen SentAttr)) (fs : List Nat) (h : Spec.Lookup ((RThreads.start calls).run sentStores ts) t [.info, .info] pre mid fs) :
    ∃ f ∈ (0 :: Spec.begunFiles (pre ++ mid)).drop (Spec.endedCount pre), ∃ g ∈ (0 :: Spec.begunFiles (pre ++ mid)).drop (Spec.endedCount pre),
      Spec.loadsBy t mid = [(.info, f), (.info, g)] ∧
      (threadDetails files i fs = .error .typeError ↔ (files f).info.isSome ∧ (files g).info = none) ∧
      (threadDetails files i fs ≠ .error .typeError → threadDetails files i fs = (files f).details i ∨ threadDetails files i fs = (files g).details i) := by
  have h2 := C154_lookup sentStores calls ts t [.info, .info] pre mid fs h
  have h3 := C154_recent sentStores sentStores_all calls t0 h1 ts t [.info, .info] pre mid fs h
  match fs, h2 with
  | [f, g], h2 =>
    refine ⟨f, h3 f (by simp), g, h3 g (by simp), h2.1, ?_, ?_⟩
    · simp only [threadDetails]
      cases (files f).info with
      | none => simp
      | some x =>
        cases (files g).info with
        | none => simp
        | some info => cases hg : Dict.get? info i <;> simp [hg]
    · simp only [threadDetails, SentData.details]
      cases (files f).info with
      | none => simp
      | some x =>
        cases (files g).info with
        | none => simp
        | some info => exact fun _ => Or.inr rfl

/-! ### What goes wrong -/

/-- The data of a links file. -/
def linksOf (rows : List (List Str)) : LinkData := (linkLoad none (false, false) (rows, none)).toOption.getD ⟨[], [], 0⟩

/-- Two files with the same links in different order. -/
def twoFiles : Nat → LinkData
  | 0 => linksOf [[u!"1", u!"2"], [u!"3", u!"4"]]
  | _ => linksOf [[u!"3", u!"4"], [u!"1", u!"2"]]

/-- C154: while another thread assigns a file, a links reader may answer with a group which does not contain the sentence and that neither file gives. -/
theorem C154_wrong_group :
    Spec.Lookup ((RThreads.start (fun t => if t = 0 then [.assign 1] else if t = 1 then [.ask linkLoads] else [])).run linkStores [1, 1, 0, 0, 1, 1]) 1 linkLoads []
        [(1, .loaded .group 0), (0, .began (.assign 1)), (0, .stored .link 1), (1, .loaded .link 1)] [0, 1] ∧
      threadGroup twoFiles 1 [0, 1] = .ok [4, 3] ∧ (twoFiles 0).getItem 1 = .ok [2, 1] ∧ (twoFiles 1).getItem 1 = .ok [2, 1] := by
  refine ⟨⟨⟨[], rfl⟩, ?_⟩, by decide +kernel, by decide +kernel, by decide +kernel⟩
  intro fs hm
  simp at hm

/-- C154: two threads that assign files at the same time may leave a links reader that gives wrong groups although no assignment is under way. -/
theorem C154_two_writers :
    Spec.Lookup ((RThreads.start (fun t => if t = 0 then [.assign 1] else if t = 1 then [.assign 2] else if t = 2 then [.ask linkLoads] else [])).run linkStores
          [0, 1, 0, 1, 1, 0, 0, 1, 2, 2, 2, 2]) 2 linkLoads
        [(0, .began (.assign 1)), (1, .began (.assign 2)), (0, .stored .link 1), (1, .stored .link 2), (1, .stored .group 2), (0, .stored .group 1), (0, .assigned 1), (1, .assigned 2)]
        [(2, .loaded .group 1), (2, .loaded .link 2)] [1, 2] ∧
      threadGroup (fun f => twoFiles (f - 1)) 1 [1, 2] = .ok [4, 3] := by
  refine ⟨⟨⟨[], rfl⟩, ?_⟩, by decide +kernel⟩
  intro fs hm
  simp at hm

/-- C154: `details` may raise `TypeError` while a plain file is assigned to a reader with a detailed one. -/
theorem C154_type_error (files : Nat → SentData Unit) (h0 : (files 0).info.isSome) (h1 : (files 1).info = none) :
    Spec.Lookup ((RThreads.start (fun t => if t = 0 then [.assign 1] else if t = 1 then [.ask [.info, .info]] else [])).run sentStores [1, 1, 0, 0, 0, 0, 1, 1]) 1
        [.info, .info] []
        [(1, .loaded .info 0), (0, .began (.assign 1)), (0, .stored .language 1), (0, .stored .sentence 1), (0, .stored .info 1), (1, .loaded .info 1)] [0, 1] ∧
      threadDetails files 1 [0, 1] = .error .typeError := by
  refine ⟨⟨⟨[], rfl⟩, ?_⟩, ?_⟩
  · intro fs hm
    simp at hm
  · simp only [threadDetails, h1]
    cases h : (files 0).info with
    | none => rw [h] at h0; cases h0
    | some x => rfl

/-- The hypotheses of the theorems about one thread that assigns are met by the threads of `C154_wrong_group`, and by a lookup behind the assignment. -/
example : Spec.OneAssigner (fun t => if t = 0 then [RCall.assign 1] else if t = 1 then [.ask linkLoads] else []) 0 := by
  intro t ht f hf
  simp only [if_neg ht] at hf
  split at hf <;> simp at hf

example : Spec.Lookup ((RThreads.start (fun t => if t = 0 then [.assign 1] else if t = 1 then [.ask linkLoads] else [])).run linkStores [0, 0, 0, 0, 1, 1, 1, 1]) 1 linkLoads
    [(0, .began (.assign 1)), (0, .stored .link 1), (0, .stored .group 1), (0, .assigned 1)] [(1, .loaded .group 1), (1, .loaded .link 1)] [1, 1] := by
  refine ⟨⟨[], rfl⟩, ?_⟩
  intro fs hm
  simp at hm

end Cjk
