import Verif.Model.CachedThreads
/-!
# The memory-cached getters, used by several threads at the same time (C119)
-/

namespace Cjk
open Py

variable {O : Type}

/-- Where the outcome of a call comes from, given what was observed before it ended. -/
def Spec.GotFrom (before : List (GObs O)) (i : Nat) : Except PyErr O → Prop
  | .ok o => ∃ j, .made j o ∈ before
  | .error e => .failed i e ∈ before

/-- No call is under way. -/
def Spec.NoneUnderWay (log : List (GObs O)) : Prop := ∀ i, .began i ∈ log → ∃ r, .ended i r ∈ log

/-- What may be observed when the cache is settled on `o`: calls begin and return `o`; and, with eager getters, constructors run, and calls raise. -/
def Spec.Settled (kind : GetterKind) (o : O) : GObs O → Prop
  | .began _ => True
  | .ended _ (.ok o') => o' = o
  | _ => kind ≠ .lazy

/-- No constructor starts before the calls that started one have ended. -/
def Spec.OneAtATime (log : List (GObs O)) : Prop :=
  ∀ after before i, log = after ++ .making i :: before → ∀ j, .making j ∈ before → ∃ r, .ended j r ∈ before

/-- What one step can do. -/
inductive GCase (kind : GetterKind) (w : GThreads O) : GThreads O → Prop
  | stay : GCase kind w w
  | beginLazy (i : Nat) : w.calls i = .idle → GCase kind w ((w.to i .checking).note (.began i))
  | beginEager (i : Nat) : w.calls i = .idle → kind ≠ .lazy → GCase kind w (((w.to i .making).note (.began i)).note (.making i))
  | hit (i : Nat) (o : O) : w.calls i = .checking → w.cache = some o → GCase kind w (w.to i .reading)
  | miss (i : Nat) : w.calls i = .checking → w.cache = none → GCase kind w ((w.to i .making).note (.making i))
  | choose (i : Nat) (o : O) : w.calls i = .choosing o → GCase kind w (w.to i (.storing (w.cache.getD o)))
  | store (i : Nat) (o : O) : w.calls i = .storing o → GCase kind w (({ w with cache := some o } : GThreads O).to i .reading)
  | storeLocal (i : Nat) (o : O) : w.calls i = .storing o →
      GCase kind w ((({ w with cache := some o } : GThreads O).to i .done).note (.ended i (.ok o)))
  | read (i : Nat) (o : O) : w.calls i = .reading → w.cache = some o → GCase kind w ((w.to i .done).note (.ended i (.ok o)))
  | readNone (i : Nat) : w.calls i = .reading → w.cache = none → GCase kind w ((w.to i .done).note (.ended i (.error .attributeError)))
  | madeLazy (i : Nat) (o : O) : w.calls i = .making → kind = .lazy → GCase kind w ((w.to i (.storing o)).note (.made i o))
  | madeEager (i : Nat) (o : O) : w.calls i = .making → kind ≠ .lazy → GCase kind w ((w.to i (.choosing o)).note (.made i o))
  | failed (i : Nat) (e : PyErr) : w.calls i = .making → GCase kind w (((w.to i .done).note (.failed i e)).note (.ended i (.error e)))

theorem getterStep_case (kind : GetterKind) (w : GThreads O) (ev : GEv O) : GCase kind w (getterStep kind w ev) := by
  cases ev with
  | call i =>
    simp only [getterStep]
    split
    · rename_i hi
      cases kind with
      | lazy => exact .beginLazy i hi
      | eager => exact .beginEager i hi (by simp)
      | eagerLocal => exact .beginEager i hi (by simp)
    · exact .stay
  | step i =>
    simp only [getterStep]
    split
    · rename_i hi
      split
      · rename_i o hc; exact .hit i o hi hc
      · rename_i hc; exact .miss i hi hc
    · rename_i o hi; exact .choose i o hi
    · rename_i o hi
      cases kind with
      | lazy => exact .store i o hi
      | eager => exact .store i o hi
      | eagerLocal => exact .storeLocal i o hi
    · rename_i hi
      split
      · rename_i o hc; exact .read i o hi hc
      · rename_i hc; exact .readNone i hi hc
    · exact .stay
  | finish i r =>
    simp only [getterStep]
    split
    · rename_i hi
      cases r with
      | ok o =>
        cases kind with
        | lazy => exact .madeLazy i o hi rfl
        | eager => exact .madeEager i o hi (by simp)
        | eagerLocal => exact .madeEager i o hi (by simp)
      | error e => exact .failed i e hi
    · exact .stay

/-- What holds at all times. -/
structure GInv (w : GThreads O) : Prop where
  cache : ∀ o, w.cache = some o → ∃ j, GObs.made j o ∈ w.log
  choosing : ∀ i o, w.calls i = .choosing o → ∃ j, GObs.made j o ∈ w.log
  storing : ∀ i o, w.calls i = .storing o → ∃ j, GObs.made j o ∈ w.log
  reading : ∀ i, w.calls i = .reading → w.cache.isSome
  began : ∀ i, w.calls i ≠ .idle → GObs.began i ∈ w.log
  ended : ∀ i r, GObs.ended i r ∈ w.log → w.calls i = .done
  endedOk : ∀ i o, GObs.ended i (.ok o) ∈ w.log → w.cache.isSome
  from_ : ∀ after before i r, w.log = after ++ .ended i r :: before → Spec.GotFrom before i r

theorem gotFrom_cons {log : List (GObs O)} {o : GObs O}
    (h : ∀ after before i r, log = after ++ .ended i r :: before → Spec.GotFrom before i r)
    (ho : ∀ i r, o = .ended i r → Spec.GotFrom log i r) :
    ∀ after before i r, o :: log = after ++ .ended i r :: before → Spec.GotFrom before i r := by
  intro after before i r he
  cases after with
  | nil =>
    simp only [List.nil_append, List.cons.injEq] at he
    obtain ⟨h1, rfl⟩ := he
    exact ho i r h1
  | cons a after =>
    simp only [List.cons_append, List.cons.injEq] at he
    exact h after before i r he.2

theorem GCase.inv {kind : GetterKind} {w w' : GThreads O} (hc : GCase kind w w') (h : GInv w) : GInv w' := by
  have more : ∀ {o : O} {x : GObs O} {l : List (GObs O)}, (∃ j, GObs.made j o ∈ l) → ∃ j, GObs.made j o ∈ x :: l :=
    fun ⟨j, hj⟩ => ⟨j, List.mem_cons_of_mem _ hj⟩
  cases hc with
  | stay => exact h
  | beginLazy i hi =>
    refine ⟨fun o ho => more (h.cache o ho), ?_, ?_, ?_, ?_, ?_, ?_, gotFrom_cons h.from_ (by intro _ _ e; cases e)⟩
    · intro j o hj
      change (if j = i then _ else _) = _ at hj
      split at hj
      · cases hj
      · exact more (h.choosing j o hj)
    · intro j o hj
      change (if j = i then _ else _) = _ at hj
      split at hj
      · cases hj
      · exact more (h.storing j o hj)
    · intro j hj
      change (if j = i then _ else _) = _ at hj
      split at hj
      · cases hj
      · exact h.reading j hj
    · intro j hj
      change (if j = i then _ else _) ≠ _ at hj
      split at hj
      · rename_i e; subst e; exact List.mem_cons_self
      · exact List.mem_cons_of_mem _ (h.began j hj)
    · intro j r hm
      rcases List.mem_cons.1 hm with hm | hm
      · cases hm
      · have := h.ended j r hm
        change (if j = i then _ else _) = _
        split
        · rename_i e; subst e; rw [hi] at this; cases this
        · exact this
    · intro j o hm
      rcases List.mem_cons.1 hm with hm | hm
      · cases hm
      · exact h.endedOk j o hm
  | beginEager i hi hk =>
    refine ⟨fun o ho => more (more (h.cache o ho)), ?_, ?_, ?_, ?_, ?_, ?_,
      gotFrom_cons (gotFrom_cons h.from_ (by intro _ _ e; cases e)) (by intro _ _ e; cases e)⟩
    · intro j o hj
      change (if j = i then _ else _) = _ at hj
      split at hj
      · cases hj
      · exact more (more (h.choosing j o hj))
    · intro j o hj
      change (if j = i then _ else _) = _ at hj
      split at hj
      · cases hj
      · exact more (more (h.storing j o hj))
    · intro j hj
      change (if j = i then _ else _) = _ at hj
      split at hj
      · cases hj
      · exact h.reading j hj
    · intro j hj
      change (if j = i then _ else _) ≠ _ at hj
      split at hj
      · rename_i e; subst e; exact List.mem_cons_of_mem _ List.mem_cons_self
      · exact List.mem_cons_of_mem _ (List.mem_cons_of_mem _ (h.began j hj))
    · intro j r hm
      rcases List.mem_cons.1 hm with hm | hm
      · cases hm
      · rcases List.mem_cons.1 hm with hm | hm
        · cases hm
        · have := h.ended j r hm
          change (if j = i then _ else _) = _
          split
          · rename_i e; subst e; rw [hi] at this; cases this
          · exact this
    · intro j o hm
      rcases List.mem_cons.1 hm with hm | hm
      · cases hm
      · rcases List.mem_cons.1 hm with hm | hm
        · cases hm
        · exact h.endedOk j o hm
  | hit i o hi hcache =>
    refine ⟨h.cache, ?_, ?_, ?_, ?_, ?_, h.endedOk, h.from_⟩
    · intro j o hj
      change (if j = i then _ else _) = _ at hj
      split at hj
      · cases hj
      · exact h.choosing j o hj
    · intro j o hj
      change (if j = i then _ else _) = _ at hj
      split at hj
      · cases hj
      · exact h.storing j o hj
    · intro j hj
      change w.cache.isSome = true
      rw [hcache]; rfl
    · intro j hj
      change (if j = i then _ else _) ≠ _ at hj
      split at hj
      · rename_i e; subst e; exact h.began j (by rw [hi]; simp)
      · exact h.began j hj
    · intro j r hm
      have := h.ended j r hm
      change (if j = i then _ else _) = _
      split
      · rename_i e; subst e; rw [hi] at this; cases this
      · exact this
  | miss i hi hcache =>
    refine ⟨fun o ho => more (h.cache o ho), ?_, ?_, ?_, ?_, ?_, ?_, gotFrom_cons h.from_ (by intro _ _ e; cases e)⟩
    · intro j o hj
      change (if j = i then _ else _) = _ at hj
      split at hj
      · cases hj
      · exact more (h.choosing j o hj)
    · intro j o hj
      change (if j = i then _ else _) = _ at hj
      split at hj
      · cases hj
      · exact more (h.storing j o hj)
    · intro j hj
      change (if j = i then _ else _) = _ at hj
      split at hj
      · cases hj
      · exact h.reading j hj
    · intro j hj
      change (if j = i then _ else _) ≠ _ at hj
      split at hj
      · rename_i e; subst e; exact List.mem_cons_of_mem _ (h.began j (by rw [hi]; simp))
      · exact List.mem_cons_of_mem _ (h.began j hj)
    · intro j r hm
      rcases List.mem_cons.1 hm with hm | hm
      · cases hm
      · have := h.ended j r hm
        change (if j = i then _ else _) = _
        split
        · rename_i e; subst e; rw [hi] at this; cases this
        · exact this
    · intro j o hm
      rcases List.mem_cons.1 hm with hm | hm
      · cases hm
      · exact h.endedOk j o hm
  | choose i o hi =>
    refine ⟨h.cache, ?_, ?_, ?_, ?_, ?_, h.endedOk, h.from_⟩
    · intro j o hj
      change (if j = i then _ else _) = _ at hj
      split at hj
      · cases hj
      · exact h.choosing j o hj
    · intro j o' hj
      change (if j = i then _ else _) = _ at hj
      split at hj
      · cases hc : w.cache with
        | none => rw [hc] at hj; cases hj; exact h.choosing i _ hi
        | some c => rw [hc] at hj; cases hj; exact h.cache _ hc
      · exact h.storing j o' hj
    · intro j hj
      change (if j = i then _ else _) = _ at hj
      split at hj
      · cases hj
      · exact h.reading j hj
    · intro j hj
      change (if j = i then _ else _) ≠ _ at hj
      split at hj
      · rename_i e; subst e; exact h.began j (by rw [hi]; simp)
      · exact h.began j hj
    · intro j r hm
      have := h.ended j r hm
      change (if j = i then _ else _) = _
      split
      · rename_i e; subst e; rw [hi] at this; cases this
      · exact this
  | store i o hi =>
    refine ⟨?_, ?_, ?_, fun _ _ => rfl, ?_, ?_, fun _ _ _ => rfl, h.from_⟩
    · intro o' ho'
      cases ho'
      exact h.storing i o hi
    · intro j o hj
      change (if j = i then _ else _) = _ at hj
      split at hj
      · cases hj
      · exact h.choosing j o hj
    · intro j o hj
      change (if j = i then _ else _) = _ at hj
      split at hj
      · cases hj
      · exact h.storing j o hj
    · intro j hj
      change (if j = i then _ else _) ≠ _ at hj
      split at hj
      · rename_i e; subst e; exact h.began j (by rw [hi]; simp)
      · exact h.began j hj
    · intro j r hm
      have := h.ended j r hm
      change (if j = i then _ else _) = _
      split
      · rename_i e; subst e; rw [hi] at this; cases this
      · exact this
  | storeLocal i o hi =>
    refine ⟨?_, ?_, ?_, fun _ _ => rfl, ?_, ?_, fun _ _ _ => rfl, gotFrom_cons h.from_ (by intro _ _ e; cases e; exact h.storing i o hi)⟩
    · intro o' ho'
      cases ho'
      exact more (h.storing i o hi)
    · intro j o hj
      change (if j = i then _ else _) = _ at hj
      split at hj
      · cases hj
      · exact more (h.choosing j o hj)
    · intro j o hj
      change (if j = i then _ else _) = _ at hj
      split at hj
      · cases hj
      · exact more (h.storing j o hj)
    · intro j hj
      change (if j = i then _ else _) ≠ _ at hj
      split at hj
      · rename_i e; subst e; exact List.mem_cons_of_mem _ (h.began j (by rw [hi]; simp))
      · exact List.mem_cons_of_mem _ (h.began j hj)
    · intro j r hm
      change (if j = i then _ else _) = _
      split
      · rfl
      · rename_i hne
        rcases List.mem_cons.1 hm with hm | hm
        · cases hm; exact absurd rfl hne
        · exact h.ended j r hm
  | read i o hi hcache =>
    refine ⟨fun o ho => more (h.cache o ho), ?_, ?_, ?_, ?_, ?_, ?_,
      gotFrom_cons h.from_ (by intro _ _ e; cases e; exact h.cache o hcache)⟩
    · intro j o hj
      change (if j = i then _ else _) = _ at hj
      split at hj
      · cases hj
      · exact more (h.choosing j o hj)
    · intro j o hj
      change (if j = i then _ else _) = _ at hj
      split at hj
      · cases hj
      · exact more (h.storing j o hj)
    · intro j hj
      change w.cache.isSome = true
      rw [hcache]; rfl
    · intro j hj
      change (if j = i then _ else _) ≠ _ at hj
      split at hj
      · rename_i e; subst e; exact List.mem_cons_of_mem _ (h.began j (by rw [hi]; simp))
      · exact List.mem_cons_of_mem _ (h.began j hj)
    · intro j r hm
      change (if j = i then _ else _) = _
      split
      · rfl
      · rename_i hne
        rcases List.mem_cons.1 hm with hm | hm
        · cases hm; exact absurd rfl hne
        · exact h.ended j r hm
    · intro j o hm
      change w.cache.isSome = true
      rw [hcache]; rfl
  | readNone i hi hcache =>
    have := h.reading i hi
    rw [hcache] at this; cases this
  | madeLazy i o hi hk =>
    refine ⟨fun o ho => more (h.cache o ho), ?_, ?_, ?_, ?_, ?_, ?_, gotFrom_cons h.from_ (by intro _ _ e; cases e)⟩
    · intro j o hj
      change (if j = i then _ else _) = _ at hj
      split at hj
      · cases hj
      · exact more (h.choosing j o hj)
    · intro j o hj
      change (if j = i then _ else _) = _ at hj
      split at hj
      · cases hj; exact ⟨i, List.mem_cons_self⟩
      · exact more (h.storing j o hj)
    · intro j hj
      change (if j = i then _ else _) = _ at hj
      split at hj
      · cases hj
      · exact h.reading j hj
    · intro j hj
      change (if j = i then _ else _) ≠ _ at hj
      split at hj
      · rename_i e; subst e; exact List.mem_cons_of_mem _ (h.began j (by rw [hi]; simp))
      · exact List.mem_cons_of_mem _ (h.began j hj)
    · intro j r hm
      rcases List.mem_cons.1 hm with hm | hm
      · cases hm
      · have := h.ended j r hm
        change (if j = i then _ else _) = _
        split
        · rename_i e; subst e; rw [hi] at this; cases this
        · exact this
    · intro j o hm
      rcases List.mem_cons.1 hm with hm | hm
      · cases hm
      · exact h.endedOk j o hm
  | madeEager i o hi hk =>
    refine ⟨fun o ho => more (h.cache o ho), ?_, ?_, ?_, ?_, ?_, ?_, gotFrom_cons h.from_ (by intro _ _ e; cases e)⟩
    · intro j o hj
      change (if j = i then _ else _) = _ at hj
      split at hj
      · cases hj; exact ⟨i, List.mem_cons_self⟩
      · exact more (h.choosing j o hj)
    · intro j o hj
      change (if j = i then _ else _) = _ at hj
      split at hj
      · cases hj
      · exact more (h.storing j o hj)
    · intro j hj
      change (if j = i then _ else _) = _ at hj
      split at hj
      · cases hj
      · exact h.reading j hj
    · intro j hj
      change (if j = i then _ else _) ≠ _ at hj
      split at hj
      · rename_i e; subst e; exact List.mem_cons_of_mem _ (h.began j (by rw [hi]; simp))
      · exact List.mem_cons_of_mem _ (h.began j hj)
    · intro j r hm
      rcases List.mem_cons.1 hm with hm | hm
      · cases hm
      · have := h.ended j r hm
        change (if j = i then _ else _) = _
        split
        · rename_i e; subst e; rw [hi] at this; cases this
        · exact this
    · intro j o hm
      rcases List.mem_cons.1 hm with hm | hm
      · cases hm
      · exact h.endedOk j o hm
  | failed i e hi =>
    refine ⟨fun o ho => more (more (h.cache o ho)), ?_, ?_, ?_, ?_, ?_, ?_,
      gotFrom_cons (gotFrom_cons h.from_ (by intro _ _ e; cases e)) (by intro _ _ e; cases e; exact List.mem_cons_self)⟩
    · intro j o hj
      change (if j = i then _ else _) = _ at hj
      split at hj
      · cases hj
      · exact more (more (h.choosing j o hj))
    · intro j o hj
      change (if j = i then _ else _) = _ at hj
      split at hj
      · cases hj
      · exact more (more (h.storing j o hj))
    · intro j hj
      change (if j = i then _ else _) = _ at hj
      split at hj
      · cases hj
      · exact h.reading j hj
    · intro j hj
      change (if j = i then _ else _) ≠ _ at hj
      split at hj
      · rename_i e; subst e; exact List.mem_cons_of_mem _ (List.mem_cons_of_mem _ (h.began j (by rw [hi]; simp)))
      · exact List.mem_cons_of_mem _ (List.mem_cons_of_mem _ (h.began j hj))
    · intro j r hm
      change (if j = i then _ else _) = _
      split
      · rfl
      · rename_i hne
        rcases List.mem_cons.1 hm with hm | hm
        · cases hm; exact absurd rfl hne
        · rcases List.mem_cons.1 hm with hm | hm
          · cases hm
          · exact h.ended j r hm
    · intro j o hm
      rcases List.mem_cons.1 hm with hm | hm
      · cases hm
      · rcases List.mem_cons.1 hm with hm | hm
        · cases hm
        · exact h.endedOk j o hm

theorem getterRun_inv (kind : GetterKind) (evs : List (GEv O)) : GInv (getterRun kind evs) := by
  have go : ∀ (evs : List (GEv O)) w, GInv w → GInv (evs.foldl (getterStep kind) w) := by
    intro evs
    induction evs with
    | nil => intro w h; exact h
    | cons e evs ih => intro w h; exact ih _ ((getterStep_case kind w e).inv h)
  refine go evs _ ⟨?_, ?_, ?_, ?_, ?_, ?_, ?_, ?_⟩
  · intro o h; cases h
  · intro i o h; cases h
  · intro i o h; cases h
  · intro i h; cases h
  · intro i h; exact absurd rfl h
  · intro i r h; cases h
  · intro i o h; cases h
  · intro after before i r h; cases after <;> cases h

/-- C119: whatever the steps of the calls: a call returns an object that a constructor has given before, or raises what the constructor raised that it started
itself. -/
theorem C119_origin_partial (kind : GetterKind) (evs : List (GEv O)) (after before : List (GObs O)) (i : Nat) (r : Except PyErr O)
    (h : (getterRun kind evs).log = after ++ .ended i r :: before) : Spec.GotFrom before i r := (getterRun_inv kind evs).from_ after before i r h

/-- What holds once the cache is settled. -/
def GSettled (kind : GetterKind) (o : O) (w : GThreads O) : Prop :=
  w.cache = some o ∧ ∀ i, (w.calls i = .making → kind ≠ .lazy) ∧ (∀ x, w.calls i = .choosing x → kind ≠ .lazy) ∧
    (∀ x, w.calls i = .storing x → x = o ∧ kind ≠ .lazy)

theorem GCase.settled {kind : GetterKind} {o : O} {w w' : GThreads O} (hc : GCase kind w w') (h : GSettled kind o w) :
    GSettled kind o w' ∧ ∃ new, w'.log = new ++ w.log ∧ ∀ x ∈ new, Spec.Settled kind o x := by
  obtain ⟨hcache, hcalls⟩ := h
  have step : ∀ (i : Nat) (ph : GPhase O), (ph = .making → kind ≠ .lazy) → (∀ x, ph = .choosing x → kind ≠ .lazy) →
      (∀ x, ph = .storing x → x = o ∧ kind ≠ .lazy) → ∀ j, ((w.to i ph).calls j = .making → kind ≠ .lazy) ∧
        (∀ x, (w.to i ph).calls j = .choosing x → kind ≠ .lazy) ∧ (∀ x, (w.to i ph).calls j = .storing x → x = o ∧ kind ≠ .lazy) := by
    intro i ph h1 h2 h3 j
    rw [show (w.to i ph).calls j = if j = i then ph else w.calls j from rfl]
    split
    · exact ⟨h1, h2, h3⟩
    · exact hcalls j
  cases hc with
  | stay => exact ⟨⟨hcache, hcalls⟩, [], rfl, by simp⟩
  | beginLazy i hi => exact ⟨⟨hcache, step i .checking (by simp) (by simp) (by simp)⟩, [.began i], rfl, by simp [Spec.Settled]⟩
  | beginEager i hi hk =>
    exact ⟨⟨hcache, step i .making (fun _ => hk) (by simp) (by simp)⟩, [.making i, .began i], rfl, by simp [Spec.Settled, hk]⟩
  | hit i x hi hx => exact ⟨⟨hcache, step i .reading (by simp) (by simp) (by simp)⟩, [], rfl, by simp⟩
  | miss i hi hx => rw [hcache] at hx; cases hx
  | choose i x hi =>
    have hk := (hcalls i).2.1 x hi
    refine ⟨⟨hcache, step i (.storing (w.cache.getD x)) (by simp) (by simp) ?_⟩, [], rfl, by simp⟩
    intro y hy
    rw [hcache] at hy
    cases hy
    exact ⟨rfl, hk⟩
  | store i x hi =>
    obtain ⟨rfl, hk⟩ := (hcalls i).2.2 x hi
    exact ⟨⟨rfl, step i .reading (by simp) (by simp) (by simp)⟩, [], rfl, by simp⟩
  | storeLocal i x hi =>
    obtain ⟨rfl, hk⟩ := (hcalls i).2.2 x hi
    exact ⟨⟨rfl, step i .done (by simp) (by simp) (by simp)⟩, [.ended i (.ok x)], rfl, by simp [Spec.Settled]⟩
  | read i x hi hx =>
    rw [hcache] at hx; cases hx
    exact ⟨⟨hcache, step i .done (by simp) (by simp) (by simp)⟩, [.ended i (.ok o)], rfl, by simp [Spec.Settled]⟩
  | readNone i hi hx => rw [hcache] at hx; cases hx
  | madeLazy i x hi hk => exact absurd hk ((hcalls i).1 hi)
  | madeEager i x hi hk =>
    exact ⟨⟨hcache, step i (.choosing x) (by simp) (fun _ _ => hk) (by simp)⟩, [.made i x], rfl, by simp [Spec.Settled, hk]⟩
  | failed i e hi =>
    have hk := (hcalls i).1 hi
    exact ⟨⟨hcache, step i .done (by simp) (by simp) (by simp)⟩, [.ended i (.error e), .failed i e], rfl, by simp [Spec.Settled, hk]⟩

theorem settled_run (kind : GetterKind) (o : O) (evs : List (GEv O)) (w : GThreads O) (h : GSettled kind o w) :
    ∃ new, (evs.foldl (getterStep kind) w).log = new ++ w.log ∧ ∀ x ∈ new, Spec.Settled kind o x := by
  induction evs generalizing w with
  | nil => exact ⟨[], rfl, by simp⟩
  | cons e evs ih =>
    obtain ⟨h1, new, h2, h3⟩ := (getterStep_case kind w e).settled h
    obtain ⟨new', h4, h5⟩ := ih _ h1
    refine ⟨new' ++ new, ?_, ?_⟩
    · rw [List.foldl_cons, h4, h2, List.append_assoc]
    · intro x hx
      rcases List.mem_append.1 hx with hx | hx
      · exact h5 x hx
      · exact h3 x hx

/-- C119: when a call has succeeded and no call is under way, the cache is settled: there is one object that all later calls return, to whatever thread; a lazy getter
never runs the constructor again and does not raise. -/
theorem C119_settled_partial (kind : GetterKind) (evs : List (GEv O)) (hq : Spec.NoneUnderWay (getterRun kind evs).log)
    (hs : ∃ i o, .ended i (.ok o) ∈ (getterRun kind evs).log) :
    ∃ o, (∃ j, .made j o ∈ (getterRun kind evs).log) ∧
      ∀ evs', ∃ new, (getterRun kind (evs ++ evs')).log = new ++ (getterRun kind evs).log ∧ ∀ x ∈ new, Spec.Settled kind o x := by
  have h := getterRun_inv kind evs
  obtain ⟨i, o', hi⟩ := hs
  have hsome := h.endedOk i o' hi
  cases hc : (getterRun kind evs).cache with
  | none => rw [hc] at hsome; cases hsome
  | some o =>
    refine ⟨o, h.cache o hc, fun evs' => ?_⟩
    rw [show getterRun kind (evs ++ evs') = evs'.foldl (getterStep kind) (getterRun kind evs) by simp [getterRun]]
    refine settled_run kind o evs' _ ⟨hc, fun j => ?_⟩
    have hj : (getterRun kind evs).calls j = .idle ∨ (getterRun kind evs).calls j = .done := by
      by_cases hid : (getterRun kind evs).calls j = .idle
      · exact Or.inl hid
      · obtain ⟨r, hr⟩ := hq j (h.began j hid)
        exact Or.inr (h.ended j r hr)
    rcases hj with hj | hj <;> rw [hj] <;> simp

/-- The constructor was started by the call, and its object is not stored yet. -/
def GPhase.busy : GPhase O → Bool
  | .making => true
  | .choosing _ => true
  | .storing _ => true
  | _ => false

/-- What holds when constructors never overlap. -/
structure GAlone (kind : GetterKind) (w : GThreads O) : Prop where
  making : ∀ i, (w.calls i).busy = true → GObs.making i ∈ w.log
  one : ∀ i j, (w.calls i).busy = true → (w.calls j).busy = true → i = j
  lazyNone : kind = .lazy → ∀ i, (w.calls i).busy = true → w.cache = none
  storing : ∀ i o, w.calls i = .storing o → w.cache = none ∨ w.cache = some o
  endedOk : ∀ i o, GObs.ended i (.ok o) ∈ w.log → w.cache = some o

theorem oneAtATime_tail {x : GObs O} {log : List (GObs O)} (h : Spec.OneAtATime (x :: log)) : Spec.OneAtATime log := by
  intro after before i he
  exact h (x :: after) before i (by rw [he]; rfl)

theorem oneAtATime_append {new log : List (GObs O)} (h : Spec.OneAtATime (new ++ log)) : Spec.OneAtATime log := by
  induction new with
  | nil => exact h
  | cons x new ih => exact ih (oneAtATime_tail h)

theorem GCase.log {kind : GetterKind} {w w' : GThreads O} (hc : GCase kind w w') : ∃ new, w'.log = new ++ w.log := by
  cases hc with
  | stay => exact ⟨[], rfl⟩
  | beginLazy i _ => exact ⟨[_], rfl⟩
  | beginEager i _ _ => exact ⟨[_, _], rfl⟩
  | hit i o _ _ => exact ⟨[], rfl⟩
  | miss i _ _ => exact ⟨[_], rfl⟩
  | choose i o _ => exact ⟨[], rfl⟩
  | store i o _ => exact ⟨[], rfl⟩
  | storeLocal i o _ => exact ⟨[_], rfl⟩
  | read i o _ _ => exact ⟨[_], rfl⟩
  | readNone i _ _ => exact ⟨[_], rfl⟩
  | madeLazy i o _ _ => exact ⟨[_], rfl⟩
  | madeEager i o _ _ => exact ⟨[_], rfl⟩
  | failed i e _ => exact ⟨[_, _], rfl⟩

theorem GCase.alone {kind : GetterKind} {w w' : GThreads O} (hc : GCase kind w w') (hi : GInv w) (h : GAlone kind w)
    (hone : Spec.OneAtATime w'.log) : GAlone kind w' := by
  -- a call that is not busy goes on to a phase that is not busy either
  have calm : ∀ (i : Nat) (ph : GPhase O), ph.busy = false → ∀ j, ((w.to i ph).calls j).busy = true → (w.calls j).busy = true ∧ j ≠ i := by
    intro i ph hph j hj
    rw [show (w.to i ph).calls j = if j = i then ph else w.calls j from rfl] at hj
    split at hj
    · rw [hph] at hj; cases hj
    · rename_i hne; exact ⟨hj, hne⟩
  have calmS : ∀ (i : Nat) (ph : GPhase O), ph.busy = false → ∀ j o, (w.to i ph).calls j = .storing o → w.calls j = .storing o := by
    intro i ph hph j o hj
    rw [show (w.to i ph).calls j = if j = i then ph else w.calls j from rfl] at hj
    split at hj
    · rw [hj] at hph; cases hph
    · exact hj
  -- a busy call goes on to a busy phase
  have on : ∀ (i : Nat) (ph : GPhase O), (w.calls i).busy = true → ∀ j, ((w.to i ph).calls j).busy = true → (w.calls j).busy = true := by
    intro i ph hb j hj
    rw [show (w.to i ph).calls j = if j = i then ph else w.calls j from rfl] at hj
    split at hj
    · rename_i e; subst e; exact hb
    · exact hj
  -- nothing was busy when a constructor starts
  have start : ∀ (i : Nat) (log : List (GObs O)), Spec.OneAtATime (.making i :: log) → (∀ x, x ∈ w.log → x ∈ log) →
      (∀ j r, .ended j r ∈ log → .ended j r ∈ w.log) → ∀ j, (w.calls j).busy = true → False := by
    intro i log ho h1 h2 j hj
    obtain ⟨r, hr⟩ := ho [] log i rfl j (h1 _ (h.making j hj))
    rw [hi.ended j r (h2 j r hr)] at hj
    cases hj
  cases hc with
  | stay => exact h
  | beginLazy i hid =>
    refine ⟨?_, ?_, ?_, ?_, ?_⟩
    · exact fun j hj => List.mem_cons_of_mem _ (h.making j (calm i _ rfl j hj).1)
    · exact fun j k hj hk => h.one j k (calm i _ rfl j hj).1 (calm i _ rfl k hk).1
    · exact fun hl j hj => h.lazyNone hl j (calm i _ rfl j hj).1
    · exact fun j o hj => h.storing j o (calmS i _ rfl j o hj)
    · intro j o hm
      rcases List.mem_cons.1 hm with hm | hm
      · cases hm
      · exact h.endedOk j o hm
  | beginEager i hid hk =>
    have hno := start i (.began i :: w.log) hone (fun x hx => List.mem_cons_of_mem _ hx) (fun j r hm => by
      rcases List.mem_cons.1 hm with hm | hm
      · cases hm
      · exact hm)
    have hbusy : ∀ j, ((w.to i .making).calls j).busy = true → j = i := by
      intro j hj
      rw [show (w.to i .making).calls j = if j = i then .making else w.calls j from rfl] at hj
      split at hj
      · assumption
      · exact (hno j hj).elim
    refine ⟨?_, ?_, ?_, ?_, ?_⟩
    · intro j hj
      rw [hbusy j hj]
      exact List.mem_cons_self
    · intro j k hj hk
      rw [hbusy j hj, hbusy k hk]
    · exact fun hl => absurd hl hk
    · intro j o hj
      have := hbusy j (by rw [show (w.to i .making).calls j = .storing o from hj]; rfl)
      rw [this] at hj
      change (if i = i then _ else _) = _ at hj
      rw [if_pos rfl] at hj
      cases hj
    · intro j o hm
      rcases List.mem_cons.1 hm with hm | hm
      · cases hm
      · rcases List.mem_cons.1 hm with hm | hm
        · cases hm
        · exact h.endedOk j o hm
  | hit i o hid hcache =>
    refine ⟨?_, ?_, ?_, ?_, h.endedOk⟩
    · exact fun j hj => h.making j (calm i _ rfl j hj).1
    · exact fun j k hj hk => h.one j k (calm i _ rfl j hj).1 (calm i _ rfl k hk).1
    · exact fun hl j hj => h.lazyNone hl j (calm i _ rfl j hj).1
    · exact fun j o hj => h.storing j o (calmS i _ rfl j o hj)
  | miss i hid hcache =>
    have hno := start i w.log hone (fun x hx => hx) (fun j r hm => hm)
    have hbusy : ∀ j, ((w.to i .making).calls j).busy = true → j = i := by
      intro j hj
      rw [show (w.to i .making).calls j = if j = i then .making else w.calls j from rfl] at hj
      split at hj
      · assumption
      · exact (hno j hj).elim
    refine ⟨?_, ?_, ?_, ?_, ?_⟩
    · intro j hj
      rw [hbusy j hj]
      exact List.mem_cons_self
    · intro j k hj hk
      rw [hbusy j hj, hbusy k hk]
    · exact fun _ _ _ => hcache
    · exact fun _ _ _ => Or.inl hcache
    · intro j o hm
      rcases List.mem_cons.1 hm with hm | hm
      · cases hm
      · exact h.endedOk j o hm
  | choose i o hid =>
    have hb : (w.calls i).busy = true := by rw [hid]; rfl
    refine ⟨?_, ?_, ?_, ?_, h.endedOk⟩
    · exact fun j hj => h.making j (on i _ hb j hj)
    · exact fun j k hj hk => h.one j k (on i _ hb j hj) (on i _ hb k hk)
    · exact fun hl j hj => h.lazyNone hl j (on i _ hb j hj)
    · intro j x hj
      change (if j = i then _ else _) = _ at hj
      split at hj
      · change w.cache = none ∨ w.cache = some x
        cases hc : w.cache with
        | none => exact Or.inl rfl
        | some c => rw [hc] at hj; cases hj; exact Or.inr rfl
      · exact h.storing j x hj
  | store i o hid =>
    have hb : (w.calls i).busy = true := by rw [hid]; rfl
    have hnone : ∀ j, ((w.to i .reading).calls j).busy = true → False := by
      intro j hj
      obtain ⟨h1, h2⟩ := calm i .reading rfl j hj
      exact h2 (h.one j i h1 hb)
    refine ⟨?_, ?_, ?_, ?_, ?_⟩
    · exact fun j hj => (hnone j hj).elim
    · exact fun j k hj hk => (hnone j hj).elim
    · exact fun hl j hj => (hnone j hj).elim
    · intro j x hj
      exact (hnone j (by rw [show (w.to i .reading).calls j = .storing x from hj]; rfl)).elim
    · intro j x hm
      have := h.endedOk j x hm
      rcases h.storing i o hid with h0 | h0
      · rw [h0] at this; cases this
      · rw [h0] at this; exact this
  | storeLocal i o hid =>
    have hb : (w.calls i).busy = true := by rw [hid]; rfl
    have hnone : ∀ j, ((w.to i .done).calls j).busy = true → False := by
      intro j hj
      obtain ⟨h1, h2⟩ := calm i .done rfl j hj
      exact h2 (h.one j i h1 hb)
    refine ⟨?_, ?_, ?_, ?_, ?_⟩
    · exact fun j hj => (hnone j hj).elim
    · exact fun j k hj hk => (hnone j hj).elim
    · exact fun hl j hj => (hnone j hj).elim
    · intro j x hj
      exact (hnone j (by rw [show (w.to i .done).calls j = .storing x from hj]; rfl)).elim
    · intro j x hm
      rcases List.mem_cons.1 hm with hm | hm
      · cases hm; rfl
      · have := h.endedOk j x hm
        rcases h.storing i o hid with h0 | h0
        · rw [h0] at this; cases this
        · rw [h0] at this; exact this
  | read i o hid hcache =>
    refine ⟨?_, ?_, ?_, ?_, ?_⟩
    · exact fun j hj => List.mem_cons_of_mem _ (h.making j (calm i _ rfl j hj).1)
    · exact fun j k hj hk => h.one j k (calm i _ rfl j hj).1 (calm i _ rfl k hk).1
    · exact fun hl j hj => h.lazyNone hl j (calm i _ rfl j hj).1
    · exact fun j o hj => h.storing j o (calmS i _ rfl j o hj)
    · intro j x hm
      rcases List.mem_cons.1 hm with hm | hm
      · cases hm; exact hcache
      · exact h.endedOk j x hm
  | readNone i hid hcache =>
    have := hi.reading i hid
    rw [hcache] at this; cases this
  | madeLazy i o hid hk =>
    have hb : (w.calls i).busy = true := by rw [hid]; rfl
    refine ⟨?_, ?_, ?_, ?_, ?_⟩
    · exact fun j hj => List.mem_cons_of_mem _ (h.making j (on i _ hb j hj))
    · exact fun j k hj hk => h.one j k (on i _ hb j hj) (on i _ hb k hk)
    · exact fun hl j hj => h.lazyNone hl j (on i _ hb j hj)
    · exact fun _ _ _ => Or.inl (h.lazyNone hk i hb)
    · intro j x hm
      rcases List.mem_cons.1 hm with hm | hm
      · cases hm
      · exact h.endedOk j x hm
  | madeEager i o hid hk =>
    have hb : (w.calls i).busy = true := by rw [hid]; rfl
    refine ⟨?_, ?_, ?_, ?_, ?_⟩
    · exact fun j hj => List.mem_cons_of_mem _ (h.making j (on i _ hb j hj))
    · exact fun j k hj hk => h.one j k (on i _ hb j hj) (on i _ hb k hk)
    · exact fun hl j hj => h.lazyNone hl j (on i _ hb j hj)
    · intro j x hj
      change (if j = i then _ else _) = _ at hj
      split at hj
      · cases hj
      · exact h.storing j x hj
    · intro j x hm
      rcases List.mem_cons.1 hm with hm | hm
      · cases hm
      · exact h.endedOk j x hm
  | failed i e hid =>
    refine ⟨?_, ?_, ?_, ?_, ?_⟩
    · exact fun j hj => List.mem_cons_of_mem _ (List.mem_cons_of_mem _ (h.making j (calm i _ rfl j hj).1))
    · exact fun j k hj hk => h.one j k (calm i _ rfl j hj).1 (calm i _ rfl k hk).1
    · exact fun hl j hj => h.lazyNone hl j (calm i _ rfl j hj).1
    · exact fun j o hj => h.storing j o (calmS i _ rfl j o hj)
    · intro j x hm
      rcases List.mem_cons.1 hm with hm | hm
      · cases hm
      · rcases List.mem_cons.1 hm with hm | hm
        · cases hm
        · exact h.endedOk j x hm

theorem getterRun_log (kind : GetterKind) (evs : List (GEv O)) (w : GThreads O) : ∃ new, (evs.foldl (getterStep kind) w).log = new ++ w.log := by
  induction evs generalizing w with
  | nil => exact ⟨[], rfl⟩
  | cons e evs ih =>
    obtain ⟨n1, h1⟩ := (getterStep_case kind w e).log
    obtain ⟨n2, h2⟩ := ih (getterStep kind w e)
    exact ⟨n2 ++ n1, by rw [List.foldl_cons, h2, h1, List.append_assoc]⟩

theorem getterRun_alone (kind : GetterKind) (evs : List (GEv O)) (hone : Spec.OneAtATime (getterRun kind evs).log) : GAlone kind (getterRun kind evs) := by
  have go : ∀ (evs : List (GEv O)) w, GInv w → GAlone kind w → Spec.OneAtATime (evs.foldl (getterStep kind) w).log → GAlone kind (evs.foldl (getterStep kind) w) := by
    intro evs
    induction evs with
    | nil => intro w _ h _; exact h
    | cons e evs ih =>
      intro w hi h ho
      obtain ⟨new, hn⟩ := getterRun_log kind evs (getterStep kind w e)
      rw [List.foldl_cons, hn] at ho
      have hstep := (getterStep_case kind w e).alone hi h (oneAtATime_append ho)
      rw [← hn] at ho
      exact ih _ ((getterStep_case kind w e).inv hi) hstep ho
  refine go evs _ (getterRun_inv kind []) ⟨?_, ?_, ?_, ?_, ?_⟩ hone
  · intro i h; cases h
  · intro i j h; cases h
  · intro _ i h; cases h
  · intro i o h; cases h
  · intro i o h; cases h

/-- C119: if no constructor is started before the calls that started one have ended (in particular if calls do not overlap, or if the first call was made before the
threads), all calls that return give the same object. -/
theorem C119_one_object_partial (kind : GetterKind) (evs : List (GEv O)) (hone : Spec.OneAtATime (getterRun kind evs).log) (i j : Nat) (o o' : O)
    (h : .ended i (.ok o) ∈ (getterRun kind evs).log) (h' : .ended j (.ok o') ∈ (getterRun kind evs).log) : o = o' := by
  have ha := getterRun_alone kind evs hone
  have h1 := ha.endedOk i o h
  rw [ha.endedOk j o' h'] at h1
  exact (Option.some.inj h1).symm

/-- C119: the full statement fails for every kind of getter: two calls that overlap can return different objects. -/
theorem C119_not_shared (kind : GetterKind) :
    ∃ evs : List (GEv Nat), .ended 0 (.ok 7) ∈ (getterRun kind evs).log ∧ .ended 1 (.ok 8) ∈ (getterRun kind evs).log := by
  cases kind with
  | lazy =>
    refine ⟨[.call 0, .call 1, .step 0, .step 1, .finish 0 (.ok 7), .step 0, .step 0, .finish 1 (.ok 8), .step 1, .step 1], ?_⟩
    simp [getterRun, getterStep, GThreads.to, GThreads.note]
  | eager =>
    refine ⟨[.call 0, .call 1, .finish 0 (.ok 7), .finish 1 (.ok 8), .step 0, .step 1, .step 0, .step 0, .step 1, .step 1], ?_⟩
    simp [getterRun, getterStep, GThreads.to, GThreads.note]
  | eagerLocal =>
    refine ⟨[.call 0, .call 1, .finish 0 (.ok 7), .finish 1 (.ok 8), .step 0, .step 1, .step 0, .step 1], ?_⟩
    simp [getterRun, getterStep, GThreads.to, GThreads.note]

/-- Two calls overlap, but only one of them runs the constructor: they share the object; the first constructor had raised. -/
example : (getterRun .lazy [.call 2, .step 2, .finish 2 (.error .osError), .call 0, .step 0, .finish 0 (.ok 7), .call 1, .step 0, .step 1, .step 1, .step 0]).log =
    [.ended 0 (.ok 7), .ended 1 (.ok 7), .began 1, .made 0 7, .making 0, .began 0, .ended 2 (.error .osError), .failed 2 .osError, .making 2, .began 2] := rfl

end Cjk
