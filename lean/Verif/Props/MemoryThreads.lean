import Verif.Model.MemoryThreads
import Verif.Props.MemoryRec
/-!
# A memory cache that several threads use at the same time (C118)
-/

namespace Cjk
open Py

variable {O : PyObjects}

/-- Where the outcome of a call comes from, given what was observed before it ended: from unhashable arguments, from a run of the method by this call that
raised, or from a run of the method for the same arguments, by this or another call, that returned the value. -/
inductive Spec.Origin (before : List (MObs O)) (i : Nat) (k : CallArgs O) : Except PyErr O.Obj → Prop
  | unhashable : ¬ Spec.Hashable k → Spec.Origin before i k (.error .typeError)
  | raised (e : PyErr) : Spec.Hashable k → .ran i k (.error e) ∈ before → Spec.Origin before i k (.error e)
  | value (v : O.Obj) (j : Nat) (k' : CallArgs O) : Spec.Hashable k → Spec.SameCall k' k → .ran j k' (.ok v) ∈ before → Spec.Origin before i k (.ok v)

/-- Call `i` began with arguments `k` after some same call had returned. -/
def Spec.Late (log : List (MObs O)) (i : Nat) (k : CallArgs O) : Prop :=
  ∃ after before j k' v, log = after ++ .ended j k' (.ok v) :: before ∧ .began i k ∈ after ∧ Spec.SameCall k' k

/-- The call to which an observation belongs. -/
def MObs.who : MObs O → Nat
  | .began i _ => i
  | .ran i _ _ => i
  | .ended i _ _ => i

/-- What holds at all times. -/
structure MInv (w : MThreads O) : Prop where
  memo : ∀ k v, memoGet w.memo k = some v → ∃ j k', MObs.ran j k' (.ok v) ∈ w.log ∧ k'.keyEq k = true
  found : ∀ i k, w.calls i = .found k → k.keyHashable = true ∧ (memoGet w.memo k).isSome
  running : ∀ i k, w.calls i = .running k → k.keyHashable = true
  computed : ∀ i k v, w.calls i = .computed k v → k.keyHashable = true ∧ MObs.ran i k (.ok v) ∈ w.log
  origin : ∀ after before i k r, w.log = after ++ .ended i k r :: before → Spec.Origin before i k r
  kept : ∀ i k v, MObs.ended i k (.ok v) ∈ w.log → (memoGet w.memo k).isSome
  fresh : ∀ i, w.calls i = .idle → ∀ o ∈ w.log, o.who ≠ i
  unrun : ∀ i k, (w.calls i = .looking k ∨ w.calls i = .found k ∨ w.calls i = .running k) → ∀ k' r, MObs.ran i k' r ∉ w.log
  late : ∀ i k, Spec.Late w.log i k → (w.calls i = .looking k ∨ w.calls i = .found k ∨ w.calls i = .done) ∧ ∀ k' r, MObs.ran i k' r ∉ w.log

theorem late_cons {log : List (MObs O)} {o : MObs O} {i : Nat} {k : CallArgs O} (h : Spec.Late (o :: log) i k) :
    o = .began i k ∨ Spec.Late log i k := by
  obtain ⟨after, before, j, k', v, h1, h2, h3⟩ := h
  cases after with
  | nil => cases h2
  | cons a after =>
    simp only [List.cons_append, List.cons.injEq] at h1
    obtain ⟨rfl, h1⟩ := h1
    rcases List.mem_cons.1 h2 with h2 | h2
    · exact Or.inl h2.symm
    · exact Or.inr ⟨after, before, j, k', v, h1, h2, h3⟩

theorem origin_cons {log : List (MObs O)} {o : MObs O}
    (h : ∀ after before i k r, log = after ++ .ended i k r :: before → Spec.Origin before i k r)
    (ho : ∀ i k r, o = .ended i k r → Spec.Origin log i k r) :
    ∀ after before i k r, o :: log = after ++ .ended i k r :: before → Spec.Origin before i k r := by
  intro after before i k r he
  cases after with
  | nil =>
    simp only [List.nil_append, List.cons.injEq] at he
    obtain ⟨h1, rfl⟩ := he
    exact ho i k r h1
  | cons a after =>
    simp only [List.cons_append, List.cons.injEq] at he
    exact h after before i k r he.2

theorem MThreads.to_calls (w : MThreads O) (i : Nat) (ph : MPhase O) (j : Nat) : (w.to i ph).calls j = if j = i then ph else w.calls j := rfl

theorem mstep_inv (hO : Spec.EqLaws O) (w : MThreads O) (h : MInv w) (ev : MEv O) : MInv (mstep w ev) := by
  cases ev with
  | call i k =>
    simp only [mstep]
    split
    · rename_i hi
      have hf := h.fresh i hi
      refine ⟨?_, ?_, ?_, ?_, ?_, ?_, ?_, ?_, ?_⟩
      · intro k' v hv
        obtain ⟨j, k2, h1, h2⟩ := h.memo k' v hv
        exact ⟨j, k2, List.mem_cons_of_mem _ h1, h2⟩
      · intro j k' hj
        change (if j = i then _ else _) = _ at hj
        split at hj
        · cases hj
        · exact h.found j k' hj
      · intro j k' hj
        change (if j = i then _ else _) = _ at hj
        split at hj
        · cases hj
        · exact h.running j k' hj
      · intro j k' v hj
        change (if j = i then _ else _) = _ at hj
        split at hj
        · cases hj
        · obtain ⟨a, b⟩ := h.computed j k' v hj
          exact ⟨a, List.mem_cons_of_mem _ b⟩
      · exact origin_cons h.origin (by intro _ _ _ e; cases e)
      · intro j k' v hm
        rcases List.mem_cons.1 hm with hm | hm
        · cases hm
        · exact h.kept j k' v hm
      · intro j hj o ho
        change (if j = i then _ else _) = _ at hj
        split at hj
        · cases hj
        · rename_i hne
          rcases List.mem_cons.1 ho with rfl | ho
          · exact fun e => hne e.symm
          · exact h.fresh j hj o ho
      · intro j k' hj k2 r hm
        rcases List.mem_cons.1 hm with hm | hm
        · cases hm
        · by_cases hji : j = i
          · subst hji; exact hf _ hm rfl
          · refine h.unrun j k' ?_ k2 r hm
            rw [show ((w.to i (.looking k)).note (.began i k)).calls j = if j = i then .looking k else w.calls j from rfl, if_neg hji] at hj
            exact hj
      · intro j k' hl
        rcases late_cons hl with hl | hl
        · cases hl
          refine ⟨Or.inl (if_pos rfl), fun k2 r hm => ?_⟩
          rcases List.mem_cons.1 hm with hm | hm
          · cases hm
          · exact hf _ hm rfl
        · obtain ⟨h1, h2⟩ := h.late j k' hl
          have hji : j ≠ i := by
            intro e; subst e; rw [hi] at h1; rcases h1 with h1 | h1 | h1 <;> cases h1
          refine ⟨?_, fun k2 r hm => ?_⟩
          · rw [show ((w.to i (.looking k)).note (.began i k)).calls j = if j = i then .looking k else w.calls j from rfl, if_neg hji]
            exact h1
          · rcases List.mem_cons.1 hm with hm | hm
            · cases hm
            · exact h2 k2 r hm
    · exact h
  | look i =>
    simp only [mstep]
    split
    · rename_i k hi
      split
      · rename_i hk
        have key : ∀ ph : MPhase O, (ph = .found k ∧ (memoGet w.memo k).isSome ∨ ph = .running k ∧ memoGet w.memo k = none) → MInv (w.to i ph) := by
          intro ph hph
          have hcalls : ∀ j, (w.to i ph).calls j = if j = i then ph else w.calls j := fun _ => rfl
          refine ⟨h.memo, ?_, ?_, ?_, h.origin, h.kept, ?_, ?_, ?_⟩
          · intro j k' hj
            rw [hcalls] at hj
            split at hj
            · rcases hph with ⟨rfl, hs⟩ | ⟨rfl, _⟩ <;> cases hj
              exact ⟨hk, hs⟩
            · exact h.found j k' hj
          · intro j k' hj
            rw [hcalls] at hj
            split at hj
            · rcases hph with ⟨rfl, hs⟩ | ⟨rfl, _⟩ <;> cases hj
              exact hk
            · exact h.running j k' hj
          · intro j k' v hj
            rw [hcalls] at hj
            split at hj
            · rcases hph with ⟨rfl, hs⟩ | ⟨rfl, _⟩ <;> cases hj
            · exact h.computed j k' v hj
          · intro j hj
            rw [hcalls] at hj
            split at hj
            · rcases hph with ⟨rfl, hs⟩ | ⟨rfl, _⟩ <;> cases hj
            · exact h.fresh j hj
          · intro j k' hj
            rw [hcalls] at hj
            by_cases hji : j = i
            · subst hji; exact h.unrun j k (Or.inl hi)
            · rw [if_neg hji] at hj; exact h.unrun j k' hj
          · intro j k' hl
            obtain ⟨h1, h2⟩ := h.late j k' hl
            refine ⟨?_, h2⟩
            rw [hcalls]
            by_cases hji : j = i
            · subst hji
              rw [if_pos rfl]
              rw [hi] at h1
              have hkk : k = k' := by
                rcases h1 with h1 | h1 | h1 <;> cases h1
                rfl
              subst hkk
              obtain ⟨after, before, j2, k2, v, e1, _, e3⟩ := hl
              have hs := h.kept j2 k2 v (show MObs.ended j2 k2 (.ok v) ∈ w.log by rw [show w.log = _ from e1]; simp)
              rw [memoGet_congr hO w.memo ((keyEq_iff _ _).2 e3)] at hs
              rcases hph with ⟨rfl, _⟩ | ⟨_, hn⟩
              · exact Or.inr (Or.inl rfl)
              · rw [hn] at hs; cases hs
            · rw [if_neg hji]; exact h1
        split
        · rename_i v hv
          exact key _ (Or.inl ⟨rfl, by rw [hv]; rfl⟩)
        · rename_i hv
          exact key _ (Or.inr ⟨rfl, hv⟩)
      · rename_i hk
        have hcalls : ∀ j, ((w.to i .done).note (.ended i k (.error .typeError))).calls j = if j = i then .done else w.calls j := fun _ => rfl
        refine ⟨?_, ?_, ?_, ?_, ?_, ?_, ?_, ?_, ?_⟩
        · intro k' v hv
          obtain ⟨j, k2, h1, h2⟩ := h.memo k' v hv
          exact ⟨j, k2, List.mem_cons_of_mem _ h1, h2⟩
        · intro j k' hj
          rw [hcalls] at hj
          split at hj
          · cases hj
          · exact h.found j k' hj
        · intro j k' hj
          rw [hcalls] at hj
          split at hj
          · cases hj
          · exact h.running j k' hj
        · intro j k' v hj
          rw [hcalls] at hj
          split at hj
          · cases hj
          · obtain ⟨a, b⟩ := h.computed j k' v hj
            exact ⟨a, List.mem_cons_of_mem _ b⟩
        · refine origin_cons h.origin ?_
          intro _ _ _ e
          cases e
          exact .unhashable (fun hh => hk ((keyHashable_iff k).2 hh))
        · intro j k' v hm
          rcases List.mem_cons.1 hm with hm | hm
          · cases hm
          · exact h.kept j k' v hm
        · intro j hj o ho
          rw [hcalls] at hj
          split at hj
          · cases hj
          · rename_i hne
            rcases List.mem_cons.1 ho with rfl | ho
            · exact fun e => hne e.symm
            · exact h.fresh j hj o ho
        · intro j k' hj k2 r hm
          rw [hcalls] at hj
          rcases List.mem_cons.1 hm with hm | hm
          · cases hm
          · split at hj
            · rcases hj with hj | hj | hj <;> cases hj
            · exact h.unrun j k' hj k2 r hm
        · intro j k' hl
          rcases late_cons hl with hl | hl
          · cases hl
          · obtain ⟨h1, h2⟩ := h.late j k' hl
            refine ⟨?_, fun k2 r hm => ?_⟩
            · rw [hcalls]
              split
              · exact Or.inr (Or.inr rfl)
              · exact h1
            · rcases List.mem_cons.1 hm with hm | hm
              · cases hm
              · exact h2 k2 r hm
    · exact h
  | get i =>
    simp only [mstep]
    split
    · rename_i k hi
      obtain ⟨hk, hs⟩ := h.found i k hi
      split
      · rename_i v hv
        have hcalls : ∀ j, ((w.to i .done).note (.ended i k (.ok v))).calls j = if j = i then .done else w.calls j := fun _ => rfl
        refine ⟨?_, ?_, ?_, ?_, ?_, ?_, ?_, ?_, ?_⟩
        · intro k' v' hv'
          obtain ⟨j, k2, h1, h2⟩ := h.memo k' v' hv'
          exact ⟨j, k2, List.mem_cons_of_mem _ h1, h2⟩
        · intro j k' hj
          rw [hcalls] at hj
          split at hj
          · cases hj
          · exact h.found j k' hj
        · intro j k' hj
          rw [hcalls] at hj
          split at hj
          · cases hj
          · exact h.running j k' hj
        · intro j k' v' hj
          rw [hcalls] at hj
          split at hj
          · cases hj
          · obtain ⟨a, b⟩ := h.computed j k' v' hj
            exact ⟨a, List.mem_cons_of_mem _ b⟩
        · refine origin_cons h.origin ?_
          intro _ _ _ e
          cases e
          obtain ⟨j, k', h1, h2⟩ := h.memo k v hv
          exact .value v j k' ((keyHashable_iff k).1 hk) ((keyEq_iff _ _).1 h2) h1
        · intro j k' v' hm
          rcases List.mem_cons.1 hm with hm | hm
          · cases hm; exact hs
          · exact h.kept j k' v' hm
        · intro j hj o ho
          rw [hcalls] at hj
          split at hj
          · cases hj
          · rename_i hne
            rcases List.mem_cons.1 ho with rfl | ho
            · exact fun e => hne e.symm
            · exact h.fresh j hj o ho
        · intro j k' hj k2 r hm
          rw [hcalls] at hj
          rcases List.mem_cons.1 hm with hm | hm
          · cases hm
          · split at hj
            · rcases hj with hj | hj | hj <;> cases hj
            · exact h.unrun j k' hj k2 r hm
        · intro j k' hl
          rcases late_cons hl with hl | hl
          · cases hl
          · obtain ⟨h1, h2⟩ := h.late j k' hl
            refine ⟨?_, fun k2 r hm => ?_⟩
            · rw [hcalls]
              split
              · exact Or.inr (Or.inr rfl)
              · exact h1
            · rcases List.mem_cons.1 hm with hm | hm
              · cases hm
              · exact h2 k2 r hm
      · rename_i hv
        rw [hv] at hs; cases hs
    · exact h
  | finish i r =>
    simp only [mstep]
    split
    · rename_i k hi
      have hk := h.running i k hi
      have hrun := h.unrun i k (Or.inr (Or.inr hi))
      split
      · rename_i v
        have hcalls : ∀ j, ((w.to i (.computed k v)).note (.ran i k (.ok v))).calls j = if j = i then .computed k v else w.calls j := fun _ => rfl
        refine ⟨?_, ?_, ?_, ?_, ?_, ?_, ?_, ?_, ?_⟩
        · intro k' v' hv'
          obtain ⟨j, k2, h1, h2⟩ := h.memo k' v' hv'
          exact ⟨j, k2, List.mem_cons_of_mem _ h1, h2⟩
        · intro j k' hj
          rw [hcalls] at hj
          split at hj
          · cases hj
          · exact h.found j k' hj
        · intro j k' hj
          rw [hcalls] at hj
          split at hj
          · cases hj
          · exact h.running j k' hj
        · intro j k' v' hj
          rw [hcalls] at hj
          split at hj
          · rename_i e; subst e; cases hj
            exact ⟨hk, List.mem_cons_self⟩
          · obtain ⟨a, b⟩ := h.computed j k' v' hj
            exact ⟨a, List.mem_cons_of_mem _ b⟩
        · exact origin_cons h.origin (by intro _ _ _ e; cases e)
        · intro j k' v' hm
          rcases List.mem_cons.1 hm with hm | hm
          · cases hm
          · exact h.kept j k' v' hm
        · intro j hj o ho
          rw [hcalls] at hj
          split at hj
          · cases hj
          · rename_i hne
            rcases List.mem_cons.1 ho with rfl | ho
            · exact fun e => hne e.symm
            · exact h.fresh j hj o ho
        · intro j k' hj k2 r hm
          rw [hcalls] at hj
          split at hj
          · rcases hj with hj | hj | hj <;> cases hj
          · rename_i hne
            rcases List.mem_cons.1 hm with hm | hm
            · cases hm; exact hne rfl
            · exact h.unrun j k' hj k2 r hm
        · intro j k' hl
          rcases late_cons hl with hl | hl
          · cases hl
          · obtain ⟨h1, h2⟩ := h.late j k' hl
            have hji : j ≠ i := by
              intro e; subst e; rw [hi] at h1; rcases h1 with h1 | h1 | h1 <;> cases h1
            refine ⟨?_, fun k2 r hm => ?_⟩
            · rw [hcalls, if_neg hji]; exact h1
            · rcases List.mem_cons.1 hm with hm | hm
              · cases hm; exact hji rfl
              · exact h2 k2 r hm
      · rename_i e
        have hcalls : ∀ j, (((w.to i .done).note (.ran i k (.error e))).note (.ended i k (.error e))).calls j = if j = i then .done else w.calls j :=
          fun _ => rfl
        refine ⟨?_, ?_, ?_, ?_, ?_, ?_, ?_, ?_, ?_⟩
        · intro k' v' hv'
          obtain ⟨j, k2, h1, h2⟩ := h.memo k' v' hv'
          exact ⟨j, k2, List.mem_cons_of_mem _ (List.mem_cons_of_mem _ h1), h2⟩
        · intro j k' hj
          rw [hcalls] at hj
          split at hj
          · cases hj
          · exact h.found j k' hj
        · intro j k' hj
          rw [hcalls] at hj
          split at hj
          · cases hj
          · exact h.running j k' hj
        · intro j k' v' hj
          rw [hcalls] at hj
          split at hj
          · cases hj
          · obtain ⟨a, b⟩ := h.computed j k' v' hj
            exact ⟨a, List.mem_cons_of_mem _ (List.mem_cons_of_mem _ b)⟩
        · refine origin_cons (origin_cons h.origin (by intro _ _ _ e; cases e)) ?_
          intro _ _ _ e'
          cases e'
          exact .raised e ((keyHashable_iff k).1 hk) List.mem_cons_self
        · intro j k' v' hm
          rcases List.mem_cons.1 hm with hm | hm
          · cases hm
          · rcases List.mem_cons.1 hm with hm | hm
            · cases hm
            · exact h.kept j k' v' hm
        · intro j hj o ho
          rw [hcalls] at hj
          split at hj
          · cases hj
          · rename_i hne
            rcases List.mem_cons.1 ho with rfl | ho
            · exact fun e => hne e.symm
            · rcases List.mem_cons.1 ho with rfl | ho
              · exact fun e => hne e.symm
              · exact h.fresh j hj o ho
        · intro j k' hj k2 r hm
          rw [hcalls] at hj
          split at hj
          · rcases hj with hj | hj | hj <;> cases hj
          · rename_i hne
            rcases List.mem_cons.1 hm with hm | hm
            · cases hm
            · rcases List.mem_cons.1 hm with hm | hm
              · cases hm; exact hne rfl
              · exact h.unrun j k' hj k2 r hm
        · intro j k' hl
          rcases late_cons hl with hl | hl
          · cases hl
          · rcases late_cons hl with hl | hl
            · cases hl
            · obtain ⟨h1, h2⟩ := h.late j k' hl
              have hji : j ≠ i := by
                intro e; subst e; rw [hi] at h1; rcases h1 with h1 | h1 | h1 <;> cases h1
              refine ⟨?_, fun k2 r hm => ?_⟩
              · rw [hcalls, if_neg hji]; exact h1
              · rcases List.mem_cons.1 hm with hm | hm
                · cases hm
                · rcases List.mem_cons.1 hm with hm | hm
                  · cases hm; exact hji rfl
                  · exact h2 k2 r hm
    · exact h
  | store i =>
    simp only [mstep]
    split
    · rename_i k v hi
      obtain ⟨hk, hran⟩ := h.computed i k v hi
      have hcalls : ∀ j, ((({ w with memo := memoSet k v w.memo } : MThreads O).to i .done).note (.ended i k (.ok v))).calls j =
          if j = i then .done else w.calls j := fun _ => rfl
      have hmemo : ∀ k', memoGet (memoSet k v w.memo) k' = if k.keyEq k' then some v else memoGet w.memo k' := memoGet_memoSet hO k v w.memo
      have hgrow : ∀ k', (memoGet w.memo k').isSome → (memoGet (memoSet k v w.memo) k').isSome := by
        intro k' hs
        rw [hmemo]
        split
        · rfl
        · exact hs
      refine ⟨?_, ?_, ?_, ?_, ?_, ?_, ?_, ?_, ?_⟩
      · intro k' v' hv'
        change memoGet (memoSet k v w.memo) k' = some v' at hv'
        rw [hmemo] at hv'
        split at hv'
        · rename_i he
          cases hv'
          exact ⟨i, k, List.mem_cons_of_mem _ hran, he⟩
        · obtain ⟨j, k2, h1, h2⟩ := h.memo k' v' hv'
          exact ⟨j, k2, List.mem_cons_of_mem _ h1, h2⟩
      · intro j k' hj
        rw [hcalls] at hj
        split at hj
        · cases hj
        · obtain ⟨a, b⟩ := h.found j k' hj
          exact ⟨a, hgrow _ b⟩
      · intro j k' hj
        rw [hcalls] at hj
        split at hj
        · cases hj
        · exact h.running j k' hj
      · intro j k' v' hj
        rw [hcalls] at hj
        split at hj
        · cases hj
        · obtain ⟨a, b⟩ := h.computed j k' v' hj
          exact ⟨a, List.mem_cons_of_mem _ b⟩
      · refine origin_cons h.origin ?_
        intro _ _ _ e
        cases e
        exact .value v i k ((keyHashable_iff k).1 hk) ((keyEq_iff _ _).1 (keyEq_refl hO k)) hran
      · intro j k' v' hm
        rcases List.mem_cons.1 hm with hm | hm
        · cases hm
          change (memoGet (memoSet k v w.memo) k).isSome = true
          rw [hmemo, keyEq_refl hO]
          rfl
        · exact hgrow _ (h.kept j k' v' hm)
      · intro j hj o ho
        rw [hcalls] at hj
        split at hj
        · cases hj
        · rename_i hne
          rcases List.mem_cons.1 ho with rfl | ho
          · exact fun e => hne e.symm
          · exact h.fresh j hj o ho
      · intro j k' hj k2 r hm
        rw [hcalls] at hj
        rcases List.mem_cons.1 hm with hm | hm
        · cases hm
        · split at hj
          · rcases hj with hj | hj | hj <;> cases hj
          · exact h.unrun j k' hj k2 r hm
      · intro j k' hl
        rcases late_cons hl with hl | hl
        · cases hl
        · obtain ⟨h1, h2⟩ := h.late j k' hl
          refine ⟨?_, fun k2 r hm => ?_⟩
          · rw [hcalls]
            split
            · exact Or.inr (Or.inr rfl)
            · exact h1
          · rcases List.mem_cons.1 hm with hm | hm
            · cases hm
            · exact h2 k2 r hm
    · exact h

theorem mrun_inv (hO : Spec.EqLaws O) (evs : List (MEv O)) : MInv (mrun evs) := by
  have go : ∀ (evs : List (MEv O)) w, MInv w → MInv (evs.foldl mstep w) := by
    intro evs
    induction evs with
    | nil => intro w h; exact h
    | cons e evs ih => intro w h; exact ih _ (mstep_inv hO w h e)
  refine go evs _ ⟨?_, ?_, ?_, ?_, ?_, ?_, ?_, ?_, ?_⟩
  · intro k v hv; cases hv
  · intro i k hi; cases hi
  · intro i k hi; cases hi
  · intro i k v hi; cases hi
  · intro after before i k r h; cases after <;> cases h
  · intro i k v h; cases h
  · intro i _ o ho; cases ho
  · intro i k h; rcases h with h | h | h <;> cases h
  · rintro i k ⟨after, before, j, k', v, h, _⟩; cases after <;> cases h

/-- C118: whatever the steps of the calls and whatever the method does: a call that ends raises `TypeError` for unhashable arguments, or raises what the method
raised when this call ran it, or returns a value that the method had returned before, in this or another call with the same arguments. -/
theorem C118_origin (hO : Spec.EqLaws O) (evs : List (MEv O)) (after before : List (MObs O)) (i : Nat) (k : CallArgs O) (r : Except PyErr O.Obj)
    (h : (mrun evs).log = after ++ .ended i k r :: before) : Spec.Origin before i k r := (mrun_inv hO evs).origin after before i k r h

/-- C118: a method that gives the same for the same arguments gives the same through the proxy, to all threads. -/
theorem C118_transparent (hO : Spec.EqLaws O) (evs : List (MEv O)) (f : CallArgs O → Except PyErr O.Obj)
    (hresp : ∀ k k', Spec.SameCall k k' → f k = f k') (hf : ∀ i k r, .ran i k r ∈ (mrun evs).log → r = f k) (i : Nat) (k : CallArgs O)
    (r : Except PyErr O.Obj) (h : .ended i k r ∈ (mrun evs).log) (hk : Spec.Hashable k) : r = f k := by
  obtain ⟨after, before, e⟩ := List.append_of_mem h
  have hmem : ∀ x, x ∈ before → x ∈ (mrun evs).log := fun x hx => by rw [e]; simp [hx]
  cases C118_origin hO evs after before i k r e with
  | unhashable hn => exact absurd hk hn
  | raised e' _ hr => exact hf _ _ _ (hmem _ hr)
  | value v j k' _ hs hr => rw [← hresp k' k hs]; exact hf _ _ _ (hmem _ hr)

/-- C118: a call that begins after a same call has returned does not run the method, whatever happens meanwhile. -/
theorem C118_not_again (hO : Spec.EqLaws O) (evs : List (MEv O)) (i : Nat) (k : CallArgs O) (h : Spec.Late (mrun evs).log i k) (k' : CallArgs O)
    (r : Except PyErr O.Obj) : .ran i k' r ∉ (mrun evs).log := ((mrun_inv hO evs).late i k h).2 k' r

/-- Two calls at the same time: both run the method, each returns what its own run gave; a third one that begins later gets what was stored last.  (An unhashable
argument: numbers above 100.) -/
example : (mrun (O := sampleObjects) [.call 0 ⟨[(1 : Nat)], []⟩, .call 1 ⟨[(11 : Nat)], []⟩, .look 1, .look 0, .finish 0 (.ok (5 : Nat)), .finish 1 (.ok (6 : Nat)),
      .store 1, .store 0, .call 2 ⟨[(21 : Nat)], []⟩, .look 2, .get 2, .call 3 ⟨[(200 : Nat)], []⟩, .look 3]).log =
    [.ended 3 ⟨[(200 : Nat)], []⟩ (.error .typeError), .began 3 ⟨[(200 : Nat)], []⟩, .ended 2 ⟨[(21 : Nat)], []⟩ (.ok (5 : Nat)), .began 2 ⟨[(21 : Nat)], []⟩,
      .ended 0 ⟨[(1 : Nat)], []⟩ (.ok (5 : Nat)), .ended 1 ⟨[(11 : Nat)], []⟩ (.ok (6 : Nat)), .ran 1 ⟨[(11 : Nat)], []⟩ (.ok (6 : Nat)),
      .ran 0 ⟨[(1 : Nat)], []⟩ (.ok (5 : Nat)), .began 1 ⟨[(11 : Nat)], []⟩, .began 0 ⟨[(1 : Nat)], []⟩] := rfl

end Cjk
