import Verif.Props.MemoryThreads
import Verif.Props.CachedThreads
import Verif.Props.CacheRace
/-!
# C118, C119 and C95: calls that overlap come to an end
-/

namespace Cjk
open Py

/-! ### `memory_proxy` -/

section Memory
variable {O : PyObjects}

/-- How far a call is from its end. -/
def mLeft : MPhase O → Nat
  | .idle => 5
  | .looking _ => 4
  | .running _ => 3
  | .found _ => 2
  | .computed _ _ => 1
  | .done => 0

/-- The steps of call `j`, with what is observed. -/
inductive MMove (j : Nat) : MPhase O → MPhase O → List (MObs O) → Prop
  | began (k : CallArgs O) : MMove j .idle (.looking k) [.began j k]
  | hit (k : CallArgs O) : MMove j (.looking k) (.found k) []
  | miss (k : CallArgs O) : MMove j (.looking k) (.running k) []
  | refused (k : CallArgs O) : MMove j (.looking k) .done [.ended j k (.error .typeError)]
  | got (k : CallArgs O) (r : Except PyErr O.Obj) : MMove j (.found k) .done [.ended j k r]
  | value (k : CallArgs O) (v : O.Obj) : MMove j (.running k) (.computed k v) [.ran j k (.ok v)]
  | raised (k : CallArgs O) (e : PyErr) : MMove j (.running k) .done [.ended j k (.error e), .ran j k (.error e)]
  | stored (k : CallArgs O) (v : O.Obj) : MMove j (.computed k v) .done [.ended j k (.ok v)]

theorem mstep_move (w : MThreads O) (e : MEv O) :
    mstep w e = w ∨ ∃ j ph new, (mstep w e).calls = (fun x => if x = j then ph else w.calls x) ∧ (mstep w e).log = new ++ w.log ∧ MMove j (w.calls j) ph new := by
  cases e with
  | call i k =>
    cases hp : w.calls i with
    | idle =>
      simp only [mstep, hp]
      exact Or.inr ⟨i, _, [_], rfl, rfl, hp ▸ .began k⟩
    | _ => left; simp only [mstep, hp]
  | look i =>
    cases hp : w.calls i with
    | looking k =>
      simp only [mstep, hp]
      split
      · split
        · exact Or.inr ⟨i, _, [], rfl, rfl, hp ▸ .hit k⟩
        · exact Or.inr ⟨i, _, [], rfl, rfl, hp ▸ .miss k⟩
      · exact Or.inr ⟨i, _, [_], rfl, rfl, hp ▸ .refused k⟩
    | _ => left; simp only [mstep, hp]
  | get i =>
    cases hp : w.calls i with
    | found k =>
      simp only [mstep, hp]
      split
      · exact Or.inr ⟨i, _, [_], rfl, rfl, hp ▸ .got k _⟩
      · exact Or.inr ⟨i, _, [_], rfl, rfl, hp ▸ .got k _⟩
    | _ => left; simp only [mstep, hp]
  | finish i r =>
    cases hp : w.calls i with
    | running k =>
      cases r with
      | ok v =>
        simp only [mstep, hp]
        exact Or.inr ⟨i, _, [_], rfl, rfl, hp ▸ .value k v⟩
      | error e =>
        simp only [mstep, hp]
        exact Or.inr ⟨i, _, [_, _], rfl, rfl, hp ▸ .raised k e⟩
    | _ => left; simp only [mstep, hp]
  | store i =>
    cases hp : w.calls i with
    | computed k v =>
      simp only [mstep, hp]
      exact Or.inr ⟨i, _, [_], rfl, rfl, hp ▸ .stored k v⟩
    | _ => left; simp only [mstep, hp]

/-- How often call `i` has ended. -/
def Spec.endsOf (i : Nat) (log : List (MObs O)) : Nat := (log.filter (fun o => match o with | .ended j _ _ => decide (j = i) | _ => false)).length

/-- Where a call that began with arguments `k` is. -/
def MOwn (w : MThreads O) (i : Nat) (k : CallArgs O) : Prop :=
  w.calls i = .looking k ∨ w.calls i = .found k ∨ w.calls i = .running k ∨ (∃ v, w.calls i = .computed k v) ∨ (w.calls i = .done ∧ ∃ r, .ended i k r ∈ w.log)

theorem MOwn.step {w : MThreads O} {i : Nat} {k : CallArgs O} (h : MOwn w i k) (e : MEv O) : MOwn (mstep w e) i k := by
  rcases mstep_move w e with h1 | ⟨j, ph, new, h1, h2, h3⟩
  · rw [h1]; exact h
  · unfold MOwn at h ⊢
    rw [h1, h2]
    by_cases hj : i = j
    · subst hj
      simp only [if_true]
      rcases h with h | h | h | ⟨v, h⟩ | ⟨h, r, hr⟩ <;> rw [h] at h3 <;> cases h3 <;> simp
    · simp only [if_neg hj]
      rcases h with h | h | h | ⟨v, h⟩ | ⟨h, r, hr⟩
      · simp [h]
      · simp [h]
      · simp [h]
      · simp [h]
      · exact Or.inr (Or.inr (Or.inr (Or.inr ⟨h, r, List.mem_append_right _ hr⟩)))

theorem mLeft_step (w : MThreads O) (i : Nat) (e : MEv O) : mLeft ((mstep w e).calls i) ≤ mLeft (w.calls i) := by
  rcases mstep_move w e with h1 | ⟨j, ph, new, h1, h2, h3⟩
  · rw [h1]; exact Nat.le_refl _
  · rw [h1]
    by_cases hj : i = j
    · subst hj
      simp only [if_true]
      generalize w.calls i = q at h3
      cases h3 <;> simp [mLeft]
    · simp only [if_neg hj]; exact Nat.le_refl _

theorem mLeft_run (evs : List (MEv O)) (w : MThreads O) (i : Nat) : mLeft ((evs.foldl mstep w).calls i) ≤ mLeft (w.calls i) := by
  induction evs generalizing w with
  | nil => exact Nat.le_refl _
  | cons e evs ih => exact Nat.le_trans (ih _) (mLeft_step w i e)

theorem MOwn.run {w : MThreads O} {i : Nat} {k : CallArgs O} (h : MOwn w i k) (evs : List (MEv O)) : MOwn (evs.foldl mstep w) i k := by
  induction evs generalizing w with
  | nil => exact h
  | cons e evs ih => exact ih (h.step e)

theorem mOwn_of_began (evs : List (MEv O)) (w : MThreads O) (h : ∀ i k, .began i k ∈ w.log → MOwn w i k) :
    ∀ i k, .began i k ∈ (evs.foldl mstep w).log → MOwn (evs.foldl mstep w) i k := by
  induction evs generalizing w with
  | nil => exact h
  | cons e evs ih =>
    refine ih _ (fun i k hb => ?_)
    rcases mstep_move w e with h1 | ⟨j, ph, new, h1, h2, h3⟩
    · rw [h1] at hb ⊢; exact h i k hb
    · rw [h2] at hb
      rcases List.mem_append.1 hb with hb | hb
      · unfold MOwn
        rw [h1]
        generalize w.calls j = q at h3
        cases h3 <;> simp at hb
        obtain ⟨rfl, rfl⟩ := hb
        simp
      · exact (h i k hb).step e

/-- The exact number of ends of a call. -/
theorem mEnds (evs : List (MEv O)) (w : MThreads O) (i : Nat) (h : Spec.endsOf i w.log = if mLeft (w.calls i) = 0 then 1 else 0) :
    Spec.endsOf i (evs.foldl mstep w).log = if mLeft ((evs.foldl mstep w).calls i) = 0 then 1 else 0 := by
  induction evs generalizing w with
  | nil => exact h
  | cons e evs ih =>
    refine ih _ ?_
    rcases mstep_move w e with h1 | ⟨j, ph, new, h1, h2, h3⟩
    · rw [h1]; exact h
    · have ha : Spec.endsOf i (mstep w e).log = Spec.endsOf i new + Spec.endsOf i w.log := by
        rw [h2]; unfold Spec.endsOf; rw [List.filter_append, List.length_append]
      rw [ha, h1, h]
      by_cases hj : i = j
      · subst hj
        simp only [if_true]
        generalize w.calls i = q at h3
        cases h3 <;> simp [mLeft, Spec.endsOf]
      · simp only [if_neg hj]
        have hj' : ¬ j = i := fun h => hj h.symm
        have : Spec.endsOf i new = 0 := by
          generalize w.calls j = q at h3
          cases h3 <;> simp [Spec.endsOf, hj']
        omega

/-- C118: however calls overlap, a call that has begun ends, with the arguments with which it began and once, when it gets its steps and the method, if it runs it, ends; nothing that other calls do
between its steps can hold it up. -/
theorem C118_ends (evs a b c d : List (MEv O)) (i : Nat) (k : CallArgs O) (h : .began i k ∈ (mrun evs).log) (r : Except PyErr O.Obj) :
    (∃ r', .ended i k r' ∈ (mrun (evs ++ a ++ [.look i] ++ b ++ [.finish i r] ++ c ++ [.get i] ++ d ++ [.store i])).log) ∧
    Spec.endsOf i (mrun (evs ++ a ++ [.look i] ++ b ++ [.finish i r] ++ c ++ [.get i] ++ d ++ [.store i])).log = 1 ∧
    Spec.endsOf i (mrun evs).log ≤ 1 := by
  have hown : MOwn (mrun evs) i k := mOwn_of_began evs _ (by intro i k h; cases h) i k h
  have e0 : mLeft ((mrun evs).calls i) ≤ 4 := by
    rcases hown with h | h | h | ⟨v, h⟩ | ⟨h, _⟩ <;> rw [h] <;> simp [mLeft]
  have hlook : ∀ w : MThreads O, mLeft (w.calls i) ≤ 4 → mLeft ((mstep w (.look i)).calls i) ≤ 3 := by
    intro w hw
    cases hp : w.calls i <;> simp only [mstep, hp]
    · rw [hp] at hw; simp [mLeft] at hw
    · split
      · split <;> simp [MThreads.to, mLeft]
      · simp [MThreads.to, MThreads.note, mLeft]
    all_goals simp [hp, mLeft]
  have hfin : ∀ w : MThreads O, mLeft (w.calls i) ≤ 3 → mLeft ((mstep w (.finish i r)).calls i) ≤ 2 := by
    intro w hw
    cases hp : w.calls i <;> simp only [mstep, hp]
    · rw [hp] at hw; simp [mLeft] at hw
    · rw [hp] at hw; simp [mLeft] at hw
    · simp [hp, mLeft]
    · cases r <;> simp [MThreads.to, MThreads.note, mLeft]
    all_goals simp [hp, mLeft]
  have hget : ∀ w : MThreads O, mLeft (w.calls i) ≤ 2 → mLeft ((mstep w (.get i)).calls i) ≤ 1 := by
    intro w hw
    cases hp : w.calls i <;> simp only [mstep, hp]
    · rw [hp] at hw; simp [mLeft] at hw
    · rw [hp] at hw; simp [mLeft] at hw
    · split <;> simp [MThreads.to, MThreads.note, mLeft]
    · rw [hp] at hw; simp [mLeft] at hw
    all_goals simp [hp, mLeft]
  have hsto : ∀ w : MThreads O, mLeft (w.calls i) ≤ 1 → mLeft ((mstep w (.store i)).calls i) = 0 := by
    intro w hw
    cases hp : w.calls i <;> simp only [mstep, hp]
    · rw [hp] at hw; simp [mLeft] at hw
    · rw [hp] at hw; simp [mLeft] at hw
    · rw [hp] at hw; simp [mLeft] at hw
    · rw [hp] at hw; simp [mLeft] at hw
    · simp [MThreads.to, MThreads.note, mLeft]
    · simp [hp, mLeft]
  have hz : mLeft ((mrun (evs ++ a ++ [.look i] ++ b ++ [.finish i r] ++ c ++ [.get i] ++ d ++ [.store i])).calls i) = 0 := by
    unfold mrun at e0 ⊢
    simp only [List.foldl_append, List.foldl_cons, List.foldl_nil]
    exact hsto _ (Nat.le_trans (mLeft_run d _ i) (hget _ (Nat.le_trans (mLeft_run c _ i) (hfin _ (Nat.le_trans (mLeft_run b _ i)
      (hlook _ (Nat.le_trans (mLeft_run a _ i) e0)))))))
  have hcount : ∀ evs : List (MEv O), Spec.endsOf i (mrun evs).log = if mLeft ((mrun evs).calls i) = 0 then 1 else 0 :=
    fun evs => mEnds evs _ i rfl
  refine ⟨?_, ?_, ?_⟩
  · have := hown.run (a ++ [MEv.look i] ++ b ++ [MEv.finish i r] ++ c ++ [MEv.get i] ++ d ++ [MEv.store i])
    have e : (a ++ [MEv.look i] ++ b ++ [MEv.finish i r] ++ c ++ [MEv.get i] ++ d ++ [MEv.store i]).foldl mstep (mrun evs) =
        mrun (evs ++ a ++ [.look i] ++ b ++ [.finish i r] ++ c ++ [.get i] ++ d ++ [.store i]) := by
      unfold mrun; simp only [List.foldl_append]
    rw [e] at this
    rcases this with h | h | h | ⟨v, h⟩ | ⟨h, hr⟩
    · rw [h] at hz; cases hz
    · rw [h] at hz; cases hz
    · rw [h] at hz; cases hz
    · rw [h] at hz; cases hz
    · exact hr
  · rw [hcount, if_pos hz]
  · rw [hcount]; split <;> omega

/-- Two calls with equal arguments that overlap. -/
example (k : CallArgs O) : .began 0 k ∈ (mrun [.call 0 k, .call 1 k]).log ∧ .began 1 k ∈ (mrun [.call 0 k, .call 1 k]).log := by
  simp [mrun, mstep, MThreads.to, MThreads.note]

end Memory

/-! ### The cached getters -/

section Getters
variable {O : Type}

/-- How far a call is from its end. -/
def gLeft : GPhase O → Nat
  | .idle => 6
  | .checking => 5
  | .making => 4
  | .choosing _ => 3
  | .storing _ => 2
  | .reading => 1
  | .done => 0

/-- The steps of call `j`. -/
inductive GMove (j : Nat) : GPhase O → GPhase O → List (GObs O) → Prop
  | began : GMove j .idle .checking [.began j]
  | beganMaking : GMove j .idle .making [.making j, .began j]
  | hit : GMove j .checking .reading []
  | miss : GMove j .checking .making [.making j]
  | chosen (o o' : O) : GMove j (.choosing o) (.storing o') []
  | assigned (o : O) : GMove j (.storing o) .reading []
  | assignedLast (o : O) (r : Except PyErr O) : GMove j (.storing o) .done [.ended j r]
  | read (r : Except PyErr O) : GMove j .reading .done [.ended j r]
  | made (o : O) : GMove j .making (.storing o) [.made j o]
  | madeFirst (o : O) : GMove j .making (.choosing o) [.made j o]
  | raised (e : PyErr) : GMove j .making .done [.ended j (.error e), .failed j e]

theorem getterStep_move (kind : GetterKind) (w : GThreads O) (e : GEv O) :
    getterStep kind w e = w ∨ ∃ j ph new, (getterStep kind w e).calls = (fun x => if x = j then ph else w.calls x) ∧ (getterStep kind w e).log = new ++ w.log ∧
      GMove j (w.calls j) ph new := by
  cases e with
  | call i =>
    cases hp : w.calls i with
    | idle =>
      cases kind <;> simp only [getterStep, hp]
      · exact Or.inr ⟨i, _, [_], rfl, rfl, hp ▸ .began⟩
      · exact Or.inr ⟨i, _, [_, _], rfl, rfl, hp ▸ .beganMaking⟩
      · exact Or.inr ⟨i, _, [_, _], rfl, rfl, hp ▸ .beganMaking⟩
    | _ => left; simp only [getterStep, hp]
  | step i =>
    cases hp : w.calls i with
    | checking =>
      cases hc : w.cache <;> simp only [getterStep, hp, hc]
      · exact Or.inr ⟨i, _, [_], rfl, rfl, hp ▸ .miss⟩
      · exact Or.inr ⟨i, _, [], rfl, rfl, hp ▸ .hit⟩
    | choosing o =>
      simp only [getterStep, hp]
      exact Or.inr ⟨i, _, [], rfl, rfl, hp ▸ .chosen o _⟩
    | storing o =>
      cases kind <;> simp only [getterStep, hp]
      · exact Or.inr ⟨i, _, [], rfl, rfl, hp ▸ .assigned o⟩
      · exact Or.inr ⟨i, _, [], rfl, rfl, hp ▸ .assigned o⟩
      · exact Or.inr ⟨i, _, [_], rfl, rfl, hp ▸ .assignedLast o _⟩
    | reading =>
      cases hc : w.cache <;> simp only [getterStep, hp, hc]
      · exact Or.inr ⟨i, _, [_], rfl, rfl, hp ▸ .read _⟩
      · exact Or.inr ⟨i, _, [_], rfl, rfl, hp ▸ .read _⟩
    | _ => left; simp only [getterStep, hp]
  | finish i r =>
    cases hp : w.calls i with
    | making =>
      cases r with
      | ok o =>
        cases kind <;> simp only [getterStep, hp]
        · exact Or.inr ⟨i, _, [_], rfl, rfl, hp ▸ .made o⟩
        · exact Or.inr ⟨i, _, [_], rfl, rfl, hp ▸ .madeFirst o⟩
        · exact Or.inr ⟨i, _, [_], rfl, rfl, hp ▸ .madeFirst o⟩
      | error e =>
        simp only [getterStep, hp]
        exact Or.inr ⟨i, _, [_, _], rfl, rfl, hp ▸ .raised e⟩
    | _ => left; simp only [getterStep, hp]

/-- How often call `i` has ended. -/
def Spec.getterEnds (i : Nat) (log : List (GObs O)) : Nat := (log.filter (fun o => match o with | .ended j _ => decide (j = i) | _ => false)).length

theorem gLeft_step (kind : GetterKind) (w : GThreads O) (i : Nat) (e : GEv O) : gLeft ((getterStep kind w e).calls i) ≤ gLeft (w.calls i) := by
  rcases getterStep_move kind w e with h1 | ⟨j, ph, new, h1, h2, h3⟩
  · rw [h1]; exact Nat.le_refl _
  · rw [h1]
    by_cases hj : i = j
    · subst hj
      simp only [if_true]
      generalize w.calls i = q at h3
      cases h3 <;> simp [gLeft]
    · simp only [if_neg hj]; exact Nat.le_refl _

theorem gLeft_run (kind : GetterKind) (evs : List (GEv O)) (w : GThreads O) (i : Nat) : gLeft ((evs.foldl (getterStep kind) w).calls i) ≤ gLeft (w.calls i) := by
  induction evs generalizing w with
  | nil => exact Nat.le_refl _
  | cons e evs ih => exact Nat.le_trans (ih _) (gLeft_step kind w i e)

theorem gBegan (kind : GetterKind) (evs : List (GEv O)) (w : GThreads O) (h : ∀ i, .began i ∈ w.log → gLeft (w.calls i) ≤ 5) :
    ∀ i, .began i ∈ (evs.foldl (getterStep kind) w).log → gLeft ((evs.foldl (getterStep kind) w).calls i) ≤ 5 := by
  induction evs generalizing w with
  | nil => exact h
  | cons e evs ih =>
    refine ih _ (fun i hb => ?_)
    rcases getterStep_move kind w e with h1 | ⟨j, ph, new, h1, h2, h3⟩
    · rw [h1] at hb ⊢; exact h i hb
    · rw [h2] at hb
      rcases List.mem_append.1 hb with hb | hb
      · rw [h1]
        generalize w.calls j = q at h3
        cases h3 <;> simp at hb <;> subst hb <;> simp [gLeft]
      · exact Nat.le_trans (gLeft_step kind w i e) (h i hb)

theorem gEnds (kind : GetterKind) (evs : List (GEv O)) (w : GThreads O) (i : Nat) (h : Spec.getterEnds i w.log = if gLeft (w.calls i) = 0 then 1 else 0) :
    Spec.getterEnds i (evs.foldl (getterStep kind) w).log = if gLeft ((evs.foldl (getterStep kind) w).calls i) = 0 then 1 else 0 := by
  induction evs generalizing w with
  | nil => exact h
  | cons e evs ih =>
    refine ih _ ?_
    rcases getterStep_move kind w e with h1 | ⟨j, ph, new, h1, h2, h3⟩
    · rw [h1]; exact h
    · have ha : Spec.getterEnds i (getterStep kind w e).log = Spec.getterEnds i new + Spec.getterEnds i w.log := by
        rw [h2]; unfold Spec.getterEnds; rw [List.filter_append, List.length_append]
      rw [ha, h1, h]
      by_cases hj : i = j
      · subst hj
        simp only [if_true]
        generalize w.calls i = q at h3
        cases h3 <;> simp [gLeft, Spec.getterEnds]
      · simp only [if_neg hj]
        have hj' : ¬ j = i := fun h => hj h.symm
        have : Spec.getterEnds i new = 0 := by
          generalize w.calls j = q at h3
          cases h3 <;> simp [Spec.getterEnds, hj']
        omega

/-- C119: however calls of a getter overlap, a call that has begun ends, once, when it gets its steps and the constructor, if it runs it, ends; nothing that other calls do between its steps can
hold it up. -/
theorem C119_ends (kind : GetterKind) (evs a b c d e : List (GEv O)) (i : Nat) (h : .began i ∈ (getterRun kind evs).log) (r : Except PyErr O) :
    Spec.getterEnds i (getterRun kind (evs ++ a ++ [.step i] ++ b ++ [.finish i r] ++ c ++ [.step i] ++ d ++ [.step i] ++ e ++ [.step i])).log = 1 ∧
    Spec.getterEnds i (getterRun kind evs).log ≤ 1 := by
  have e0 : gLeft ((getterRun kind evs).calls i) ≤ 5 := gBegan kind evs _ (by intro i h; cases h) i h
  have hstep : ∀ (w : GThreads O) n, gLeft (w.calls i) ≤ n + 1 → n + 1 ≠ 4 → n + 1 ≠ 6 → (n ≤ 2 ∨ n = 4) → gLeft ((getterStep kind w (.step i)).calls i) ≤ n := by
    intro w n hw _ _ hn
    cases hp : w.calls i <;> rw [hp] at hw <;> simp only [gLeft] at hw <;> simp only [getterStep, hp]
    · omega
    · cases w.cache <;> simp [GThreads.to, GThreads.note, gLeft] <;> omega
    · simp only [hp, gLeft]; omega
    · simp [GThreads.to, gLeft]; omega
    · cases kind <;> simp [GThreads.to, GThreads.note, gLeft] <;> omega
    · cases w.cache <;> simp [GThreads.to, GThreads.note, gLeft]
    · simp [hp, gLeft]
  have hfin : ∀ w : GThreads O, gLeft (w.calls i) ≤ 4 → gLeft ((getterStep kind w (.finish i r)).calls i) ≤ 3 := by
    intro w hw
    cases hp : w.calls i <;> rw [hp] at hw <;> simp only [gLeft] at hw <;> simp only [getterStep, hp]
    · omega
    · omega
    · cases r
      · simp [GThreads.to, GThreads.note, gLeft]
      · cases kind <;> simp [GThreads.to, GThreads.note, gLeft]
    all_goals simp [hp, gLeft]
  have hz : gLeft ((getterRun kind (evs ++ a ++ [.step i] ++ b ++ [.finish i r] ++ c ++ [.step i] ++ d ++ [.step i] ++ e ++ [.step i])).calls i) = 0 := by
    unfold getterRun at e0 ⊢
    simp only [List.foldl_append, List.foldl_cons, List.foldl_nil]
    have s1 := hstep _ 4 (Nat.le_trans (gLeft_run kind a _ i) e0) (by omega) (by omega) (by omega)
    have s2 := hfin _ (Nat.le_trans (gLeft_run kind b _ i) s1)
    have s3 := hstep _ 2 (Nat.le_trans (gLeft_run kind c _ i) s2) (by omega) (by omega) (by omega)
    have s4 := hstep _ 1 (Nat.le_trans (gLeft_run kind d _ i) s3) (by omega) (by omega) (by omega)
    have s5 := hstep _ 0 (Nat.le_trans (gLeft_run kind e _ i) s4) (by omega) (by omega) (by omega)
    omega
  have hcount : ∀ evs : List (GEv O), Spec.getterEnds i (getterRun kind evs).log = if gLeft ((getterRun kind evs).calls i) = 0 then 1 else 0 :=
    fun evs => gEnds kind evs _ i rfl
  exact ⟨by rw [hcount, if_pos hz], by rw [hcount]; split <;> omega⟩

/-- Two calls, one of which is creating the table. -/
example : .began 1 ∈ (getterRun .lazy [.call 0, .step 0, .call 1] : GThreads O).log := by
  simp [getterRun, getterStep, GThreads.to, GThreads.note]

end Getters

/-! ### Processes that share a cache file -/

section Processes
variable {P : PickleObjects}

/-- How far a process is from the end of its call. -/
def raceLeft : Phase P → Nat
  | .reading _ _ _ => 4
  | .missed _ _ => 3
  | .writing _ _ _ (_ :: _) _ => 2
  | .writing _ _ _ [] _ => 1
  | .idle => 0
  | .returned _ _ _ => 0

/-- The step is not the beginning of a call of process `i`. -/
def Spec.NoNewCall (i : Nat) : RaceEv P → Prop
  | .call j _ _ => j ≠ i
  | _ => True

/-- A process that is storing has created the cache file. -/
def FileMade (w : Race P) : Prop := ∀ j args params o todo pos, w.procs j = .writing args params o todo pos → w.file ≠ none

/-- The steps of process `j`. -/
inductive RMove : Phase P → Phase P → Prop
  | miss (q : Phase P) (a p : P.Obj) (h : raceLeft q = 0) : RMove q (.missed a p)
  | start (q : Phase P) (a p : P.Obj) (h : raceLeft q = 0) : RMove q (.reading a p [])
  | read (a p : P.Obj) (g g' : List Nat) : RMove (.reading a p g) (.reading a p g')
  | hit (a p o : P.Obj) (g : List Nat) : RMove (.reading a p g) (.returned a p o)
  | torn (a p : P.Obj) (g : List Nat) : RMove (.reading a p g) (.missed a p)
  | raised (a p : P.Obj) : RMove (.missed a p) .idle
  | opened (a p o : P.Obj) (t : List Nat) (n : Nat) : RMove (.missed a p) (.writing a p o t n)
  | wrote (a p o : P.Obj) (t : List Nat) (n k n' : Nat) : RMove (.writing a p o t n) (.writing a p o (t.drop k) n')
  | closed (a p o : P.Obj) (n : Nat) : RMove (.writing a p o [] n) (.returned a p o)
  | failed (a p o : P.Obj) (n : Nat) : RMove (.writing a p o [] n) .idle

/-- The process of a step. -/
def RaceEv.who : RaceEv P → Nat
  | .call i _ _ => i
  | .read i _ => i
  | .decide i => i
  | .openWrite i => i
  | .write i _ => i
  | .close i => i

theorem raceStep_move (method : P.Obj → P.Obj → Except PyErr P.Obj) (w : Race P) (e : RaceEv P) :
    raceStep P method w e = w ∨ ∃ ph, (raceStep P method w e).procs = (fun x => if x = e.who then ph else w.procs x) ∧ RMove (w.procs e.who) ph ∧
      (w.file ≠ none → (raceStep P method w e).file ≠ none) ∧ ((∃ a p o t n, ph = .writing a p o t n) → (raceStep P method w e).file ≠ none) ∧
      (raceLeft (w.procs e.who) = 0 → ∃ i a p, e = .call i a p) := by
  cases e with
  | call i a p =>
    cases hp : w.procs i with
    | idle =>
      cases hf : w.file <;> simp only [raceStep, hp, hf]
      · exact Or.inr ⟨_, rfl, hp ▸ .miss .idle a p rfl, by simp [hf], by simp, fun _ => ⟨_, _, _, rfl⟩⟩
      · exact Or.inr ⟨_, rfl, hp ▸ .start .idle a p rfl, by simp [Race.to, hf], by simp, fun _ => ⟨_, _, _, rfl⟩⟩
    | returned x y z =>
      cases hf : w.file <;> simp only [raceStep, hp, hf]
      · exact Or.inr ⟨_, rfl, hp ▸ .miss (.returned x y z) a p rfl, by simp [hf], by simp, fun _ => ⟨_, _, _, rfl⟩⟩
      · exact Or.inr ⟨_, rfl, hp ▸ .start (.returned x y z) a p rfl, by simp [Race.to, hf], by simp, fun _ => ⟨_, _, _, rfl⟩⟩
    | _ => left; simp only [raceStep, hp]
  | read i n =>
    cases hp : w.procs i with
    | reading a p g =>
      cases hf : w.file <;> simp only [raceStep, hp, hf]
      · exact Or.inl trivial
      · exact Or.inr ⟨_, rfl, by simp only [RaceEv.who, hp]; exact .read a p _ _, by simp [Race.to, hf], by simp, by simp [RaceEv.who, hp, raceLeft]⟩
    | _ => left; simp only [raceStep, hp]
  | decide i =>
    cases hp : w.procs i with
    | reading a p g =>
      simp only [raceStep, hp]
      split
      · exact Or.inr ⟨_, rfl, by simp only [RaceEv.who, hp]; exact .hit a p _ g, by simp [Race.to], by simp, by simp [RaceEv.who, hp, raceLeft]⟩
      · exact Or.inr ⟨_, rfl, by simp only [RaceEv.who, hp]; exact .torn a p g, by simp [Race.to], by simp, by simp [RaceEv.who, hp, raceLeft]⟩
    | _ => left; simp only [raceStep, hp]
  | openWrite i =>
    cases hp : w.procs i with
    | missed a p =>
      simp only [raceStep, hp]
      split
      · exact Or.inr ⟨_, rfl, by simp only [RaceEv.who, hp]; exact .raised a p, by simp [Race.to], by simp, by simp [RaceEv.who, hp, raceLeft]⟩
      · exact Or.inr ⟨_, rfl, by simp only [RaceEv.who, hp]; exact .opened a p _ _ _, by simp [Race.to], by simp [Race.to], by simp [RaceEv.who, hp, raceLeft]⟩
    | _ => left; simp only [raceStep, hp]
  | write i n =>
    cases hp : w.procs i with
    | writing a p o t m =>
      cases hf : w.file <;> simp only [raceStep, hp, hf]
      · exact Or.inl trivial
      · exact Or.inr ⟨_, rfl, by simp only [RaceEv.who, hp]; exact .wrote a p o t _ n _, by simp [Race.to], by simp [Race.to],
          by cases t <;> simp [RaceEv.who, hp, raceLeft]⟩
    | _ => left; simp only [raceStep, hp]
  | close i =>
    cases hp : w.procs i with
    | writing a p o t m =>
      cases t with
      | nil =>
        simp only [raceStep, hp]
        split
        · exact Or.inr ⟨_, rfl, by simp only [RaceEv.who, hp]; exact .closed a p o m, by simp [Race.to], by simp, by simp [RaceEv.who, hp, raceLeft]⟩
        · exact Or.inr ⟨_, rfl, by simp only [RaceEv.who, hp]; exact .failed a p o m, by simp [Race.to], by simp, by simp [RaceEv.who, hp, raceLeft]⟩
      | cons => left; simp only [raceStep, hp]
    | _ => left; simp only [raceStep, hp]

theorem FileMade.step {w : Race P} (h : FileMade w) (method : P.Obj → P.Obj → Except PyErr P.Obj) (e : RaceEv P) : FileMade (raceStep P method w e) := by
  rcases raceStep_move method w e with h1 | ⟨ph, h1, h2, h3, h4, _⟩
  · rw [h1]; exact h
  · intro j a p o t n hj
    simp only [h1] at hj
    by_cases hi : j = e.who
    · rw [if_pos hi] at hj; exact h4 ⟨a, p, o, t, n, hj⟩
    · rw [if_neg hi] at hj; exact h3 (h j a p o t n hj)

theorem raceLeft_drop (a p o : P.Obj) (t : List Nat) (n k n' : Nat) : raceLeft (.writing a p o (t.drop k) n' : Phase P) ≤ raceLeft (.writing a p o t n : Phase P) := by
  cases t with
  | nil => simp [raceLeft]
  | cons x t => cases (x :: t).drop k <;> simp [raceLeft]

/-- The call in which a process is, or has just been. -/
def ofCall (a p : P.Obj) : Phase P → Prop
  | .reading a' p' _ => a' = a ∧ p' = p
  | .missed a' p' => a' = a ∧ p' = p
  | .writing a' p' _ _ _ => a' = a ∧ p' = p
  | .idle => True
  | .returned a' p' _ => a' = a ∧ p' = p

theorem race_same {w : Race P} (method : P.Obj → P.Obj → Except PyErr P.Obj) (i : Nat) (e : RaceEv P) (he : Spec.NoNewCall i e) (a p : P.Obj) (h : ofCall a p (w.procs i)) :
    ofCall a p ((raceStep P method w e).procs i) ∧ raceLeft ((raceStep P method w e).procs i) ≤ raceLeft (w.procs i) := by
  rcases raceStep_move method w e with h1 | ⟨ph, h1, h2, _, _, h5⟩
  · rw [h1]; exact ⟨h, Nat.le_refl _⟩
  · rw [h1]
    by_cases hi : i = e.who
    · simp only [if_pos hi]
      rw [← hi] at h2 h5
      by_cases hz : raceLeft (w.procs i) = 0
      · obtain ⟨j, x, y, rfl⟩ := h5 hz
        exact absurd hi.symm he
      · generalize w.procs i = q at h h2 hz
        cases h2 with
        | miss q x y hq => exact absurd hq hz
        | start q x y hq => exact absurd hq hz
        | wrote x y o t n k n' => exact ⟨h, raceLeft_drop ..⟩
        | opened x y o t n => exact ⟨h, by cases t <;> simp [raceLeft]⟩
        | _ => first | exact ⟨h, by simp [raceLeft]⟩ | exact ⟨trivial, by simp [raceLeft]⟩
    · simp only [if_neg hi]; exact ⟨h, Nat.le_refl _⟩

theorem race_same_run (method : P.Obj → P.Obj → Except PyErr P.Obj) (i : Nat) (a p : P.Obj) (evs : List (RaceEv P)) (he : ∀ e ∈ evs, Spec.NoNewCall i e) (w : Race P) (hf : FileMade w)
    (h : ofCall a p (w.procs i)) :
    FileMade (raceRun P method w evs) ∧ ofCall a p ((raceRun P method w evs).procs i) ∧ raceLeft ((raceRun P method w evs).procs i) ≤ raceLeft (w.procs i) := by
  induction evs generalizing w with
  | nil => exact ⟨hf, h, Nat.le_refl _⟩
  | cons e evs ih =>
    have h1 := race_same method i e (he e (List.mem_cons_self ..)) a p h
    have h2 := ih (fun e h => he e (List.mem_cons_of_mem _ h)) (raceStep P method w e) (hf.step method e) h1.1
    exact ⟨h2.1, h2.2.1, Nat.le_trans h2.2.2 h1.2⟩

theorem fileMade_run (method : P.Obj → P.Obj → Except PyErr P.Obj) (evs : List (RaceEv P)) (w : Race P) (hf : FileMade w) : FileMade (raceRun P method w evs) := by
  induction evs generalizing w with
  | nil => exact hf
  | cons e evs ih => exact ih _ (hf.step method e)

/-- What a process has still to write. -/
def Spec.stillToWrite (w : Race P) (i : Nat) : Nat :=
  match w.procs i with
  | .writing _ _ _ todo _ => todo.length
  | _ => 0

/-- C95: a call ends whatever the other processes do: when the process gets its steps (the last write takes all that is left), its call has returned for its own arguments, or raised. -/
theorem C95_ends (method : P.Obj → P.Obj → Except PyErr P.Obj) (evs b c d e : List (RaceEv P)) (i n : Nat) (args params : P.Obj)
    (hb : ∀ x ∈ b, Spec.NoNewCall i x) (hc : ∀ x ∈ c, Spec.NoNewCall i x) (hd : ∀ x ∈ d, Spec.NoNewCall i x) (he : ∀ x ∈ e, Spec.NoNewCall i x)
    (hidle : (raceRun P method (Spec.quiet P) evs).procs i = .idle)
    (hn : Spec.stillToWrite (raceRun P method (Spec.quiet P) (evs ++ [.call i args params] ++ b ++ [.decide i] ++ c ++ [.openWrite i] ++ d)) i ≤ n) :
    (raceRun P method (Spec.quiet P) (evs ++ [.call i args params] ++ b ++ [.decide i] ++ c ++ [.openWrite i] ++ d ++ [.write i n] ++ e ++ [.close i])).procs i = .idle ∨
    ∃ o, (raceRun P method (Spec.quiet P) (evs ++ [.call i args params] ++ b ++ [.decide i] ++ c ++ [.openWrite i] ++ d ++ [.write i n] ++ e ++ [.close i])).procs i =
      .returned args params o := by
  have hrun : ∀ (w : Race P) x y, raceRun P method w (x ++ y) = raceRun P method (raceRun P method w x) y := by
    intro w x y; unfold raceRun; rw [List.foldl_append]
  have hone : ∀ (w : Race P) x, raceRun P method w [x] = raceStep P method w x := fun w x => rfl
  simp only [hrun, hone] at hn ⊢
  have f0 : FileMade (raceRun P method (Spec.quiet P) evs) := fileMade_run method evs _ (by intro _ _ _ _ _ _ h; cases h)
  generalize raceRun P method (Spec.quiet P) evs = w0 at *
  -- the call begins
  have s1 : ofCall args params ((raceStep P method w0 (.call i args params)).procs i) := by
    cases hf : w0.file <;> simp [raceStep, hidle, hf, Race.to, ofCall]
  have f1 := f0.step method (.call i args params)
  generalize raceStep P method w0 (.call i args params) = w1 at *
  obtain ⟨f2, s2, _⟩ := race_same_run method i args params b hb w1 f1 s1
  generalize raceRun P method w1 b = w2 at *
  -- `try_cache` ends
  have s3 := race_same method i (.decide i) trivial args params s2
  have r3 : raceLeft ((raceStep P method w2 (.decide i)).procs i) ≤ 3 := by
    cases hp : w2.procs i with
    | reading a p g =>
      simp only [raceStep, hp]
      split <;> simp [Race.to, raceLeft]
    | writing a p o t m => simp only [raceStep, hp]; cases t <;> simp [raceLeft]
    | _ => simp only [raceStep, hp]; simp [raceLeft]
  have f3 := f2.step method (.decide i)
  generalize raceStep P method w2 (.decide i) = w3 at *
  obtain ⟨f4, s4, r4⟩ := race_same_run method i args params c hc w3 f3 s3.1
  generalize raceRun P method w3 c = w4 at *
  -- the method runs
  have s5 := race_same method i (.openWrite i) trivial args params s4
  have r5 : raceLeft ((raceStep P method w4 (.openWrite i)).procs i) ≤ 2 := by
    cases hp : w4.procs i with
    | missed a p =>
      simp only [raceStep, hp]
      split
      · simp [Race.to, raceLeft]
      · rename_i o _; simp [Race.to]; cases (storedBytes P o a p).1 <;> simp [raceLeft]
    | reading a p g => have := Nat.le_trans r4 r3; rw [hp] at this; exact absurd this (by simp [raceLeft])
    | writing a p o t m => simp only [raceStep, hp]; cases t <;> simp [raceLeft]
    | _ => simp only [raceStep, hp]; simp [raceLeft]
  have f5 := f4.step method (.openWrite i)
  generalize raceStep P method w4 (.openWrite i) = w5 at *
  obtain ⟨f6, s6, r6⟩ := race_same_run method i args params d hd w5 f5 s5.1
  generalize raceRun P method w5 d = w6 at *
  -- the last write
  have s7 := race_same method i (.write i n) trivial args params s6
  have r7 : raceLeft ((raceStep P method w6 (.write i n)).procs i) ≤ 1 := by
    cases hp : w6.procs i with
    | missed a p => have := Nat.le_trans r6 r5; rw [hp] at this; exact absurd this (by simp [raceLeft])
    | reading a p g => have := Nat.le_trans r6 r5; rw [hp] at this; exact absurd this (by simp [raceLeft])
    | writing a p o t m =>
      simp only [Spec.stillToWrite, hp] at hn
      cases hf : w6.file with
      | none => exact absurd hf (f6 i a p o t m hp)
      | some f => simp [raceStep, hp, hf, Race.to, List.drop_eq_nil_of_le hn, raceLeft]
    | _ => simp only [raceStep, hp]; simp [raceLeft]
  have f7 := f6.step method (.write i n)
  generalize raceStep P method w6 (.write i n) = w7 at *
  obtain ⟨f8, s8, r8⟩ := race_same_run method i args params e he w7 f7 s7.1
  generalize raceRun P method w7 e = w8 at *
  -- the file is closed
  have s9 := race_same method i (.close i) trivial args params s8
  have r9 : raceLeft ((raceStep P method w8 (.close i)).procs i) = 0 := by
    cases hp : w8.procs i with
    | missed a p => have := Nat.le_trans r8 r7; rw [hp] at this; exact absurd this (by simp [raceLeft])
    | reading a p g => have := Nat.le_trans r8 r7; rw [hp] at this; exact absurd this (by simp [raceLeft])
    | writing a p o t m =>
      cases t with
      | nil => simp only [raceStep, hp]; split <;> simp [Race.to, raceLeft]
      | cons => have := Nat.le_trans r8 r7; rw [hp] at this; exact absurd this (by simp [raceLeft])
    | _ => simp only [raceStep, hp]; simp [raceLeft]
  generalize (raceStep P method w8 (.close i)).procs i = q at *
  cases q with
  | idle => exact Or.inl rfl
  | returned a p o => obtain ⟨⟨rfl, rfl⟩, _⟩ := s9; exact Or.inr ⟨o, rfl⟩
  | writing a p o t m => cases t <;> cases r9
  | _ => cases r9

/-- Another process opens the file for writing while this one is between its steps. -/
example : Spec.stillToWrite (raceRun listPickles (fun _ _ => .ok ([7, 7] : List Nat)) (Spec.quiet listPickles)
      ([] ++ [.call 0 ([] : List Nat) ([] : List Nat)] ++ [.call 1 ([] : List Nat) ([] : List Nat)] ++ [.decide 0] ++ [.openWrite 1, .write 1 1] ++ [.openWrite 0] ++ [])) 0 ≤ 1000 ∧
    Spec.stillToWrite (raceRun listPickles (fun _ _ => .ok ([7, 7] : List Nat)) (Spec.quiet listPickles)
      ([] ++ [.call 0 ([] : List Nat) ([] : List Nat)] ++ [.call 1 ([] : List Nat) ([] : List Nat)] ++ [.decide 0] ++ [.openWrite 1, .write 1 1] ++ [.openWrite 0] ++ [])) 0 ≠ 0 := by
  decide

end Processes

end Cjk
