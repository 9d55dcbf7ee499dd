import Verif.Spec.CacheStack
import Verif.Props.SmartCache
/-!
# C174: a method wrapped with both proxies
-/

namespace Cjk
open Py

variable {S : StackObjects}

theorem stack_eqLaws (hS : Spec.StackLaws S) : Spec.EqLaws S.objs where
  refl := hS.refl
  symm := fun {a b} h => hS.symm a b h
  trans := fun {a b c} h h' => hS.trans a b c h h'

/-- What the memory cache holds, in terms of the calls made so far; `holds` says of which files and arguments a value was the result. -/
def StackMemo (holds : FS → CallArgs S.objs → S.P.Obj → Prop) (memo : List (CallArgs S.objs × S.objs.Obj)) (log : List (Spec.StackLog S)) : Prop :=
  ∀ k : CallArgs S.objs,
    (memoGet memo k = none → ∀ e ∈ log, Spec.SameCall e.args k → ∃ x, e.result = .error x) ∧
    (∀ v, memoGet memo k = some v → ∃ before e after, log = before ++ e :: after ∧ Spec.SameCall e.args k ∧ e.result = .ok v ∧
      (∀ e' ∈ before, Spec.SameCall e'.args k → ∃ x, e'.result = .error x) ∧ holds e.fs e.args v)

theorem stackMemo_step (hS : Spec.StackLaws S) (holds : FS → CallArgs S.objs → S.P.Obj → Prop) (inner : Method S.objs Disk)
    (memo : List (CallArgs S.objs × S.objs.Obj)) (log : List (Spec.StackLog S)) (d : Disk) (k : CallArgs S.objs)
    (hin : ∀ v, (inner d k).1 = .ok v → holds d.fs k v) (h : StackMemo holds memo log) :
    StackMemo holds (memoryProxy inner d memo k).2.2 (log ++ [⟨d.fs, k, (memoryProxy inner d memo k).1.result⟩]) := by
  have hO := stack_eqLaws hS
  intro k'
  obtain ⟨hnone, hsome⟩ := h k'
  have hlater : ∀ (e0 : Spec.StackLog S) v, memoGet memo k' = some v → ∃ before e after, log ++ [e0] = before ++ e :: after ∧ Spec.SameCall e.args k' ∧ e.result = .ok v ∧
      (∀ e' ∈ before, Spec.SameCall e'.args k' → ∃ x, e'.result = .error x) ∧ holds e.fs e.args v := by
    intro e0 v hv
    obtain ⟨b, e, a, h1, h2, h3, h4, h5⟩ := hsome v hv
    exact ⟨b, e, a ++ [e0], by rw [h1]; simp, h2, h3, h4, h5⟩
  have herr : ∀ (x : PyErr), memoGet memo k' = none → ∀ e ∈ log ++ [(⟨d.fs, k, .error x⟩ : Spec.StackLog S)], Spec.SameCall e.args k' → ∃ x, e.result = .error x := by
    intro x hn e he hs
    rw [List.mem_append] at he
    rcases he with he | he
    · exact hnone hn e he hs
    · rw [List.mem_singleton] at he; subst he; exact ⟨x, rfl⟩
  unfold memoryProxy
  split
  · cases hg : memoGet memo k with
    | some v =>
      simp only
      refine ⟨fun hn e he hs => ?_, fun w hw => hlater _ w hw⟩
      rw [List.mem_append] at he
      rcases he with he | he
      · exact hnone hn e he hs
      · rw [List.mem_singleton] at he
        subst he
        have := memoGet_congr hO memo ((keyEq_iff k k').2 hs)
        rw [hg, hn] at this
        cases this
    | none =>
      simp only
      cases hr : inner d k with
      | mk r s' =>
        cases r with
        | error x => exact ⟨herr x, fun w hw => hlater _ w hw⟩
        | ok v =>
          simp only
          rw [memoGet_append]
          cases hk : memoGet memo k' with
          | some w => exact ⟨fun hn => by simp at hn, fun u hu => hlater _ u (hk.trans (by simpa using hu))⟩
          | none =>
            cases he : k.keyEq k' with
            | false =>
              refine ⟨fun _ e hm hs => ?_, fun u hu => by simp at hu⟩
              rw [List.mem_append] at hm
              rcases hm with hm | hm
              · exact hnone hk e hm hs
              · rw [List.mem_singleton] at hm
                subst hm
                rw [(keyEq_iff k k').2 hs] at he
                cases he
            | true =>
              refine ⟨fun hn => by simp at hn, fun u hu => ?_⟩
              have : v = u := by simpa using hu
              subst this
              exact ⟨log, _, [], rfl, (keyEq_iff k k').1 he, rfl, hnone hk, hin v (by rw [hr])⟩
  · exact ⟨herr _, fun w hw => hlater _ w hw⟩

theorem stackMemo_nil (holds : FS → CallArgs S.objs → S.P.Obj → Prop) : StackMemo holds [] ([] : List (Spec.StackLog S)) :=
  fun k => ⟨fun _ e he => by simp at he, fun v hv => by cases hv⟩

/-- The method's outcome for a call, with the files given. -/
def stackDirect (S : StackObjects) (method : DiskMethod S.P) (fs : FS) (k : CallArgs S.objs) : Except PyErr S.P.Obj :=
  method fs (S.tuple k.args) (S.dict k.params)

theorem memoryOutside_inv (hS : Spec.StackLaws S) (hP : PickleSpec S.P) (order : List Path → List Path) (ho : Spec.SetOrder order)
    (method : DiskMethod S.P) (file : Path) (deps : List Dep) (hm : Spec.Determined S.P method deps)
    (hfile : ∀ d ∈ deps, ¬ Spec.DependsOn d file) (hpick : ∀ o, (S.P.dump o).2 = none)
    (mayEdit : List (Spec.StackLog S) → Path → Prop) (w : StackWorld S) (log : List (Spec.StackLog S))
    (h : Spec.StackReach S (memoryOutside S order method file deps) file deps mayEdit w log) :
    Spec.Reachable S.P order method file deps w.disk ∧ StackMemo (fun fs k v => stackDirect S method fs k = .ok v) w.memo log := by
  induction h with
  | init d h1 h2 => exact ⟨.init d h1 h2, stackMemo_nil _⟩
  | wait w log n _ ih => exact ⟨.wait _ n ih.1, ih.2⟩
  | edit w log p bytes _ hp hc _ ih => exact ⟨.edit _ p bytes ih.1 hp hc, ih.2⟩
  | remove w log _ ih => exact ⟨.remove _ ih.1, ih.2⟩
  | call w log k _ ih =>
    refine ⟨?_, ?_⟩
    · unfold memoryOutside memoryProxy
      simp only
      split
      · split
        · exact ih.1
        · split
          · rename_i heq
            have := congrArg Prod.snd heq
            simp only at this ⊢
            rw [← this]
            exact .call _ _ _ ih.1
          · rename_i heq
            have := congrArg Prod.snd heq
            simp only at this ⊢
            rw [← this]
            exact .call _ _ _ ih.1
      · exact ih.1
    · refine stackMemo_step hS _ _ w.memo log w.disk k ?_ ih.2
      intro v hv
      rw [stackDirect, ← (C24_up_to_date hP order ho method file deps hm hfile w.disk ih.1 _ _ (fun o _ => ⟨hpick _, hpick _, hpick _⟩)).1]
      exact hv
  | restart w log _ ih => exact ⟨ih.1, stackMemo_nil _⟩

/-- C174, partial: with the memory cache outside, a call whose arguments can be hashed returns (or raises) what the method would now if no same call returned
before in this process, and otherwise what the first one of them returned, which was what the method would have returned then. -/
theorem C174_memory_outside_partial (hS : Spec.StackLaws S) (hP : PickleSpec S.P) (order : List Path → List Path) (ho : Spec.SetOrder order)
    (method : DiskMethod S.P) (file : Path) (deps : List Dep) (hm : Spec.Determined S.P method deps)
    (hfile : ∀ d ∈ deps, ¬ Spec.DependsOn d file) (hpick : ∀ o, (S.P.dump o).2 = none) (w : StackWorld S) (log : List (Spec.StackLog S))
    (h : Spec.StackReach S (memoryOutside S order method file deps) file deps (fun _ _ => True) w log) (k : CallArgs S.objs) (hk : Spec.Hashable k) :
    ((∀ e ∈ log, Spec.SameCall e.args k → ∃ x, e.result = .error x) ∧
      (memoryOutside S order method file deps w k).1 = method w.disk.fs (S.tuple k.args) (S.dict k.params)) ∨
    (∃ before e after v, log = before ++ e :: after ∧ Spec.SameCall e.args k ∧ e.result = .ok v ∧
      (∀ e' ∈ before, Spec.SameCall e'.args k → ∃ x, e'.result = .error x) ∧
      method e.fs (S.tuple k.args) (S.dict k.params) = .ok v ∧
      (memoryOutside S order method file deps w k).1 = .ok v) := by
  obtain ⟨hr, hmemo⟩ := memoryOutside_inv hS hP order ho method file deps hm hfile hpick _ w log h
  have hh := (keyHashable_iff k).2 hk
  cases hg : memoGet w.memo k with
  | none =>
    refine Or.inl ⟨(hmemo k).1 hg, ?_⟩
    have hc := (C24_up_to_date hP order ho method file deps hm hfile w.disk hr (S.tuple k.args) (S.dict k.params) (fun o _ => ⟨hpick _, hpick _, hpick _⟩)).1
    unfold memoryOutside memoryProxy
    simp only [hh, if_true, hg]
    rw [← hc]
    cases (diskProxy S.P order method file deps w.disk (S.tuple k.args) (S.dict k.params)).result <;> rfl
  | some v =>
    obtain ⟨b, e, a, h1, h2, h3, h4, h5⟩ := (hmemo k).2 v hg
    refine Or.inr ⟨b, e, a, v, h1, h2, h3, h4, ?_, ?_⟩
    · rw [← h5, stackDirect]
      exact (hm.args e.fs _ _ _ _ (hS.tuple _ _ h2) (hS.dict _ _ h2)).symm
    · unfold memoryOutside memoryProxy
      simp only [hh, if_true, hg]

/-- C174, partial: with the memory cache outside, results are up to date as long as the dependencies have the contents they had at the calls of this process so far;
in particular in a new process. -/
theorem C174_memory_outside_unchanged_partial (hS : Spec.StackLaws S) (hP : PickleSpec S.P) (order : List Path → List Path) (ho : Spec.SetOrder order)
    (method : DiskMethod S.P) (file : Path) (deps : List Dep) (hm : Spec.Determined S.P method deps)
    (hfile : ∀ d ∈ deps, ¬ Spec.DependsOn d file) (hpick : ∀ o, (S.P.dump o).2 = none) (w : StackWorld S) (log : List (Spec.StackLog S))
    (h : Spec.StackReach S (memoryOutside S order method file deps) file deps (fun _ _ => True) w log) (k : CallArgs S.objs) (hk : Spec.Hashable k)
    (hsame : ∀ e ∈ log, Spec.SameCall e.args k → ∀ d ∈ deps, ∀ q, Spec.DependsOn d q → (e.fs q).map File.bytes = (w.disk.fs q).map File.bytes) :
    (memoryOutside S order method file deps w k).1 = method w.disk.fs (S.tuple k.args) (S.dict k.params) := by
  rcases C174_memory_outside_partial hS hP order ho method file deps hm hfile hpick w log h k hk with h1 | ⟨b, e, a, v, h1, h2, _, _, h5, h6⟩
  · exact h1.2
  · rw [h6, ← h5]
    exact hm.files _ _ _ _ (hsame e (by rw [h1]; simp) h2)

/-- With a memory cache that holds what the method would return, a call does nothing, or the same as the disk cache alone. -/
theorem diskOutside_call (order : List Path → List Path) (method : DiskMethod S.P) (file : Path) (deps : List Dep) (w : StackWorld S) (k : CallArgs S.objs)
    (hmemo : ∀ v, k.keyHashable = true → memoGet w.memo k = some v → method w.disk.fs (S.tuple k.args) (S.dict k.params) = .ok v) :
    (k.keyHashable = false ∧ (diskOutside S order method file deps w k).2.disk = w.disk) ∨
    ((diskOutside S order method file deps w k).1 = (diskProxy S.P order method file deps w.disk (S.tuple k.args) (S.dict k.params)).result ∧
      (diskOutside S order method file deps w k).2.disk = (diskProxy S.P order method file deps w.disk (S.tuple k.args) (S.dict k.params)).disk) := by
  unfold diskOutside diskProxy
  cases tryCache S.P order w.disk.fs file (S.tuple k.args) (S.dict k.params) deps with
  | error e => exact Or.inr ⟨rfl, rfl⟩
  | ok r =>
    cases r with
    | some o => exact Or.inr ⟨rfl, rfl⟩
    | none =>
      simp only
      cases hh : k.keyHashable with
      | false =>
        refine Or.inl ⟨rfl, ?_⟩
        simp only [memoryProxy, hh, Bool.false_eq_true, if_false]
      | true =>
        right
        have : (memoryProxy (O := S.objs) (fun (d : Disk) k => (method d.fs (S.tuple k.args) (S.dict k.params), d)) w.disk w.memo k).1.result =
            method w.disk.fs (S.tuple k.args) (S.dict k.params) := by
          unfold memoryProxy
          simp only [hh, if_true]
          cases hg : memoGet w.memo k with
          | some v => exact (hmemo v hh hg).symm
          | none => simp only; cases method w.disk.fs (S.tuple k.args) (S.dict k.params) <;> rfl
        simp only [this]
        cases method w.disk.fs (S.tuple k.args) (S.dict k.params) with
        | error e => exact ⟨rfl, rfl⟩
        | ok o =>
          simp only
          cases hb : storedBytes S.P o (S.tuple k.args) (S.dict k.params) with
          | mk b x => cases x <;> exact ⟨rfl, rfl⟩

theorem diskOutside_effect (order : List Path → List Path) (method : DiskMethod S.P) (file : Path) (deps : List Dep) (w : StackWorld S) (k : CallArgs S.objs) :
    (∀ q, q ≠ file → (diskOutside S order method file deps w k).2.disk.fs q = w.disk.fs q) ∧
    (∀ k' v, memoGet (diskOutside S order method file deps w k).2.memo k' = some v →
      memoGet w.memo k' = some v ∨ (k.keyEq k' = true ∧ method w.disk.fs (S.tuple k.args) (S.dict k.params) = .ok v)) := by
  have hmem : ∀ k' v, memoGet (memoryProxy (O := S.objs) (fun (d : Disk) k => (method d.fs (S.tuple k.args) (S.dict k.params), d)) w.disk w.memo k).2.2 k' = some v →
      memoGet w.memo k' = some v ∨ (k.keyEq k' = true ∧ method w.disk.fs (S.tuple k.args) (S.dict k.params) = .ok v) := by
    intro k' v
    unfold memoryProxy
    split
    · cases memoGet w.memo k with
      | some u => exact Or.inl
      | none =>
        simp only
        cases method w.disk.fs (S.tuple k.args) (S.dict k.params) with
        | error e => exact Or.inl
        | ok u =>
          simp only
          rw [memoGet_append]
          cases memoGet w.memo k' with
          | some x => exact fun h => Or.inl h
          | none =>
            cases k.keyEq k' with
            | false => intro h; cases h
            | true => intro h; cases h; exact Or.inr ⟨rfl, rfl⟩
    · exact Or.inl
  unfold diskOutside
  cases tryCache S.P order w.disk.fs file (S.tuple k.args) (S.dict k.params) deps with
  | error e => exact ⟨fun _ _ => rfl, fun k' v h => Or.inl h⟩
  | ok r =>
    cases r with
    | some o => exact ⟨fun _ _ => rfl, fun k' v h => Or.inl h⟩
    | none =>
      simp only
      split
      · exact ⟨fun _ _ => rfl, hmem⟩
      · split
        · exact ⟨fun q hq => by simp [FS.write, hq], hmem⟩
        · exact ⟨fun q hq => by simp [FS.write, hq], hmem⟩

/-- What holds with the disk cache outside when dependencies are only written before the first call of a process. -/
theorem diskOutside_inv (hS : Spec.StackLaws S) (hP : PickleSpec S.P) (order : List Path → List Path) (ho : Spec.SetOrder order)
    (method : DiskMethod S.P) (file : Path) (deps : List Dep) (hm : Spec.Determined S.P method deps)
    (hfile : ∀ d ∈ deps, ¬ Spec.DependsOn d file) (w : StackWorld S) (log : List (Spec.StackLog S))
    (h : Spec.StackReach S (diskOutside S order method file deps) file deps (fun log p => (∃ d ∈ deps, Spec.DependsOn d p) → log = []) w log) :
    Spec.Reachable S.P order method file deps w.disk ∧ (log = [] → w.memo = []) ∧
      ∀ k v, memoGet w.memo k = some v → method w.disk.fs (S.tuple k.args) (S.dict k.params) = .ok v := by
  induction h with
  | init d h1 h2 => exact ⟨.init d h1 h2, fun _ => rfl, fun k v hv => by cases hv⟩
  | wait w log n _ ih => exact ⟨.wait _ n ih.1, ih.2⟩
  | edit w log p bytes _ hp hc he ih =>
    refine ⟨.edit _ p bytes ih.1 hp hc, ih.2.1, ?_⟩
    by_cases hd : ∃ d ∈ deps, Spec.DependsOn d p
    · intro k v hv
      simp only [ih.2.1 (he hd)] at hv
      cases hv
    · intro k v hv
      rw [← ih.2.2 k v hv]
      apply hm.files
      intro d hdd q hq
      have : q ≠ p := by rintro rfl; exact hd ⟨d, hdd, hq⟩
      simp [FS.write, this]
  | remove w log _ ih =>
    refine ⟨.remove _ ih.1, ih.2.1, ?_⟩
    intro k v hv
    rw [← ih.2.2 k v hv]
    apply hm.files
    intro d hdd q hq
    have : q ≠ file := by rintro rfl; exact hfile d hdd hq
    simp [this]
  | restart w log _ ih => exact ⟨ih.1, fun _ => rfl, fun k v hv => by cases hv⟩
  | call w log k _ ih =>
    refine ⟨?_, fun h => by simp at h, ?_⟩
    · rcases diskOutside_call (S := S) order method file deps w k (fun v _ => ih.2.2 k v) with h1 | h1
      · rw [h1.2]; exact ih.1
      · rw [h1.2]; exact .call _ _ _ ih.1
    · intro k' v hv
      obtain ⟨hfs, hmem⟩ := diskOutside_effect (S := S) order method file deps w k
      have hf : method (diskOutside S order method file deps w k).2.disk.fs (S.tuple k'.args) (S.dict k'.params) =
          method w.disk.fs (S.tuple k'.args) (S.dict k'.params) := by
        apply hm.files
        intro d hdd q hq
        have : q ≠ file := by rintro rfl; exact hfile d hdd hq
        rw [hfs q this]
      rw [hf]
      rcases hmem k' v hv with h1 | ⟨h1, h2⟩
      · exact ih.2.2 k' v h1
      · rw [← h2]
        have := (keyEq_iff k k').1 h1
        exact (hm.args _ _ _ _ _ (hS.tuple _ _ this) (hS.dict _ _ this)).symm

/-- C174, partial: with the disk cache outside, results are up to date if the dependencies are written only before the first call of a process. -/
theorem C174_disk_outside_partial (hS : Spec.StackLaws S) (hP : PickleSpec S.P) (order : List Path → List Path) (ho : Spec.SetOrder order)
    (method : DiskMethod S.P) (file : Path) (deps : List Dep) (hm : Spec.Determined S.P method deps)
    (hfile : ∀ d ∈ deps, ¬ Spec.DependsOn d file) (hpick : ∀ o, (S.P.dump o).2 = none) (w : StackWorld S) (log : List (Spec.StackLog S))
    (h : Spec.StackReach S (diskOutside S order method file deps) file deps (fun log p => (∃ d ∈ deps, Spec.DependsOn d p) → log = []) w log)
    (k : CallArgs S.objs) (hk : Spec.Hashable k) :
    (diskOutside S order method file deps w k).1 = method w.disk.fs (S.tuple k.args) (S.dict k.params) := by
  obtain ⟨hr, _, hmemo⟩ := diskOutside_inv hS hP order ho method file deps hm hfile w log h
  rcases diskOutside_call (S := S) order method file deps w k (fun v _ => hmemo k v) with h1 | h1
  · rw [(keyHashable_iff k).2 hk] at h1; exact absurd h1.1 (by decide)
  · rw [h1.1]
    exact (C24_up_to_date hP order ho method file deps hm hfile w.disk hr _ _ (fun o _ => ⟨hpick _, hpick _, hpick _⟩)).1

/-! ### The general claim fails -/

/-- Numbers, with one argument by position. -/
def stackUnary : StackObjects := ⟨unary, fun (a b : Nat) => a == b, fun _ => true, fun l => l.headD (0 : Nat), fun _ => (1 : Nat)⟩

theorem stackUnary_laws : Spec.StackLaws stackUnary where
  refl := by intro (a : Nat); show (a == a) = true; simp
  symm := by intro (a : Nat) (b : Nat) h; have h' : (a == b) = true := h; show (b == a) = true; simp at h' ⊢; exact h'.symm
  trans := by
    intro (a : Nat) (b : Nat) (c : Nat) h1 h2
    have h1' : (a == b) = true := h1
    have h2' : (b == c) = true := h2
    show (a == c) = true
    simp at h1' h2' ⊢; exact h1'.trans h2'
  tuple := by
    intro k k' h
    obtain ⟨a, p⟩ := k
    obtain ⟨a', p'⟩ := k'
    cases a with
    | nil => cases a' with
      | nil => rfl
      | cons y a' => exact absurd h.count (by simp)
    | cons x a => cases a' with
      | nil => exact absurd h.count (by simp)
      | cons y a' => exact congrArg Except.ok (h.args 0 x y rfl rfl)
  dict := by intro k k' _; rfl

/-- A call with the argument 5. -/
def stackFive : CallArgs stackUnary.objs := ⟨[(5 : Nat)], []⟩

/-- The data file is changed between two calls, with time passing before and after. -/
def stackEdited (call : StackCall stackUnary) : StackWorld stackUnary :=
  let w := (call ⟨freshDisk, []⟩ stackFive).2
  ⟨⟨w.disk.fs.write u!"data" [7, 7] 1, 2⟩, w.memo⟩

/-- One more call, and then a new process. -/
def stackRestarted (call : StackCall stackUnary) : StackWorld stackUnary :=
  ⟨(call (stackEdited call) stackFive).2.disk, []⟩

theorem stackEdited_reach (call : StackCall stackUnary)
    (hcache : ∀ f, (call ⟨freshDisk, []⟩ stackFive).2.disk.fs u!"cache" = some f → f.mtime < 1)
    (hnow : (call ⟨freshDisk, []⟩ stackFive).2.disk.now = 0) :
    ∃ log, Spec.StackReach stackUnary call u!"cache" [.file u!"data"] (fun _ _ => True) (stackEdited call) log := by
  have h0 : Spec.StackReach stackUnary call u!"cache" [.file u!"data"] (fun _ _ => True) ⟨freshDisk, []⟩ [] := by
    refine .init _ (by decide) ⟨?_, ?_⟩
    · intro d hd; simp at hd; subst hd; trivial
    · intro d hd p hp; simp at hd; subst hd; cases hp; exact ⟨_, rfl⟩
  have h1 := Spec.StackReach.wait _ _ 1 (Spec.StackReach.call _ _ stackFive h0)
  rw [hnow] at h1
  have h2 := Spec.StackReach.edit _ _ u!"data" [7, 7] h1 (by decide) hcache trivial
  exact ⟨_, Spec.StackReach.wait _ _ 1 h2⟩

/-- C174 fails in general.  With the memory cache outside, a change of a dependency is not seen by the running process.  With the disk cache outside, it is not seen
either, and the old value is stored as if it were new, so that later processes do not see the change. -/
theorem C174_refuted :
    let mem := memoryOutside stackUnary id countBytes u!"cache" [.file u!"data"]
    let disk := diskOutside stackUnary id countBytes u!"cache" [.file u!"data"]
    ((∃ log, Spec.StackReach stackUnary mem u!"cache" [.file u!"data"] (fun _ _ => True) (stackEdited mem) log) ∧
      (mem (stackEdited mem) stackFive).1 = .ok (6 : Nat) ∧ countBytes (stackEdited mem).disk.fs (5 : Nat) (1 : Nat) = .ok (8 : Nat) ∧
      (mem (stackRestarted mem) stackFive).1 = .ok (8 : Nat)) ∧
    ((∃ log, Spec.StackReach stackUnary disk u!"cache" [.file u!"data"] (fun _ _ => True) (stackEdited disk) log) ∧
      (disk (stackEdited disk) stackFive).1 = .ok (6 : Nat) ∧ countBytes (stackEdited disk).disk.fs (5 : Nat) (1 : Nat) = .ok (8 : Nat) ∧
      Spec.StackReach stackUnary disk u!"cache" [.file u!"data"] (fun _ _ => True) (stackRestarted disk) [] ∧
      (disk (stackRestarted disk) stackFive).1 = .ok (6 : Nat) ∧ countBytes (stackRestarted disk).disk.fs (5 : Nat) (1 : Nat) = .ok (8 : Nat)) := by
  intro mem disk
  have hm := stackEdited_reach mem (by
    intro f hf
    have hw : (mem ⟨freshDisk, []⟩ stackFive).2.disk.fs u!"cache" = some ⟨[1,1,1,1,1,0,1,0,1,1,1,1,1,1,0], 0⟩ := by rfl
    rw [hw] at hf; cases hf; decide) rfl
  have hd := stackEdited_reach disk (by
    intro f hf
    have hw : (disk ⟨freshDisk, []⟩ stackFive).2.disk.fs u!"cache" = some ⟨[1,1,1,1,1,0,1,0,1,1,1,1,1,1,0], 0⟩ := by rfl
    rw [hw] at hf; cases hf; decide) rfl
  refine ⟨⟨hm, rfl, rfl, rfl⟩, hd, rfl, rfl, ?_, rfl, rfl⟩
  obtain ⟨log, h⟩ := hd
  exact .restart _ _ (.call _ _ stackFive h)

/-- Non-vacuity of C174: the laws hold of these objects, the method is determined by the data file, and a world with one call is reached; the next call is answered
from memory. -/
example : Spec.StackLaws stackUnary ∧ PickleSpec stackUnary.P ∧ Spec.Determined stackUnary.P countBytes [.file u!"data"] ∧
    (∀ o, (stackUnary.P.dump o).2 = none) ∧ Spec.Hashable stackFive ∧
    (memoryOutside stackUnary id countBytes u!"cache" [.file u!"data"] ⟨freshDisk, []⟩ stackFive).2.memo.length = 1 ∧
    (diskOutside stackUnary id countBytes u!"cache" [.file u!"data"] ⟨freshDisk, []⟩ stackFive).2.memo.length = 1 :=
  ⟨stackUnary_laws, unary_spec, countBytes_determined, fun _ => rfl, ⟨fun _ _ => rfl, fun _ _ => rfl⟩, rfl, rfl⟩

/-! ### The exact condition -/

/-- All files of the dependencies. -/
def stackDepPaths (deps : List Dep) : List Path :=
  deps.flatMap (fun d => match d with
    | .file p => [p]
    | .module m => m.file.toList ++ m.imports.filterMap id
    | .other => [])

theorem stackDepPaths_mem (deps : List Dep) (d : Dep) (hd : d ∈ deps) (q : Path) (h : Spec.DependsOn d q) : q ∈ stackDepPaths deps := by
  refine List.mem_flatMap.2 ⟨d, hd, ?_⟩
  cases h with
  | file => simp
  | moduleFile m _ hm => simp [hm]
  | imported m _ hm => simp; exact Or.inr hm

theorem stackDepPaths_dep (deps : List Dep) (q : Path) (h : q ∈ stackDepPaths deps) : ∃ d ∈ deps, Spec.DependsOn d q := by
  obtain ⟨d, hd, hq⟩ := List.mem_flatMap.1 h
  refine ⟨d, hd, ?_⟩
  cases d with
  | file p => simp at hq; subst hq; exact .file _
  | module m =>
    simp at hq
    rcases hq with hq | hq
    · exact .moduleFile _ _ hq
    · exact .imported _ _ hq
  | other => simp at hq

/-- Files can be given the contents they have in `fs'`, one after the other, when there is no cache file. -/
theorem stack_edits (call : StackCall S) (file : Path) (deps : List Dep) (fs' : FS) (log : List (Spec.StackLog S)) :
    ∀ (l : List Path) (w : StackWorld S), (∀ q ∈ l, q ≠ file ∧ ∃ f, fs' q = some f) → w.disk.fs file = none →
      Spec.StackReach S call file deps (fun _ _ => True) w log →
      ∃ w', Spec.StackReach S call file deps (fun _ _ => True) w' log ∧ w'.memo = w.memo ∧ w'.disk.fs file = none ∧
        ∀ q, (w'.disk.fs q).map File.bytes = if q ∈ l then (fs' q).map File.bytes else (w.disk.fs q).map File.bytes
  | [], w, _, hn, h => ⟨w, h, rfl, hn, fun q => by simp⟩
  | p :: l, w, hl, hn, h => by
    obtain ⟨hp, f, hf⟩ := hl p (List.mem_cons_self ..)
    have h1 := Spec.StackReach.edit w log p f.bytes h hp (fun g hg => by rw [hn] at hg; cases hg) trivial
    obtain ⟨w', h2, h3, h4, h5⟩ := stack_edits call file deps fs' log l _ (fun q hq => hl q (List.mem_cons_of_mem _ hq))
      (by simp [FS.write, hp.symm, hn]) h1
    refine ⟨w', h2, h3, h4, fun q => ?_⟩
    rw [h5 q]
    by_cases hq : q ∈ l
    · simp [hq]
    · by_cases hqp : q = p
      · subst hqp; simp [hq, FS.write, hf]
      · simp [hq, hqp, FS.write]

theorem memoryProxy_fresh {St : Type} {O : PyObjects} (hO : Spec.EqLaws O) (inner : Method O St) (s : St) (k : CallArgs O) (hk : k.keyHashable = true) (v : O.Obj)
    (hv : (inner s k).1 = .ok v) : memoGet (memoryProxy inner s [] k).2.2 k = some v := by
  unfold memoryProxy
  simp only [hk, if_true, memoGet]
  cases hr : inner s k with
  | mk r s' =>
    rw [hr] at hv
    simp only at hv
    subst hv
    have : memoGet ([] ++ [(k, v)]) k = some v := by
      rw [memoGet_append]
      have hkk : k.keyEq k = true := (keyEq_iff k k).2 ⟨rfl, fun i a b ha hb => by rw [ha] at hb; cases hb; exact hO.refl _, rfl, fun i a b ha hb => by rw [ha] at hb; cases hb; exact hO.refl _⟩
      simp [memoGet, hkk]
    exact this

theorem memoryProxy_holds {St : Type} {O : PyObjects} (inner : Method O St) (s : St) (memo : List (CallArgs O × O.Obj)) (k k' : CallArgs O) (v : O.Obj)
    (h : memoGet (memoryProxy inner s memo k).2.2 k' = some v) :
    memoGet memo k' = some v ∨ (k.keyHashable = true ∧ k.keyEq k' = true ∧ (inner s k).1 = .ok v) := by
  revert h
  unfold memoryProxy
  split
  · rename_i hh
    cases memoGet memo k with
    | some u => exact Or.inl
    | none =>
      simp only
      cases hr : inner s k with
      | mk r s' =>
        cases r with
        | error e => exact Or.inl
        | ok u =>
          simp only
          rw [memoGet_append]
          cases memoGet memo k' with
          | some x => exact fun h => Or.inl h
          | none =>
            cases k.keyEq k' with
            | false => intro h; cases h
            | true => intro h; cases h; exact Or.inr ⟨hh, rfl, rfl⟩
  · exact Or.inl

theorem tryCache_nofile (P : PickleObjects) (order : List Path → List Path) (fs : FS) (file : Path) (a p : P.Obj) (deps : List Dep) (h : fs file = none) :
    tryCache P order fs file a p deps = .ok none := by
  have : needsUpdate order fs file deps = .ok true := by simp [needsUpdate, h]
  unfold tryCache
  rw [this]
  rfl

/-- What is returned does not change with the contents of the dependencies. -/
def stackSteady (S : StackObjects) (method : DiskMethod S.P) (deps : List Dep) : Prop :=
  ∀ (fs fs' : FS) (k : CallArgs S.objs) v, Spec.GoodDeps fs deps → Spec.GoodDeps fs' deps → Spec.Hashable k →
    method fs (S.tuple k.args) (S.dict k.params) = .ok v → method fs' (S.tuple k.args) (S.dict k.params) = .ok v

/-- Up to date in every history. -/
def stackFresh (S : StackObjects) (call : StackCall S) (method : DiskMethod S.P) (file : Path) (deps : List Dep) : Prop :=
  ∀ w log, Spec.StackReach S call file deps (fun _ _ => True) w log → ∀ k, Spec.Hashable k →
    (call w k).1 = method w.disk.fs (S.tuple k.args) (S.dict k.params)

/-- If calls remember what they returned first, and answer from memory when there is no cache file, then being up to date needs the condition. -/
theorem stack_needs (call : StackCall S) (method : DiskMethod S.P) (file : Path) (deps : List Dep) (hm : Spec.Determined S.P method deps)
    (hfile : ∀ d ∈ deps, ¬ Spec.DependsOn d file)
    (hfirst : ∀ (d : Disk) (k : CallArgs S.objs) v, d.fs file = none → Spec.Hashable k → method d.fs (S.tuple k.args) (S.dict k.params) = .ok v →
      memoGet (call ⟨d, []⟩ k).2.memo k = some v)
    (hagain : ∀ (w : StackWorld S) (k : CallArgs S.objs) v, w.disk.fs file = none → Spec.Hashable k → memoGet w.memo k = some v →
      (storedBytes S.P v (S.tuple k.args) (S.dict k.params)).2 = none → (call w k).1 = .ok v)
    (hpick : ∀ v a p, (storedBytes S.P v a p).2 = none)
    (H : stackFresh S call method file deps) : stackSteady S method deps := by
  intro fs fs' k v hg hg' hk hv
  let fs0 : FS := fun x => if x = file then none else fs x
  have hne : ∀ d ∈ deps, ∀ q, Spec.DependsOn d q → q ≠ file := fun d hd q hq e => hfile d hd (e ▸ hq)
  have h0 : ∀ d ∈ deps, ∀ q, Spec.DependsOn d q → fs0 q = fs q := fun d hd q hq => if_neg (hne d hd q hq)
  have hv0 : method fs0 (S.tuple k.args) (S.dict k.params) = .ok v := by
    rw [← hv]; exact hm.files _ _ _ _ (fun d hd q hq => by rw [h0 d hd q hq])
  have r0 : Spec.StackReach S call file deps (fun _ _ => True) ⟨⟨fs0, 0⟩, []⟩ [] :=
    .init _ (if_pos rfl) ⟨hg.1, fun d hd q hq => by show ∃ f, fs0 q = some f; rw [h0 d hd q hq]; exact hg.2 d hd q hq⟩
  have r1 := Spec.StackReach.remove _ _ (Spec.StackReach.call _ _ k r0)
  have m1 := hfirst ⟨fs0, 0⟩ k v (if_pos rfl) hk hv0
  obtain ⟨w', r2, m2, n2, c2⟩ := stack_edits call file deps fs' _ (stackDepPaths deps) _ (fun q hq => by
    obtain ⟨d, hd, hdq⟩ := stackDepPaths_dep deps q hq
    exact ⟨hne d hd q hdq, hg'.2 d hd q hdq⟩) (if_pos rfl) r1
  have hlast := hagain w' k v n2 hk (by rw [m2]; exact m1) (hpick _ _ _)
  rw [H w' _ r2 k hk] at hlast
  rw [← hlast]
  refine hm.files _ _ _ _ (fun d hd q hq => ?_)
  rw [c2 q, if_pos (stackDepPaths_mem deps d hd q hq)]

theorem stack_pick (hpick : ∀ o, (S.P.dump o).2 = none) (v a p : S.P.Obj) : (storedBytes S.P v a p).2 = none := by
  unfold storedBytes
  have h1 := hpick a
  have h2 := hpick p
  have h3 := hpick v
  cases e1 : S.P.dump a with
  | mk b1 r1 =>
    rw [e1] at h1; simp only at h1; subst h1
    cases e2 : S.P.dump p with
    | mk b2 r2 =>
      rw [e2] at h2; simp only at h2; subst h2
      cases e3 : S.P.dump v with
      | mk b3 r3 => rw [e3] at h3; exact h3

/-- With the condition, the memory cache holds what the method would return now, whatever was written since. -/
theorem stack_suffices (hS : Spec.StackLaws S) (hP : PickleSpec S.P) (order : List Path → List Path) (method : DiskMethod S.P)
    (file : Path) (deps : List Dep) (hm : Spec.Determined S.P method deps) (hfile : ∀ d ∈ deps, ¬ Spec.DependsOn d file) (call : StackCall S)
    (hsteady : stackSteady S method deps)
    (hcall : ∀ (w : StackWorld S) (k : CallArgs S.objs), Spec.Reachable S.P order method file deps w.disk →
      (∀ k v, k.keyHashable = true → memoGet w.memo k = some v → method w.disk.fs (S.tuple k.args) (S.dict k.params) = .ok v) →
      Spec.Reachable S.P order method file deps (call w k).2.disk ∧
      (∀ k' v, memoGet (call w k).2.memo k' = some v → memoGet w.memo k' = some v ∨
        (k.keyHashable = true ∧ k.keyEq k' = true ∧ method w.disk.fs (S.tuple k.args) (S.dict k.params) = .ok v)))
    (w : StackWorld S) (log : List (Spec.StackLog S)) (h : Spec.StackReach S call file deps (fun _ _ => True) w log) :
    Spec.Reachable S.P order method file deps w.disk ∧
      ∀ k v, k.keyHashable = true → memoGet w.memo k = some v → method w.disk.fs (S.tuple k.args) (S.dict k.params) = .ok v := by
  have good : ∀ d, Spec.Reachable S.P order method file deps d → Spec.GoodDeps d.fs deps := fun d hd => (reachable_cacheOk hP hm hfile hd).1
  induction h with
  | init d h1 h2 => exact ⟨.init d h1 h2, fun k v _ hv => by cases hv⟩
  | wait w log n _ ih => exact ⟨.wait _ n ih.1, ih.2⟩
  | edit w log p bytes _ hp hc _ ih =>
    have hr := Spec.Reachable.edit _ p bytes ih.1 hp hc
    exact ⟨hr, fun k v hk hv => hsteady _ _ k v (good _ ih.1) (good _ hr) ((keyHashable_iff k).1 hk) (ih.2 k v hk hv)⟩
  | remove w log _ ih =>
    have hr := Spec.Reachable.remove _ ih.1
    exact ⟨hr, fun k v hk hv => hsteady _ _ k v (good _ ih.1) (good _ hr) ((keyHashable_iff k).1 hk) (ih.2 k v hk hv)⟩
  | restart w log _ ih => exact ⟨ih.1, fun k v _ hv => by cases hv⟩
  | call w log k _ ih =>
    obtain ⟨hr, hmem⟩ := hcall w k ih.1 ih.2
    refine ⟨hr, fun k' v hk' hv => ?_⟩
    have hk := (keyHashable_iff k').1 hk'
    refine hsteady w.disk.fs _ k' v (good _ ih.1) (good _ hr) hk ?_
    rcases hmem k' v hv with h1 | ⟨_, h2, h3⟩
    · exact ih.2 k' v hk' h1
    · have hs := (keyEq_iff k k').1 h2
      rw [← h3]
      exact (hm.args _ _ _ _ _ (hS.tuple _ _ hs) (hS.dict _ _ hs)).symm

/-- C174: the exact condition.  With either order of the two caches, results are up to date in every history exactly if what the method returns does not change with the
contents of its dependencies. -/
theorem C174_iff (hS : Spec.StackLaws S) (hP : PickleSpec S.P) (order : List Path → List Path) (ho : Spec.SetOrder order)
    (method : DiskMethod S.P) (file : Path) (deps : List Dep) (hm : Spec.Determined S.P method deps)
    (hfile : ∀ d ∈ deps, ¬ Spec.DependsOn d file) (hpick : ∀ o, (S.P.dump o).2 = none) (outside : Bool) :
    let call := if outside then memoryOutside S order method file deps else diskOutside S order method file deps
    (∀ w log, Spec.StackReach S call file deps (fun _ _ => True) w log → ∀ k, Spec.Hashable k →
      (call w k).1 = method w.disk.fs (S.tuple k.args) (S.dict k.params)) ↔
    ∀ (fs fs' : FS) (k : CallArgs S.objs) v, Spec.GoodDeps fs deps → Spec.GoodDeps fs' deps → Spec.Hashable k →
      method fs (S.tuple k.args) (S.dict k.params) = .ok v → method fs' (S.tuple k.args) (S.dict k.params) = .ok v := by
  have hO := stack_eqLaws hS
  have hst := stack_pick (S := S) hpick
  cases outside with
  | true =>
    simp only [if_true]
    constructor
    · refine stack_needs _ method file deps hm hfile ?_ ?_ hst
      · intro d k v hn hk hv
        refine memoryProxy_fresh hO _ d k ((keyHashable_iff k).2 hk) v ?_
        simp only [diskProxy, tryCache_nofile _ _ _ _ _ _ _ hn, hv]
        have := hst v (S.tuple k.args) (S.dict k.params)
        cases hb : storedBytes S.P v (S.tuple k.args) (S.dict k.params) with
        | mk b x => rw [hb] at this; simp only at this; subst this; rfl
      · intro w k v hn hk hv _
        simp only [memoryOutside, memoryProxy, (keyHashable_iff k).2 hk, if_true, hv]
    · intro hsteady w log h k hk
      have hcall : ∀ (w : StackWorld S) (k : CallArgs S.objs), Spec.Reachable S.P order method file deps w.disk →
          Spec.Reachable S.P order method file deps (memoryOutside S order method file deps w k).2.disk := by
        intro w k hr
        unfold memoryOutside memoryProxy
        simp only
        split
        · split
          · exact hr
          · split
            · rename_i heq
              have := congrArg Prod.snd heq
              simp only at this ⊢
              rw [← this]
              exact .call _ _ _ hr
            · rename_i heq
              have := congrArg Prod.snd heq
              simp only at this ⊢
              rw [← this]
              exact .call _ _ _ hr
        · exact hr
      obtain ⟨hr, hmemo⟩ := stack_suffices hS hP order method file deps hm hfile _ hsteady (fun w k hr hmemo => ⟨hcall w k hr, fun k' v hv => by
        rcases memoryProxy_holds _ _ _ _ _ _ hv with h1 | ⟨h1, h2, h3⟩
        · exact Or.inl h1
        · refine Or.inr ⟨h1, h2, ?_⟩
          rw [← (C24_up_to_date hP order ho method file deps hm hfile w.disk hr _ _ (fun o _ => ⟨hpick _, hpick _, hpick _⟩)).1]
          exact h3⟩) w log h
      rcases C174_memory_outside_partial hS hP order ho method file deps hm hfile hpick w log h k hk with h1 | ⟨b, e, a, v, h1, h2, h3, h4, h5, h6⟩
      · exact h1.2
      · rw [h6]
        have hh := (keyHashable_iff k).2 hk
        cases hg : memoGet w.memo k with
        | some u =>
          have : (memoryOutside S order method file deps w k).1 = .ok u := by
            unfold memoryOutside memoryProxy
            simp only [hh, if_true, hg]
          rw [h6] at this
          cases this
          exact (hmemo k _ hh hg).symm
        | none =>
          rw [← h6]
          have hc := (C24_up_to_date hP order ho method file deps hm hfile w.disk hr (S.tuple k.args) (S.dict k.params) (fun o _ => ⟨hpick _, hpick _, hpick _⟩)).1
          unfold memoryOutside memoryProxy
          simp only [hh, if_true, hg]
          rw [← hc]
          cases (diskProxy S.P order method file deps w.disk (S.tuple k.args) (S.dict k.params)).result <;> rfl
  | false =>
    simp only [Bool.false_eq_true, if_false]
    constructor
    · refine stack_needs _ method file deps hm hfile ?_ ?_ hst
      · intro d k v hn hk hv
        have hmem := memoryProxy_fresh hO (fun (d : Disk) k => (method d.fs (S.tuple k.args) (S.dict k.params), d)) d k ((keyHashable_iff k).2 hk) v hv
        unfold diskOutside
        simp only [tryCache_nofile _ _ _ _ _ _ _ hn]
        split
        · exact hmem
        · split <;> exact hmem
      · intro w k v hn hk hv hs
        unfold diskOutside
        simp only [tryCache_nofile _ _ _ _ _ _ _ hn]
        have : (memoryProxy (O := S.objs) (fun (d : Disk) k => (method d.fs (S.tuple k.args) (S.dict k.params), d)) w.disk w.memo k).1.result = .ok v := by
          unfold memoryProxy
          simp only [(keyHashable_iff k).2 hk, if_true, hv]
        rw [this]
        simp only
        cases hb : storedBytes S.P v (S.tuple k.args) (S.dict k.params) with
        | mk b x => rw [hb] at hs; simp only at hs; subst hs; rfl
    · intro hsteady w log h k hk
      obtain ⟨hr, hmemo⟩ := stack_suffices hS hP order method file deps hm hfile _ hsteady (fun w k hr hmemo => ⟨by
        rcases diskOutside_call (S := S) order method file deps w k (fun v => hmemo k v) with h1 | h1
        · rw [h1.2]; exact hr
        · rw [h1.2]; exact .call _ _ _ hr, fun k' v => by
        unfold diskOutside
        cases tryCache S.P order w.disk.fs file (S.tuple k.args) (S.dict k.params) deps with
        | error e => exact Or.inl
        | ok r =>
          cases r with
          | some o => exact Or.inl
          | none =>
            simp only
            have hmem := fun h => memoryProxy_holds (O := S.objs) (fun (d : Disk) k => (method d.fs (S.tuple k.args) (S.dict k.params), d)) w.disk w.memo k k' v h
            split
            · exact hmem
            · split <;> exact hmem⟩) w log h
      rcases diskOutside_call (S := S) order method file deps w k (fun v => hmemo k v) with h1 | h1
      · rw [(keyHashable_iff k).2 hk] at h1; exact absurd h1.1 (by decide)
      · rw [h1.1]
        exact (C24_up_to_date hP order ho method file deps hm hfile w.disk hr _ _ (fun o _ => ⟨hpick _, hpick _, hpick _⟩)).1

/-- Non-vacuity of `C174_iff`: a method that does not look at its file meets the condition, one that counts the bytes of the file does not. -/
example : stackSteady stackUnary (fun _ a _ => .ok a) [.file u!"data"] ∧ ¬ stackSteady stackUnary countBytes [.file u!"data"] := by
  refine ⟨fun _ _ _ _ _ _ _ h => h, fun H => ?_⟩
  have hg : ∀ b, Spec.GoodDeps (fun _ => some ⟨b, 0⟩) [.file u!"data"] := fun b =>
    ⟨fun d hd => by simp at hd; subst hd; trivial, fun d hd q hq => ⟨_, rfl⟩⟩
  have := H (fun _ => some ⟨[], 0⟩) (fun _ => some ⟨[7, 7], 0⟩) stackFive (6 : Nat) (hg _) (hg _) ⟨fun _ _ => rfl, fun _ _ => rfl⟩ rfl
  have h5 : countBytes (fun _ => some ⟨[7, 7], 0⟩) (5 : Nat) (1 : Nat) = .ok (8 : Nat) := rfl
  have h6 : (Except.ok (8 : Nat) : Except PyErr Nat) = .ok 6 := h5.symm.trans this
  cases h6

end Cjk
