import Verif.Model.CacheTwice
import Verif.Props.SmartCache
/-!
# C177: wrapping a method twice; C178: several methods with one cache file
-/

namespace Cjk
open Py

/-! ## C177 -/

theorem memoryTwice_same {O : PyObjects} {σ : Type} (method : Method O σ) (s : σ) (memo : List (CallArgs O × O.Obj)) (k : CallArgs O) :
    memoryTwice method s memo memo k =
      ((memoryProxy method s memo k).1, (memoryProxy method s memo k).2.1, (memoryProxy method s memo k).2.2, (memoryProxy method s memo k).2.2) := by
  unfold memoryTwice
  simp only
  unfold memoryProxy
  cases hh : k.keyHashable with
  | false => rfl
  | true =>
    simp only [if_true]
    cases hg : memoGet memo k with
    | some v => rfl
    | none =>
      simp only
      cases hr : method s k with
      | mk r s' => cases r <;> simp only [hh, if_true]

/-- **C177** (memory).  For every method, whatever it does to the state, and every history of calls with changes of the state in between: wrapped twice with
`memory_proxy` it gives the same outcomes as wrapped once, runs at the same calls, and leaves the same state. -/
theorem C177_memory {O : PyObjects} {σ : Type} (method : Method O σ) (s : σ) (hist : List ((σ → σ) × CallArgs O)) :
    memoryTwiceRun method s [] [] hist = memoryOnceRun method s [] hist := by
  suffices h : ∀ (s : σ) (memo : List (CallArgs O × O.Obj)), memoryTwiceRun method s memo memo hist = memoryOnceRun method s memo hist from h s []
  induction hist with
  | nil => intro s memo; rfl
  | cons e hist ih =>
    obtain ⟨f, k⟩ := e
    intro s memo
    rw [memoryTwiceRun, memoryOnceRun, memoryTwice_same]
    simp only
    rw [ih]

theorem write_same_twice (fs : FS) (p : Path) (b : List Nat) (now : Nat) : (fs.write p b now).write p b now = fs.write p b now := by
  funext q
  unfold FS.write
  split <;> rfl

/-- **C177** (disk).  Wrapped twice with `disk_proxy` and the same cache file and dependencies, a method gives the same outcome as wrapped once and leaves the same
files, whatever is in the cache file before. -/
theorem C177_disk (P : PickleObjects) (order : List Path → List Path) (method : DiskMethod P) (file : Path) (deps : List Dep) (d : Disk)
    (args params : P.Obj) :
    diskTwice P order method file deps d args params =
      ((diskProxy P order method file deps d args params).result, (diskProxy P order method file deps d args params).disk) := by
  unfold diskTwice diskAround
  cases ht : tryCache P order d.fs file args params deps with
  | error e => unfold diskProxy; rw [ht]
  | ok r =>
    cases r with
    | some o => unfold diskProxy; rw [ht]
    | none =>
      simp only
      unfold diskProxy
      rw [ht]
      simp only
      cases hm : method d.fs args params with
      | error e => rfl
      | ok o =>
        simp only
        cases hb : storedBytes P o args params with
        | mk b x =>
          cases x with
          | some e => rfl
          | none => simp only [hb, write_same_twice]

/-- Non-vacuity of C177: a method that counts its calls in the state; the second of two same calls is answered without it, once or twice wrapped. -/
example : let count : Method sampleObjects Nat := fun s _ => (.ok s, s + 1)
    let k : CallArgs sampleObjects := ⟨[(3 : Nat)], []⟩
    (memoryTwiceRun count 0 [] [] [(id, k), (id, k)]).2 = 1 ∧
    ((memoryTwiceRun count 0 [] [] [(id, k), (id, k)]).1.map CallResult.called) = [true, false] := by
  decide

/-! ## C178 -/

/-- Worlds reachable by calls of several methods that are wrapped with the same cache file and the same dependencies; `calls i a p` says which calls are made of the
method `i`.  Otherwise as for one method. -/
inductive Spec.SharedReach {I : Type} (P : PickleObjects) (order : List Path → List Path) (methods : I → DiskMethod P) (file : Path)
    (deps : List Dep) (calls : I → P.Obj → P.Obj → Prop) : Disk → Prop
  | init (d : Disk) : d.fs file = none → Spec.GoodDeps d.fs deps → SharedReach P order methods file deps calls d
  | wait (d : Disk) (n : Nat) : SharedReach P order methods file deps calls d →
      SharedReach P order methods file deps calls { d with now := d.now + n }
  | edit (d : Disk) (p : Path) (bytes : List Nat) : SharedReach P order methods file deps calls d → p ≠ file →
      (∀ f, d.fs file = some f → f.mtime < d.now) →
      SharedReach P order methods file deps calls { d with fs := d.fs.write p bytes d.now }
  | remove (d : Disk) : SharedReach P order methods file deps calls d →
      SharedReach P order methods file deps calls { d with fs := fun q => if q = file then none else d.fs q }
  | call (d : Disk) (i : I) (args params : P.Obj) : SharedReach P order methods file deps calls d → calls i args params →
      SharedReach P order methods file deps calls (diskProxy P order (methods i) file deps d args params).disk
  | crash (d : Disk) (i : I) (args params : P.Obj) (n : Nat) : SharedReach P order methods file deps calls d → calls i args params →
      SharedReach P order methods file deps calls (diskProxyCrash P order (methods i) file deps d args params n)

/-- Every hit of the cache file is what a method returned for equal arguments. -/
def SharedOk {I : Type} (P : PickleObjects) (methods : I → DiskMethod P) (file : Path) (deps : List Dep) (calls : I → P.Obj → P.Obj → Prop) (d : Disk) : Prop :=
  Spec.GoodDeps d.fs deps ∧
  ∀ f, d.fs file = some f → ¬ Spec.Newer d.fs f.mtime deps → ∀ args params r, loadCached P f.bytes args params = some r →
    ∃ i a p, calls i a p ∧ P.eq a args = .ok true ∧ P.eq p params = .ok true ∧ methods i d.fs a p = .ok r

theorem sharedOk_store {I : Type} {P : PickleObjects} (hP : PickleSpec P) {methods : I → DiskMethod P} {file : Path} {deps : List Dep}
    {calls : I → P.Obj → P.Obj → Prop} (hm : ∀ i, Spec.Determined P (methods i) deps) (hfile : ∀ d ∈ deps, ¬ Spec.DependsOn d file) {d : Disk}
    (hg : Spec.GoodDeps d.fs deps) {i : I} {o a p : P.Obj} (hc : calls i a p) (ho : methods i d.fs a p = .ok o) {bytes : List Nat}
    (hb : bytes <+: (storedBytes P o a p).1) :
    SharedOk P methods file deps calls { d with fs := d.fs.write file bytes d.now } := by
  have hsame : ∀ dd ∈ deps, ∀ q, Spec.DependsOn dd q → (d.fs.write file bytes d.now) q = d.fs q := by
    intro dd hd q hq
    have : q ≠ file := by rintro rfl; exact hfile dd hd hq
    simp [FS.write, this]
  refine ⟨⟨hg.1, fun dd hd q hq => ?_⟩, ?_⟩
  · show ∃ f, (d.fs.write file bytes d.now) q = some f
    rw [hsame dd hd q hq]; exact hg.2 dd hd q hq
  · intro f hf _ args params r hr
    have hf' : f = ⟨bytes, d.now⟩ := by
      have : (d.fs.write file bytes d.now) file = some ⟨bytes, d.now⟩ := by simp [FS.write]
      exact Option.some.inj (hf.symm.trans this)
    subst hf'
    obtain ⟨rfl, _, h1, h2, _⟩ := loadCached_prefix hP o a p bytes hb args params r hr
    refine ⟨i, a, p, hc, h1, h2, ?_⟩
    rw [← ho]
    exact (hm i).files _ _ _ _ (fun dd hd q hq => by
      show ((d.fs.write file bytes d.now) q).map File.bytes = _
      rw [hsame dd hd q hq])

theorem shared_ok {I : Type} {P : PickleObjects} (hP : PickleSpec P) {order : List Path → List Path} {methods : I → DiskMethod P} {file : Path}
    {deps : List Dep} {calls : I → P.Obj → P.Obj → Prop} (hm : ∀ i, Spec.Determined P (methods i) deps)
    (hfile : ∀ d ∈ deps, ¬ Spec.DependsOn d file) {d : Disk} (hd : Spec.SharedReach P order methods file deps calls d) :
    SharedOk P methods file deps calls d := by
  induction hd with
  | init d h1 h2 => exact ⟨h2, fun f hf => by rw [h1] at hf; cases hf⟩
  | wait d n _ ih => exact ih
  | edit d p bytes _ hp hclock ih =>
    refine ⟨⟨ih.1.1, ?_⟩, ?_⟩
    · intro dd hdd q hq
      show ∃ f, (d.fs.write p bytes d.now) q = some f
      by_cases hqp : q = p
      · exact ⟨⟨bytes, d.now⟩, by simp [FS.write, hqp]⟩
      · simp only [FS.write, hqp, if_false]; exact ih.1.2 dd hdd q hq
    · intro f hf hn args params r hr
      have hf' : d.fs file = some f := by
        have : (d.fs.write p bytes d.now) file = d.fs file := by simp [FS.write, Ne.symm hp]
        rw [← this]; exact hf
      have hnd : ∀ dd ∈ deps, ¬ Spec.DependsOn dd p := by
        intro dd hdd hdp
        apply hn
        refine ⟨dd, hdd, p, hdp, ⟨bytes, d.now⟩, by simp [FS.write], hclock f hf'⟩
      have hsame : ∀ dd ∈ deps, ∀ q, Spec.DependsOn dd q → (d.fs.write p bytes d.now) q = d.fs q := by
        intro dd hdd q hq
        have : q ≠ p := by rintro rfl; exact hnd dd hdd hq
        simp [FS.write, this]
      have hn' : ¬ Spec.Newer d.fs f.mtime deps := by
        rintro ⟨dd, hdd, q, hq, g, hg, hlt⟩
        exact hn ⟨dd, hdd, q, hq, g, (hsame dd hdd q hq).trans hg, hlt⟩
      obtain ⟨i, a, b, h1, h2, h3, h4⟩ := ih.2 f hf' hn' args params r hr
      refine ⟨i, a, b, h1, h2, h3, ?_⟩
      rw [← h4]
      exact (hm i).files _ _ _ _ (fun dd hdd q hq => by
        show ((d.fs.write p bytes d.now) q).map File.bytes = _
        rw [hsame dd hdd q hq])
  | remove d _ ih =>
    refine ⟨⟨ih.1.1, ?_⟩, ?_⟩
    · intro dd hdd q hq
      have : q ≠ file := by rintro rfl; exact hfile dd hdd hq
      simp only [this, if_false]; exact ih.1.2 dd hdd q hq
    · intro f hf; simp at hf
  | call d i args params _ hc ih =>
    unfold diskProxy
    split
    · exact ih
    · exact ih
    · split
      · exact ih
      · rename_i o ho
        split
        · rename_i b hb
          exact sharedOk_store hP hm hfile ih.1 hc ho (by rw [hb]; exact List.prefix_refl _)
        · rename_i b e hb
          exact sharedOk_store hP hm hfile ih.1 hc ho (by rw [hb]; exact List.prefix_refl _)
  | crash d i args params n _ hc ih =>
    unfold diskProxyCrash
    split
    · exact ih
    · exact ih
    · split
      · exact ih
      · rename_i o ho
        exact sharedOk_store hP hm hfile ih.1 hc ho (List.take_prefix _ _)

theorem loadCached_not_none {P : PickleObjects} {bytes : List Nat} {args params r : P.Obj} (h : loadCached P bytes args params = some r) : P.isNone r = false := by
  unfold loadCached at h
  split at h
  · rename_i o _
    cases hn : P.isNone o with
    | true => rw [hn] at h; cases h
    | false =>
      rw [hn] at h
      simp only [Bool.false_eq_true, if_false, Option.some.injEq] at h
      rw [← h, hn]
  · cases h
  · cases h

/-- A call gives what the method would give now, or a result other than `None` that a method would give now for equal arguments. -/
theorem sharedHit {I : Type} {P : PickleObjects} (hP : PickleSpec P) (order : List Path → List Path) (ho : Spec.SetOrder order)
    (methods : I → DiskMethod P) (file : Path) (deps : List Dep) (calls : I → P.Obj → P.Obj → Prop) (hm : ∀ i, Spec.Determined P (methods i) deps)
    (hfile : ∀ d ∈ deps, ¬ Spec.DependsOn d file) (hpick : ∀ o, (P.dump o).2 = none) (d : Disk)
    (hd : Spec.SharedReach P order methods file deps calls d) (i : I) (args params : P.Obj) :
    (diskProxy P order (methods i) file deps d args params).result = methods i d.fs args params ∨
    ∃ j a p r, calls j a p ∧ P.eq a args = .ok true ∧ P.eq p params = .ok true ∧ methods j d.fs a p = .ok r ∧ P.isNone r = false ∧
      (diskProxy P order (methods i) file deps d args params).result = .ok r := by
  have h := shared_ok hP hm hfile hd
  obtain ⟨b, hb, hb'⟩ := C26_needs_update_exact order ho d.fs file deps h.1
  have hmiss : tryCache P order d.fs file args params deps = .ok none →
      (diskProxy P order (methods i) file deps d args params).result = methods i d.fs args params := by
    intro ht
    unfold diskProxy
    rw [ht]
    simp only
    cases methods i d.fs args params with
    | error e => rfl
    | ok o =>
      have : (storedBytes P o args params).2 = none := by
        unfold storedBytes
        have h1 := hpick args
        have h2 := hpick params
        have h3 := hpick o
        cases e1 : P.dump args with
        | mk b1 x1 => cases e2 : P.dump params with
          | mk b2 x2 => cases e3 : P.dump o with
            | mk b3 x3 =>
              rw [e1] at h1; rw [e2] at h2; rw [e3] at h3
              simp only at h1 h2 h3
              subst h1 h2 h3
              rfl
      simp only
      cases hs : storedBytes P o args params with
      | mk b x => rw [hs] at this; simp only at this; subst this; rfl
  cases b with
  | true => exact Or.inl (hmiss (by unfold tryCache; rw [hb]; rfl))
  | false =>
    simp only [Bool.false_eq_true, false_iff, Classical.not_forall] at hb'
    obtain ⟨f, hf, hn⟩ := hb'
    have ht : tryCache P order d.fs file args params deps = .ok (loadCached P f.bytes args params) := by
      unfold tryCache; rw [hb]
      simp only [Bind.bind, Except.bind, Bool.false_eq_true, if_false, hf]
    cases hl : loadCached P f.bytes args params with
    | none => rw [hl] at ht; exact Or.inl (hmiss ht)
    | some r =>
      rw [hl] at ht
      obtain ⟨j, a, p, h1, h2, h3, h4⟩ := h.2 f hf hn args params r hl
      refine Or.inr ⟨j, a, p, r, h1, h2, h3, h4, loadCached_not_none hl, ?_⟩
      unfold diskProxy
      rw [ht]

/-- **C178**, partial: a call of one of the methods gives what this method would return (or raise) now, or what another one of the methods would return now for a
call with equal arguments that is made of it. -/
theorem C178_some_method_partial {I : Type} {P : PickleObjects} (hP : PickleSpec P) (order : List Path → List Path) (ho : Spec.SetOrder order)
    (methods : I → DiskMethod P) (file : Path) (deps : List Dep) (calls : I → P.Obj → P.Obj → Prop) (hm : ∀ i, Spec.Determined P (methods i) deps)
    (hfile : ∀ d ∈ deps, ¬ Spec.DependsOn d file) (hpick : ∀ o, (P.dump o).2 = none) (d : Disk)
    (hd : Spec.SharedReach P order methods file deps calls d) (i : I) (args params : P.Obj) :
    (diskProxy P order (methods i) file deps d args params).result = methods i d.fs args params ∨
    ∃ j a p, calls j a p ∧ P.eq a args = .ok true ∧ P.eq p params = .ok true ∧
      (diskProxy P order (methods i) file deps d args params).result = methods j d.fs a p := by
  rcases sharedHit hP order ho methods file deps calls hm hfile hpick d hd i args params with h | ⟨j, a, p, r, h1, h2, h3, h4, _, h6⟩
  · exact Or.inl h
  · exact Or.inr ⟨j, a, p, h1, h2, h3, h6.trans h4.symm⟩

/-- **C178**, partial: if no two methods are called with equal arguments, unless they agree on them, all results are up to date. -/
theorem C178_apart_partial {I : Type} {P : PickleObjects} (hP : PickleSpec P) (order : List Path → List Path) (ho : Spec.SetOrder order)
    (methods : I → DiskMethod P) (file : Path) (deps : List Dep) (calls : I → P.Obj → P.Obj → Prop) (hm : ∀ i, Spec.Determined P (methods i) deps)
    (hfile : ∀ d ∈ deps, ¬ Spec.DependsOn d file) (hpick : ∀ o, (P.dump o).2 = none)
    (hapart : ∀ i j a p a' p', calls i a p → calls j a' p' → P.eq a a' = .ok true → P.eq p p' = .ok true →
      i = j ∨ ∀ fs, methods i fs a p = methods j fs a' p') (d : Disk)
    (hd : Spec.SharedReach P order methods file deps calls d) (i : I) (args params : P.Obj) (hc : calls i args params) :
    (diskProxy P order (methods i) file deps d args params).result = methods i d.fs args params := by
  rcases C178_some_method_partial hP order ho methods file deps calls hm hfile hpick d hd i args params with h | ⟨j, a, p, h1, h2, h3, h4⟩
  · exact h
  · rw [h4]
    rcases hapart j i a p args params h1 hc h2 h3 with rfl | h5
    · exact (hm j).args _ _ _ _ _ h2 h3
    · exact h5 d.fs

/-- Some time is not before any of the dependencies. -/
theorem time_after (fs : FS) : ∀ deps : List Dep, ∃ n, ¬ Spec.Newer fs n deps
  | [] => ⟨0, by rintro ⟨d, hd, _⟩; cases hd⟩
  | d :: deps => by
    obtain ⟨n, hn⟩ := time_after fs deps
    have hps : ∀ ps : List Path, ∃ m, ∀ p ∈ ps, ∀ f, fs p = some f → f.mtime ≤ m := by
      intro ps
      induction ps with
      | nil => exact ⟨0, fun _ h => by cases h⟩
      | cons p ps ih =>
        obtain ⟨m, hm⟩ := ih
        refine ⟨max m ((fs p).elim 0 File.mtime), ?_⟩
        intro q hq f hf
        rcases List.mem_cons.1 hq with rfl | hq
        · rw [hf]; exact Nat.le_max_right _ _
        · exact Nat.le_trans (hm q hq f hf) (Nat.le_max_left _ _)
    have hd : ∃ ps : List Path, ∀ p, Spec.DependsOn d p → p ∈ ps := by
      cases d with
      | file p => exact ⟨[p], fun q h => by cases h; simp⟩
      | module m =>
        refine ⟨m.file.toList ++ m.imports.filterMap id, fun q h => ?_⟩
        cases h with
        | moduleFile _ _ h => rw [h]; simp
        | imported _ _ h => exact List.mem_append_right _ (List.mem_filterMap.2 ⟨_, h, rfl⟩)
      | other => exact ⟨[], fun q h => by cases h⟩
    obtain ⟨ps, hps'⟩ := hd
    obtain ⟨m, hm⟩ := hps ps
    refine ⟨max n m, ?_⟩
    rintro ⟨d', hd', p, hp, f, hf, hlt⟩
    rcases List.mem_cons.1 hd' with rfl | hd'
    · have := hm p (hps' p hp) f hf
      omega
    · exact hn ⟨d', hd', p, hp, f, hf, by omega⟩

/-- **C178** (exact condition).  All results are up to date, in every history, exactly if the methods agree on equal arguments that both are called with, whenever one
of them returns something other than None. -/
theorem C178_iff {I : Type} {P : PickleObjects} (hP : PickleSpec P) (order : List Path → List Path) (ho : Spec.SetOrder order)
    (methods : I → DiskMethod P) (file : Path) (deps : List Dep) (calls : I → P.Obj → P.Obj → Prop) (hm : ∀ i, Spec.Determined P (methods i) deps)
    (hfile : ∀ d ∈ deps, ¬ Spec.DependsOn d file) (hpick : ∀ o, (P.dump o).2 = none) :
    (∀ d, Spec.SharedReach P order methods file deps calls d → ∀ i args params, calls i args params →
      (diskProxy P order (methods i) file deps d args params).result = methods i d.fs args params) ↔
    ∀ i j a p a' p', calls i a p → calls j a' p' → P.eq a a' = .ok true → P.eq p p' = .ok true →
      ∀ fs, Spec.GoodDeps fs deps → ∀ r, methods i fs a p = .ok r → P.isNone r = false → methods j fs a' p' = .ok r := by
  constructor
  · intro h i j a p a' p' hc hc' h1 h2 fs hg r hr hnone
    obtain ⟨n, hn⟩ := time_after fs deps
    have hsame : ∀ fs' : FS, (∀ q, q ≠ file → fs' q = fs q) → ∀ dd ∈ deps, ∀ q, Spec.DependsOn dd q → fs' q = fs q := by
      intro fs' h' dd hdd q hq
      exact h' q (by rintro rfl; exact hfile dd hdd hq)
    have hfs : ∀ fs' : FS, (∀ q, q ≠ file → fs' q = fs q) → ∀ k x y, methods k fs' x y = methods k fs x y := by
      intro fs' h' k x y
      exact (hm k).files _ _ _ _ (fun dd hdd q hq => by rw [hsame fs' h' dd hdd q hq])
    have h0 : ∀ q, q ≠ file → (fun q => if q = file then none else fs q : FS) q = fs q := fun q hq => by simp [hq]
    generalize hfs0 : (fun q => if q = file then none else fs q : FS) = fs0 at h0
    have hnofile : fs0 file = none := by rw [← hfs0]; simp
    have hg0 : Spec.GoodDeps fs0 deps := ⟨hg.1, fun dd hdd q hq => by rw [hsame fs0 h0 dd hdd q hq]; exact hg.2 dd hdd q hq⟩
    have hn0 : ¬ Spec.Newer fs0 n deps := by
      rintro ⟨dd, hdd, q, hq, g, hg', hlt⟩
      exact hn ⟨dd, hdd, q, hq, g, by rw [← hsame fs0 h0 dd hdd q hq]; exact hg', hlt⟩
    have hreach : Spec.SharedReach P order methods file deps calls ⟨fs0, n⟩ := .init _ hnofile hg0
    have ht : tryCache P order fs0 file a p deps = .ok none := by
      unfold tryCache needsUpdate
      rw [hnofile]
      rfl
    have hcalled : (diskProxy P order (methods i) file deps ⟨fs0, n⟩ a p).called = true := by
      unfold diskProxy
      simp only [ht]
      split
      · rfl
      · split <;> rfl
    have hres : (diskProxy P order (methods i) file deps ⟨fs0, n⟩ a p).result = .ok r := by
      rw [h _ hreach i a p hc]
      exact (hfs fs0 h0 i a p).trans hr
    have hcached := (C27_last_result_cached hP order ho (methods i) (methods j) file deps ⟨fs0, n⟩ a p r hfile hcalled hres hg0 hn0 0).1 a' p' hnone h1 h2
    have hreach2 : Spec.SharedReach P order methods file deps calls
        { (diskProxy P order (methods i) file deps ⟨fs0, n⟩ a p).disk with now := n + 0 } := by
      have hd := Spec.SharedReach.call _ i a p hreach hc
      have hnow : (diskProxy P order (methods i) file deps ⟨fs0, n⟩ a p).disk.now = n := by
        unfold diskProxy
        simp only [ht]
        split
        · rfl
        · split <;> rfl
      have heq : ({ (diskProxy P order (methods i) file deps ⟨fs0, n⟩ a p).disk with now := n + 0 } : Disk) =
          (diskProxy P order (methods i) file deps ⟨fs0, n⟩ a p).disk := by
        rw [Nat.add_zero]
        generalize diskProxy P order (methods i) file deps ⟨fs0, n⟩ a p = x at hnow
        obtain ⟨_, ⟨_, _⟩, _⟩ := x
        simp only at hnow
        rw [hnow]
      rw [heq]
      exact hd
    have hup := h _ hreach2 j a' p' hc'
    rw [hcached.1] at hup
    have hother : ∀ q, q ≠ file → (diskProxy P order (methods i) file deps ⟨fs0, n⟩ a p).disk.fs q = fs q := by
      intro q hq
      rw [← h0 q hq]
      unfold diskProxy
      simp only [ht]
      split
      · rfl
      · split <;> simp [FS.write, hq]
    exact ((hfs _ hother j a' p').symm.trans hup.symm)
  · intro h d hd i args params hc
    have hs := shared_ok hP hm hfile hd
    rcases sharedHit hP order ho methods file deps calls hm hfile hpick d hd i args params with h5 | ⟨k, x, y, r, g1, g2, g3, g4, g5, g6⟩
    · exact h5
    · rw [g6, h k i x y args params g1 hc g2 g3 d.fs hs.1 r g4 g5]

/-- Two methods on the data file: its length plus one plus the argument, and twice the argument. -/
def sharedPair : Bool → DiskMethod unary
  | true => countBytes
  | false => fun _ (a : Nat) _ => .ok (a + a : Nat)

theorem sharedPair_determined (i : Bool) : Spec.Determined unary (sharedPair i) [.file u!"data"] := by
  cases i with
  | true => exact countBytes_determined
  | false =>
    refine ⟨fun _ _ _ _ _ => rfl, ?_⟩
    intro fs (a : Nat) p (a' : Nat) p' h1 _
    have h1' : (Except.ok (a == a') : Except PyErr Bool) = .ok true := h1
    have : a = a' := by simpa using h1'
    subst this
    rfl

/-- **C178** fails in general: the file says for which arguments a result is, but not of which method.  After a call of the first method, the second one returns the
first one's result for the same argument. -/
theorem C178_refuted :
    let d := (diskProxy unary id (sharedPair true) u!"cache" [.file u!"data"] freshDisk (5 : Nat) (1 : Nat)).disk
    Spec.SharedReach unary id sharedPair u!"cache" [.file u!"data"] (fun _ _ _ => True) d ∧
    (diskProxy unary id (sharedPair false) u!"cache" [.file u!"data"] d (5 : Nat) (1 : Nat)).result = .ok (6 : Nat) ∧
    sharedPair false d.fs (5 : Nat) (1 : Nat) = .ok (10 : Nat) := by
  refine ⟨.call _ true _ _ (.init _ (by decide) ⟨?_, ?_⟩) trivial, rfl, rfl⟩
  · intro d hd; simp at hd; subst hd; trivial
  · intro d hd p hp; simp at hd; subst hd; cases hp; exact ⟨_, rfl⟩

/-- Non-vacuity of C178: the first method is called with odd arguments only, the second one with even ones. -/
example : let calls : Bool → Nat → Nat → Prop := fun i a _ => (a % 2 = 1 ↔ i = true)
    (∀ i j (a p a' p' : Nat), calls i a p → calls j a' p' → unary.eq a a' = .ok true → unary.eq p p' = .ok true →
      i = j ∨ ∀ fs, sharedPair i fs a p = sharedPair j fs a' p') ∧ calls true 5 1 ∧ calls false 4 1 := by
  intro calls
  refine ⟨?_, by simp [calls], by simp [calls]⟩
  intro i j a p a' p' h1 h2 h3 _
  have h3' : (Except.ok (a == a') : Except PyErr Bool) = .ok true := h3
  have : a = a' := by simpa using h3'
  subst this
  left
  simp only [calls] at h1 h2
  cases i <;> cases j <;> simp_all

end Cjk
