import Verif.Model.CacheObjects
import Verif.Props.SmartCache
import Verif.Props.CacheRace

/-!
# C140, C141: caches and objects that can be changed
-/

namespace Cjk
open Py

variable {P : PickleObjects}

/-! ### C140: methods that change their arguments -/

/-- What a fresh cache file yields. -/
theorem tryCache_fresh {order : List Path → List Path} {fs : FS} {file : Path} {deps : List Dep} {b : List Nat} {now : Nat}
    (hf : fs file = some ⟨b, now⟩) (hn : needsUpdate order fs file deps = .ok false) (a p : P.Obj) :
    tryCache P order fs file a p deps = .ok (loadCached P b a p) := by
  unfold tryCache
  rw [hn]
  simp only [Bind.bind, Except.bind, Bool.false_eq_true, if_false, hf]

/-- What is found in a complete cache file. -/
theorem loadCached_complete (hP : PickleSpec P) {o a0 p0 : P.Obj} {b : List Nat} (hb : storedBytes P o a0 p0 = (b, none)) (a p : P.Obj) :
    (P.isNone o = false ∧ P.eq a0 a = .ok true ∧ P.eq p0 p = .ok true → loadCached P b a p = some o) ∧
    (¬ (P.isNone o = false ∧ P.eq a0 a = .ok true ∧ P.eq p0 p = .ok true) → loadCached P b a p = none) := by
  constructor
  · rintro ⟨hn, h1, h2⟩
    have hdump : ∃ b1 b2 b3, P.dump a0 = (b1, none) ∧ P.dump p0 = (b2, none) ∧ P.dump o = (b3, none) ∧ b = b1 ++ (b2 ++ b3) := by
      unfold storedBytes at hb
      cases h3 : P.dump a0 with
      | mk b1 r1 =>
        rw [h3] at hb
        cases r1 with
        | some e => cases hb
        | none =>
          cases h4 : P.dump p0 with
          | mk b2 r2 =>
            rw [h4] at hb
            cases r2 with
            | some e => cases hb
            | none =>
              cases h5 : P.dump o with
              | mk b3 r3 => rw [h5] at hb; cases hb; exact ⟨b1, b2, b3, rfl, rfl, rfl, by simp⟩
    obtain ⟨b1, b2, b3, h3, h4, h5, rfl⟩ := hdump
    have la := hP.load_dump a0 (b2 ++ b3) (by rw [h3])
    have lp := hP.load_dump p0 b3 (by rw [h4])
    have lr := hP.load_dump o [] (by rw [h5])
    rw [h3] at la; rw [h4] at lp; rw [h5] at lr
    simp only [List.append_nil] at la lp lr
    unfold loadCached
    simp only [Bind.bind, Except.bind, la, lp, h1, h2, if_true, lr, hn]
    rfl
  · intro h
    cases hl : loadCached P b a p with
    | none => rfl
    | some x =>
      obtain ⟨_, h2, h3, h4, _⟩ := loadCached_prefix hP o a0 p0 b (by rw [hb]; exact List.prefix_refl _) a p x hl
      exact absurd ⟨h2, h3, h4⟩ h

/-- C140: around a method that leaves its arguments alone, the proxy is the one of C24 and C27. -/
theorem C140_unchanged (order : List Path → List Path) (method : ArgMethod P) (hm : ∀ a p, (method a p).2 = (a, p)) (file : Path) (deps : List Dep) (d : Disk)
    (a p : P.Obj) :
    diskProxyArgs P order method file deps d a p =
      (⟨(diskProxy P order (fun _ a p => (method a p).1) file deps d a p).result, a, p⟩, (diskProxy P order (fun _ a p => (method a p).1) file deps d a p).disk) := by
  unfold diskProxyArgs diskProxy
  cases tryCache P order d.fs file a p deps with
  | error e => rfl
  | ok x =>
    cases x with
    | some o => rfl
    | none =>
      have h := hm a p
      cases hr : method a p with
      | mk r ap =>
        rw [hr] at h
        simp only at h
        subst h
        cases r with
        | error e => simp only [hr]
        | ok o =>
          simp only [hr]
          cases storedBytes P o a p with
          | mk b s => cases s <;> rfl

/-- The cache file can be used as soon as it has been written, and nothing else touches the disk. -/
def Spec.StaysFresh (order : List Path → List Path) (d : Disk) (file : Path) (deps : List Dep) : Prop :=
  d.fs file = none ∧ ∀ b, needsUpdate order (d.fs.write file b d.now) file deps = .ok false

/-- All results and arguments can be pickled. -/
def Spec.Storable (P : PickleObjects) (method : ArgMethod P) : Prop :=
  ∀ a p o a1 p1, method a p = (.ok o, a1, p1) → (storedBytes P o a1 p1).2 = none

/-- What the file holds: nothing, or the outcome of some call with the arguments as the method left them. -/
def ArgCacheOk (P : PickleObjects) (order : List Path → List Path) (method : ArgMethod P) (file : Path) (deps : List Dep) (fs : FS) : Prop :=
  fs file = none ∨ ∃ a0 p0 o a1 p1 b now, method a0 p0 = (.ok o, a1, p1) ∧ storedBytes P o a1 p1 = (b, none) ∧ fs file = some ⟨b, now⟩ ∧
    needsUpdate order fs file deps = .ok false

theorem needsUpdate_missing {order : List Path → List Path} {fs : FS} {file : Path} {deps : List Dep} (h : fs file = none) :
    needsUpdate order fs file deps = .ok true := by
  unfold needsUpdate; rw [h]

theorem tryCache_missing {order : List Path → List Path} {fs : FS} {file : Path} {deps : List Dep} (h : fs file = none) (a p : P.Obj) :
    tryCache P order fs file a p deps = .ok none := by
  unfold tryCache
  rw [needsUpdate_missing h]
  rfl

theorem write_write (fs : FS) (file : Path) (b b' : List Nat) (now : Nat) : (fs.write file b now).write file b' now = fs.write file b' now := by
  funext q
  unfold FS.write
  by_cases h : q = file <;> simp [h]

/-- What a call can do if the file is in order. -/
theorem diskProxyArgs_cases (hP : PickleSpec P) {order : List Path → List Path} {method : ArgMethod P} {file : Path} {deps : List Dep} {d : Disk}
    (hs : Spec.Storable P method) (hc : ArgCacheOk P order method file deps d.fs) (a p : P.Obj) :
    (∃ a0 p0 o a1 p1, method a0 p0 = (.ok o, a1, p1) ∧ P.isNone o = false ∧ P.eq a1 a = .ok true ∧ P.eq p1 p = .ok true ∧
      diskProxyArgs P order method file deps d a p = (⟨.ok o, a, p⟩, d)) ∨
    ((diskProxyArgs P order method file deps d a p).1 = method.direct a p ∧
      ((diskProxyArgs P order method file deps d a p).2 = d ∨
        ∃ o a1 p1 b, method a p = (.ok o, a1, p1) ∧ storedBytes P o a1 p1 = (b, none) ∧
          (diskProxyArgs P order method file deps d a p).2 = { d with fs := d.fs.write file b d.now })) := by
  have miss : tryCache P order d.fs file a p deps = .ok none →
      ((diskProxyArgs P order method file deps d a p).1 = method.direct a p ∧
      ((diskProxyArgs P order method file deps d a p).2 = d ∨
        ∃ o a1 p1 b, method a p = (.ok o, a1, p1) ∧ storedBytes P o a1 p1 = (b, none) ∧
          (diskProxyArgs P order method file deps d a p).2 = { d with fs := d.fs.write file b d.now })) := by
    intro ht
    unfold diskProxyArgs ArgMethod.direct
    rw [ht]
    simp only
    rcases hm : method a p with ⟨r, a1, p1⟩
    cases r with
    | error e => exact ⟨rfl, .inl rfl⟩
    | ok o =>
      have hst := hs a p o a1 p1 hm
      cases hb : storedBytes P o a1 p1 with
      | mk b s =>
        rw [hb] at hst
        simp only at hst
        subst hst
        exact ⟨by simp only [hb], .inr ⟨o, a1, p1, b, rfl, hb, by simp only [hb]⟩⟩
  rcases hc with hc | ⟨a0, p0, o, a1, p1, b, now, h1, h2, h3, h4⟩
  · exact .inr (miss (tryCache_missing hc a p))
  · have ht := tryCache_fresh (P := P) h3 h4 a p
    by_cases hh : P.isNone o = false ∧ P.eq a1 a = .ok true ∧ P.eq p1 p = .ok true
    · rw [(loadCached_complete hP h2 a p).1 hh] at ht
      refine .inl ⟨a0, p0, o, a1, p1, h1, hh.1, hh.2.1, hh.2.2, ?_⟩
      unfold diskProxyArgs
      rw [ht]
    · rw [(loadCached_complete hP h2 a p).2 hh] at ht
      exact .inr (miss ht)

theorem argCacheOk_call (hP : PickleSpec P) {order : List Path → List Path} {method : ArgMethod P} {file : Path} {deps : List Dep} {d : Disk}
    (hs : Spec.Storable P method) (hn : ∀ b, needsUpdate order (d.fs.write file b d.now) file deps = .ok false)
    (hc : ArgCacheOk P order method file deps d.fs) (a p : P.Obj) :
    ArgCacheOk P order method file deps (diskProxyArgs P order method file deps d a p).2.fs ∧
    (∀ b, needsUpdate order ((diskProxyArgs P order method file deps d a p).2.fs.write file b (diskProxyArgs P order method file deps d a p).2.now) file deps = .ok false) := by
  rcases diskProxyArgs_cases hP hs hc a p with ⟨_, _, o, _, _, _, _, _, _, h⟩ | ⟨_, h | ⟨o, a1, p1, b, h1, h2, h⟩⟩
  · rw [h]; exact ⟨hc, hn⟩
  · rw [h]; exact ⟨hc, hn⟩
  · rw [h]
    simp only [write_write]
    exact ⟨.inr ⟨a, p, o, a1, p1, b, d.now, h1, h2, by simp [FS.write], hn b⟩, hn⟩

/-- A run whose calls are all right. -/
theorem diskRunArgs_all (hP : PickleSpec P) {order : List Path → List Path} {method : ArgMethod P} {file : Path} {deps : List Dep}
    (hs : Spec.Storable P method) (good : P.Obj × P.Obj → ArgResult P → Prop) (hd : ∀ k, good k (method.direct k.1 k.2))
    (hh : ∀ a0 p0 o a1 p1, method a0 p0 = (.ok o, a1, p1) → P.isNone o = false → ∀ a p, P.eq a1 a = .ok true → P.eq p1 p = .ok true → good (a, p) ⟨.ok o, a, p⟩) :
    ∀ (calls : List (P.Obj × P.Obj)) (d : Disk), ArgCacheOk P order method file deps d.fs →
      (∀ b, needsUpdate order (d.fs.write file b d.now) file deps = .ok false) →
      ∀ x ∈ calls.zip (diskRunArgs P order method file deps d calls), good x.1 x.2 := by
  intro calls
  induction calls with
  | nil => intro d _ _ x hx; cases hx
  | cons k rest ih =>
    intro d hc hn x hx
    obtain ⟨a, p⟩ := k
    rw [diskRunArgs, List.zip_cons_cons] at hx
    rcases List.mem_cons.1 hx with rfl | hx
    · simp only
      rcases diskProxyArgs_cases hP hs hc a p with ⟨a0, p0, o, a1, p1, h1, h2, h3, h4, h⟩ | ⟨h, _⟩
      · rw [h]; exact hh a0 p0 o a1 p1 h1 h2 a p h3 h4
      · rw [h]; exact hd (a, p)
    · obtain ⟨h1, h2⟩ := argCacheOk_call hP hs hn hc a p
      exact ih _ h1 h2 x hx

/-- Two calls, where the arguments of the second are those that the first left behind. -/
theorem diskRunArgs_two (hP : PickleSpec P) {order : List Path → List Path} {method : ArgMethod P} {file : Path} {deps : List Dep} {d : Disk}
    (hs : Spec.Storable P method) (hf : Spec.StaysFresh order d file deps) {a0 p0 o a1 p1 : P.Obj} (h1 : method a0 p0 = (.ok o, a1, p1))
    (hn : P.isNone o = false) {a p : P.Obj} (h2 : P.eq a1 a = .ok true) (h3 : P.eq p1 p = .ok true) :
    diskRunArgs P order method file deps d [(a0, p0), (a, p)] = [method.direct a0 p0, ⟨.ok o, a, p⟩] := by
  have hst := hs a0 p0 o a1 p1 h1
  cases hb : storedBytes P o a1 p1 with
  | mk b s =>
    rw [hb] at hst
    simp only at hst
    subst hst
    have e1 : diskProxyArgs P order method file deps d a0 p0 = (method.direct a0 p0, { d with fs := d.fs.write file b d.now }) := by
      unfold diskProxyArgs ArgMethod.direct
      rw [tryCache_missing hf.1 a0 p0]
      simp only [h1, hb]
    have e2 : tryCache P order (d.fs.write file b d.now) file a p deps = .ok (some o) := by
      rw [tryCache_fresh (now := d.now) (b := b) (by simp [FS.write]) (hf.2 b), (loadCached_complete hP hb a p).1 ⟨hn, h2, h3⟩]
    simp only [diskRunArgs, e1]
    unfold diskProxyArgs
    rw [e2]

/-- C140: all calls in all programs return what the method itself would return, if and only if the method treats the arguments that it leaves behind (and all equal ones) as the arguments it
was given. -/
theorem C140_results_iff (hP : PickleSpec P) (order : List Path → List Path) (method : ArgMethod P) (file : Path) (deps : List Dep) (d : Disk)
    (hs : Spec.Storable P method) (hf : Spec.StaysFresh order d file deps) :
    (∀ (calls : List (P.Obj × P.Obj)), ∀ x ∈ calls.zip (diskRunArgs P order method file deps d calls), x.2.result = (method.direct x.1.1 x.1.2).result) ↔
    (∀ a0 p0 o a1 p1, method a0 p0 = (.ok o, a1, p1) → P.isNone o = false → ∀ a p, P.eq a1 a = .ok true → P.eq p1 p = .ok true →
      (method a p).1 = .ok o) := by
  constructor
  · intro h a0 p0 o a1 p1 h1 hn a p h2 h3
    have := h [(a0, p0), (a, p)]
    rw [diskRunArgs_two hP hs hf h1 hn h2 h3] at this
    exact (this ((a, p), ⟨.ok o, a, p⟩) (by simp)).symm
  · intro h calls
    refine diskRunArgs_all hP hs (fun k r => r.result = (method.direct k.1 k.2).result) (fun _ => rfl) ?_ calls d (.inl hf.1) hf.2
    intro a0 p0 o a1 p1 h1 hn a p h2 h3
    exact (h a0 p0 o a1 p1 h1 hn a p h2 h3).symm

/-- C140: no program can tell the proxy from the method by results and arguments, if and only if the method, called with the arguments that it leaves behind (or equal ones), gives the same
result and changes nothing. -/
theorem C140_effects_iff (hP : PickleSpec P) (order : List Path → List Path) (method : ArgMethod P) (file : Path) (deps : List Dep) (d : Disk)
    (hs : Spec.Storable P method) (hf : Spec.StaysFresh order d file deps) :
    (∀ calls, diskRunArgs P order method file deps d calls = calls.map (fun k => method.direct k.1 k.2)) ↔
    (∀ a0 p0 o a1 p1, method a0 p0 = (.ok o, a1, p1) → P.isNone o = false → ∀ a p, P.eq a1 a = .ok true → P.eq p1 p = .ok true →
      method a p = (.ok o, a, p)) := by
  constructor
  · intro h a0 p0 o a1 p1 h1 hn a p h2 h3
    have := h [(a0, p0), (a, p)]
    rw [diskRunArgs_two hP hs hf h1 hn h2 h3] at this
    simp only [List.map_cons, List.map_nil, List.cons.injEq, and_true, true_and] at this
    unfold ArgMethod.direct at this
    simp only [ArgResult.mk.injEq] at this
    obtain ⟨e1, e2, e3⟩ := this
    rcases hm : method a p with ⟨r, x, y⟩
    rw [hm] at e1 e2 e3
    simp only at e1 e2 e3
    rw [e1, e2, e3]
  · intro h calls
    have hlen : ∀ (calls : List (P.Obj × P.Obj)) (d : Disk), (diskRunArgs P order method file deps d calls).length = calls.length := by
      intro calls
      induction calls with
      | nil => intro d; rfl
      | cons k rest ih => intro d; obtain ⟨a, p⟩ := k; simp [diskRunArgs, ih]
    have key := diskRunArgs_all hP hs (fun k r => r = method.direct k.1 k.2) (fun _ => rfl) (by
      intro a0 p0 o a1 p1 h1 hn a p h2 h3
      have := h a0 p0 o a1 p1 h1 hn a p h2 h3
      unfold ArgMethod.direct
      simp only [this]) calls d (.inl hf.1) hf.2
    apply List.ext_getElem?
    intro i
    rw [List.getElem?_map]
    cases hi : calls[i]? with
    | none =>
      rw [Option.map_none, List.getElem?_eq_none_iff, hlen]
      exact List.getElem?_eq_none_iff.1 hi
    | some k =>
      have hlt : i < calls.length := (List.getElem?_eq_some_iff.1 hi).1
      obtain ⟨r, hr⟩ : ∃ r, (diskRunArgs P order method file deps d calls)[i]? = some r := ⟨_, List.getElem?_eq_getElem (by rw [hlen]; exact hlt)⟩
      rw [hr, Option.map_some]
      have := key (k, r) (List.mem_iff_getElem?.2 ⟨i, by rw [List.getElem?_zip_eq_some]; exact ⟨hi, hr⟩⟩)
      simp only at this
      rw [this]

/-- A method that empties the list it is given and returns what was in it. -/
def drainMethod : ArgMethod listPickles := fun a p => (.ok a, ([] : List Nat), p)

/-- C140 is refuted: after a call with `[3]`, a call with `[]` returns `[3]`. -/
theorem C140_drain_refuted : diskRunArgs listPickles id drainMethod u!"cache" [] freshDisk [(([3] : List Nat), ([] : List Nat)), (([] : List Nat), ([] : List Nat))] =
      [⟨.ok ([3] : List Nat), ([] : List Nat), ([] : List Nat)⟩, ⟨.ok ([3] : List Nat), ([] : List Nat), ([] : List Nat)⟩] ∧
    (drainMethod ([] : List Nat) ([] : List Nat)).1 = .ok ([] : List Nat) := ⟨rfl, rfl⟩

/-- C140: a method that changes its arguments into unequal ones is called again for the same arguments: the cache is of no use. -/
theorem C140_never_hits (hP : PickleSpec P) (order : List Path → List Path) (method : ArgMethod P) (file : Path) (deps : List Dep) (d : Disk)
    (hs : Spec.Storable P method) (hf : Spec.StaysFresh order d file deps) (a p o a1 p1 : P.Obj) (h1 : method a p = (.ok o, a1, p1))
    (hne : P.eq a1 a = .ok false) (n : Nat) :
    diskRunArgs P order method file deps d (List.replicate n (a, p)) = List.replicate n (method.direct a p) := by
  have hst := hs a p o a1 p1 h1
  cases hb : storedBytes P o a1 p1 with
  | mk b s =>
    rw [hb] at hst
    simp only at hst
    subst hst
    have hmiss : loadCached P b a p = none := (loadCached_complete hP hb a p).2 (by rintro ⟨_, h, _⟩; rw [hne] at h; cases h)
    have step : ∀ d : Disk, tryCache P order d.fs file a p deps = .ok none →
        diskProxyArgs P order method file deps d a p = (method.direct a p, { d with fs := d.fs.write file b d.now }) := by
      intro d ht
      unfold diskProxyArgs ArgMethod.direct
      rw [ht]
      simp only [h1, hb]
    have hagain : tryCache P order (d.fs.write file b d.now) file a p deps = .ok none := by
      rw [tryCache_fresh (now := d.now) (b := b) (by simp [FS.write]) (hf.2 b), hmiss]
    have rest : ∀ n, diskRunArgs P order method file deps { d with fs := d.fs.write file b d.now } (List.replicate n (a, p)) = List.replicate n (method.direct a p) := by
      intro n
      induction n with
      | zero => rfl
      | succ n ih =>
        rw [List.replicate_succ, List.replicate_succ, diskRunArgs, step _ hagain]
        simp only [write_write]
        rw [ih]
    cases n with
    | zero => rfl
    | succ n =>
      rw [List.replicate_succ, List.replicate_succ, diskRunArgs, step _ (tryCache_missing hf.1 a p)]
      simp only
      rw [rest]

/-! ### Cases that meet the hypotheses of C140 -/

example : Spec.StaysFresh id freshDisk u!"cache" [.file u!"data"] := by
  refine ⟨by decide, fun b => ?_⟩
  rfl

example : Spec.StaysFresh id freshDisk u!"cache" [] := ⟨by decide, fun _ => rfl⟩

example : Spec.Storable listPickles drainMethod := fun _ _ _ _ _ _ => rfl

/-- A method that sorts its list (here: two numbers) and returns the smaller number; it treats the sorted list as the list. -/
def sortTwo : ArgMethod listPickles := fun (a : List Nat) p =>
  match a with
  | [x, y] => (.ok [min x y], [min x y, max x y], p)
  | l => (.ok l, l, p)

example : ∀ a0 p0 o a1 p1, sortTwo a0 p0 = (.ok o, a1, p1) → listPickles.isNone o = false → ∀ a p, listPickles.eq a1 a = .ok true → listPickles.eq p1 p = .ok true →
    sortTwo a p = (.ok o, a, p) := by
  intro (a0 : List Nat) p0 (o : List Nat) (a1 : List Nat) (p1 : List Nat) h1 _ (a : List Nat) (p : List Nat) h2 h3
  have e2 : a1 = a := by
    have h : (Except.ok (a1 == a) : Except PyErr Bool) = .ok true := h2
    simpa using h
  subst e2
  unfold sortTwo at h1
  split at h1
  · rename_i x y
    cases h1
    show (Except.ok [min (min x y) (max x y)], [min (min x y) (max x y), max (min x y) (max x y)], p) = ((Except.ok [min x y] : Except PyErr (List Nat)), [min x y, max x y], p)
    have h4 : min (min x y) (max x y) = min x y := by omega
    have h5 : max (min x y) (max x y) = max x y := by omega
    rw [h4, h5]
  · rename_i hne
    cases h1
    unfold sortTwo
    split
    · exact absurd rfl (hne _ _)
    · rfl

example : listPickles.eq ([] : List Nat) ([3] : List Nat) = .ok false := rfl

/-! ### C141: callers that change their results -/

section
variable {O : PyObjects} {V : Type}

/-- What holds in all programs with a `memory_proxy`: references are to objects; the entries of the dictionary have different keys and different objects; every result
is the object of the entry for its call. -/
structure MemOk (st : MemObjects O V) : Prop where
  bound : ∀ e ∈ st.memo, e.2 < st.heap.length
  distinct : st.memo.Pairwise (fun e f => e.2 ≠ f.2)
  got : ∀ g ∈ st.got, ∃ e, st.memo.find? (fun e => e.1.keyEq g.1) = some e ∧ e.2 = g.2

theorem memOk_change {st : MemObjects O V} (h : MemOk st) (j : Nat) (v : V) : MemOk (st.change j v) := by
  unfold MemObjects.change
  split
  · exact ⟨by simpa using h.bound, h.distinct, h.got⟩
  · exact h

theorem memOk_call (hO : Spec.EqLaws O) {method : CallArgs O → Except PyErr V} {st : MemObjects O V} (h : MemOk st) (k : CallArgs O) :
    MemOk (st.call method k).2 := by
  unfold MemObjects.call
  split
  · split
    · rename_i e he
      split
      · refine ⟨h.bound, h.distinct, fun g hg => ?_⟩
        rcases List.mem_append.1 hg with hg | hg
        · exact h.got g hg
        · rw [List.mem_singleton] at hg
          subst hg
          exact ⟨e, he, rfl⟩
      · exact h
    · rename_i hn
      split
      · exact h
      · rename_i v hv
        refine ⟨fun e he => ?_, ?_, fun g hg => ?_⟩
        · simp only [List.length_append, List.length_singleton]
          rcases List.mem_append.1 he with he | he
          · have := h.bound e he; omega
          · rw [List.mem_singleton] at he; subst he; simp
        · rw [List.pairwise_append]
          refine ⟨h.distinct, List.pairwise_singleton _ _, fun e he f hf => ?_⟩
          rw [List.mem_singleton] at hf
          subst hf
          have := h.bound e he
          simp only
          omega
        · simp only [List.find?_append]
          rcases List.mem_append.1 hg with hg | hg
          · obtain ⟨e, h1, h2⟩ := h.got g hg
            exact ⟨e, by rw [h1]; rfl, h2⟩
          · rw [List.mem_singleton] at hg
            subst hg
            refine ⟨(k, st.heap.length), ?_, rfl⟩
            rw [hn]
            simp [keyEq_refl hO k]
  · exact h

theorem memOk_run (hO : Spec.EqLaws O) (method : CallArgs O → Except PyErr V) (ops : List (ResOp (CallArgs O) V)) : MemOk (MemObjects.run method ops) := by
  unfold MemObjects.run
  suffices ∀ st : MemObjects O V, MemOk st → MemOk (ops.foldl (MemObjects.step method) st) from
    this _ ⟨fun e he => (by cases he), List.Pairwise.nil, fun g hg => (by cases hg)⟩
  induction ops with
  | nil => intro st h; exact h
  | cons op ops ih =>
    intro st h
    refine ih _ ?_
    cases op with
    | call k => exact memOk_call hO h k
    | change j v => exact memOk_change h j v
    | look j => exact h

theorem find_keyEq_congr (hO : Spec.EqLaws O) (memo : List (CallArgs O × Nat)) {k k' : CallArgs O} (h : k.keyEq k' = true) :
    memo.find? (fun e => e.1.keyEq k) = memo.find? (fun e => e.1.keyEq k') := by
  congr 1
  funext e
  rw [Bool.eq_iff_iff]
  exact ⟨fun h1 => keyEq_trans hO h1 h, fun h1 => keyEq_trans hO h1 (keyEq_symm hO h)⟩

/-- Two entries that are found under different references. -/
theorem find_distinct {memo : List (CallArgs O × Nat)} (hd : memo.Pairwise (fun e f => e.2 ≠ f.2)) {p q : CallArgs O × Nat → Bool} {e f : CallArgs O × Nat}
    (he : memo.find? p = some e) (hf : memo.find? q = some f) (hr : e.2 = f.2) : e = f := by
  have h1 := List.mem_of_find?_eq_some he
  have h2 := List.mem_of_find?_eq_some hf
  exact Classical.byContradiction (fun hne => by
    obtain ⟨i, hi⟩ := List.mem_iff_getElem?.1 h1
    obtain ⟨j, hj⟩ := List.mem_iff_getElem?.1 h2
    have hij : i ≠ j := by rintro rfl; rw [hi] at hj; cases hj; exact hne rfl
    obtain ⟨li, gi⟩ := List.getElem?_eq_some_iff.1 hi
    obtain ⟨lj, gj⟩ := List.getElem?_eq_some_iff.1 hj
    rcases Nat.lt_or_gt_of_ne hij with h | h
    · exact (List.pairwise_iff_getElem.1 hd i j li lj h) (by rw [gi, gj]; exact hr)
    · exact (List.pairwise_iff_getElem.1 hd j i lj li h) (by rw [gi, gj]; exact hr.symm))

/-- What the program sees in the object of one entry. -/
theorem look_entry {st : MemObjects O V} {j : Nat} {g : CallArgs O × Nat} (hj : st.got[j]? = some g) : st.look j = st.heap[g.2]? := by
  unfold MemObjects.look
  rw [hj]
  rfl

/-- C141 for `memory_proxy`: what the program stores in the result of one call is what every later call with the same arguments returns, without calling the method. -/
theorem C141_memory_shared (hO : Spec.EqLaws O) (method method' : CallArgs O → Except PyErr V) (ops : List (ResOp (CallArgs O) V)) (j : Nat) (k0 k : CallArgs O) (r : Nat)
    (hj : (MemObjects.run method ops).got[j]? = some (k0, r)) (hk : Spec.SameCall k0 k) (hh : Spec.Hashable k) (v : V) :
    (((MemObjects.run method ops).change j v).call method' k).1 = .ok v ∧ (MemObjects.run method ops).look j = ((MemObjects.run method ops).call method' k).1.toOption := by
  have h := memOk_run hO method ops
  generalize MemObjects.run method ops = st at hj h
  obtain ⟨e, he, hr⟩ := h.got (k0, r) (List.mem_iff_getElem?.2 ⟨j, hj⟩)
  simp only at he hr
  subst hr
  rw [find_keyEq_congr hO st.memo ((keyEq_iff k0 k).2 hk)] at he
  have hb := h.bound e (List.mem_of_find?_eq_some he)
  have hkh := (keyHashable_iff k).2 hh
  constructor
  · unfold MemObjects.change MemObjects.call
    simp only [hj, hkh, if_true, he]
    rw [List.getElem?_set_self hb]
  · unfold MemObjects.look MemObjects.call
    simp only [hj, hkh, if_true, he, Option.bind_some]
    rw [List.getElem?_eq_getElem hb]
    rfl

/-- C141 for `memory_proxy`: a call with other arguments is not affected. -/
theorem C141_memory_others (hO : Spec.EqLaws O) (method method' : CallArgs O → Except PyErr V) (ops : List (ResOp (CallArgs O) V)) (j : Nat) (k0 k : CallArgs O) (r : Nat)
    (hj : (MemObjects.run method ops).got[j]? = some (k0, r)) (hk : ¬ Spec.SameCall k0 k) (v : V) :
    (((MemObjects.run method ops).change j v).call method' k).1 = ((MemObjects.run method ops).call method' k).1 := by
  have h := memOk_run hO method ops
  generalize MemObjects.run method ops = st at hj h
  obtain ⟨e, he, hr⟩ := h.got (k0, r) (List.mem_iff_getElem?.2 ⟨j, hj⟩)
  simp only at he hr
  subst hr
  unfold MemObjects.change MemObjects.call
  simp only [hj]
  split
  · cases hf : st.memo.find? (fun e => e.1.keyEq k) with
    | none => cases method' k <;> rfl
    | some f =>
      simp only
      have hne : e.2 ≠ f.2 := by
        intro hr
        have := find_distinct h.distinct he hf hr
        subst this
        have h1 : e.1.keyEq k0 = true := by simpa using List.find?_some he
        have h2 : e.1.keyEq k = true := by simpa using List.find?_some hf
        exact hk ((keyEq_iff k0 k).1 (keyEq_trans hO (keyEq_symm hO h1) h2))
      rw [List.getElem?_set_ne hne]
      cases st.heap[f.2]? <;> rfl
  · rfl

/-- C141 for `memory_proxy`, exactly: changing the result of one call changes what another call returns if and only if the calls are the same (and the change is one). -/
theorem C141_memory_iff (hO : Spec.EqLaws O) (method method' : CallArgs O → Except PyErr V) (ops : List (ResOp (CallArgs O) V)) (j : Nat) (k0 k : CallArgs O) (r : Nat)
    (hj : (MemObjects.run method ops).got[j]? = some (k0, r)) (hh : Spec.Hashable k) (v : V) :
    (((MemObjects.run method ops).change j v).call method' k).1 ≠ ((MemObjects.run method ops).call method' k).1 ↔
      Spec.SameCall k0 k ∧ (MemObjects.run method ops).look j ≠ some v := by
  constructor
  · intro hne
    have hk : Spec.SameCall k0 k := Classical.byContradiction (fun hk => hne (C141_memory_others hO method method' ops j k0 k r hj hk v))
    refine ⟨hk, fun hl => hne ?_⟩
    obtain ⟨h1, h2⟩ := C141_memory_shared hO method method' ops j k0 k r hj hk hh v
    rw [h1]
    rw [hl] at h2
    cases hc : ((MemObjects.run method ops).call method' k).1 with
    | error e => rw [hc] at h2; cases h2
    | ok x => rw [hc] at h2; cases h2; rfl
  · rintro ⟨hk, hl⟩ he
    obtain ⟨h1, h2⟩ := C141_memory_shared hO method method' ops j k0 k r hj hk hh v
    rw [h1] at he
    rw [← he] at h2
    exact hl h2

/-- C141 for `memory_proxy`: two results show the same object if and only if their calls are the same: a change of one shows in the other. -/
theorem C141_memory_look (hO : Spec.EqLaws O) (method : CallArgs O → Except PyErr V) (ops : List (ResOp (CallArgs O) V)) (i j : Nat) (ki kj : CallArgs O) (ri rj : Nat)
    (hi : (MemObjects.run method ops).got[i]? = some (ki, ri)) (hj : (MemObjects.run method ops).got[j]? = some (kj, rj)) (v : V) :
    (Spec.SameCall ki kj → ((MemObjects.run method ops).change j v).look i = some v) ∧
    (¬ Spec.SameCall ki kj → ((MemObjects.run method ops).change j v).look i = (MemObjects.run method ops).look i) := by
  have h := memOk_run hO method ops
  generalize MemObjects.run method ops = st at hi hj h
  obtain ⟨e, he, hre⟩ := h.got (ki, ri) (List.mem_iff_getElem?.2 ⟨i, hi⟩)
  obtain ⟨f, hf, hrf⟩ := h.got (kj, rj) (List.mem_iff_getElem?.2 ⟨j, hj⟩)
  simp only at he hre hf hrf
  subst hre hrf
  constructor
  · intro hk
    rw [find_keyEq_congr hO st.memo ((keyEq_iff ki kj).2 hk), hf] at he
    cases he
    unfold MemObjects.change MemObjects.look
    simp only [hj, hi, Option.bind_some]
    rw [List.getElem?_set_self (h.bound _ (List.mem_of_find?_eq_some hf))]
  · intro hk
    have hne : f.2 ≠ e.2 := by
      intro hr
      have := find_distinct h.distinct hf he hr
      subst this
      have h1 : f.1.keyEq ki = true := by simpa using List.find?_some he
      have h2 : f.1.keyEq kj = true := by simpa using List.find?_some hf
      exact hk ((keyEq_iff ki kj).1 (keyEq_trans hO (keyEq_symm hO h1) h2))
    unfold MemObjects.change MemObjects.look
    simp only [hj, hi, Option.bind_some]
    rw [List.getElem?_set_ne hne]

end

/-- What holds in all programs with a `disk_proxy`: every successful call has its own object. -/
def DiskOk (st : DiskObjects P) : Prop := st.got.Pairwise (· ≠ ·) ∧ ∀ r ∈ st.got, r < st.heap.length

theorem diskOk_run (order : List Path → List Path) (method : DiskMethod P) (file : Path) (deps : List Dep) (d : Disk) (ops : List (ResOp (P.Obj × P.Obj) P.Obj)) :
    DiskOk (DiskObjects.run order method file deps d ops) := by
  unfold DiskObjects.run
  suffices ∀ st : DiskObjects P, DiskOk st → DiskOk (ops.foldl (DiskObjects.step order method file deps) st) from
    this _ ⟨List.Pairwise.nil, fun r hr => (by cases hr)⟩
  induction ops with
  | nil => intro st h; exact h
  | cons op ops ih =>
    intro st h
    refine ih _ ?_
    cases op with
    | call k =>
      show DiskOk (st.call order method file deps k.1 k.2).2
      unfold DiskObjects.call
      simp only
      split
      · refine ⟨?_, fun r hr => ?_⟩
        · rw [List.pairwise_append]
          refine ⟨h.1, List.pairwise_singleton _ _, fun a ha b hb => ?_⟩
          rw [List.mem_singleton] at hb
          have := h.2 a ha
          omega
        · simp only [List.length_append, List.length_singleton]
          rcases List.mem_append.1 hr with hr | hr
          · have := h.2 r hr; omega
          · rw [List.mem_singleton] at hr; omega
      · exact h
    | change j v =>
      show DiskOk (st.change j v)
      unfold DiskObjects.change
      split
      · exact ⟨h.1, by simpa using h.2⟩
      · exact h
    | look j => exact h

/-- C141 for `disk_proxy`: results are private.  Changing the result of one call changes neither what any later call returns nor what any other result shows. -/
theorem C141_disk_private (order : List Path → List Path) (method : DiskMethod P) (file : Path) (deps : List Dep) (d : Disk)
    (ops : List (ResOp (P.Obj × P.Obj) P.Obj)) (j : Nat) (v : P.Obj) :
    (∀ a p, (((DiskObjects.run order method file deps d ops).change j v).call order method file deps a p).1 =
      ((DiskObjects.run order method file deps d ops).call order method file deps a p).1) ∧
    (∀ i, i ≠ j → ((DiskObjects.run order method file deps d ops).change j v).look i = (DiskObjects.run order method file deps d ops).look i) ∧
    (j < (DiskObjects.run order method file deps d ops).got.length → ((DiskObjects.run order method file deps d ops).change j v).look j = some v) := by
  have h := diskOk_run order method file deps d ops
  generalize DiskObjects.run order method file deps d ops = st at h
  refine ⟨fun a p => ?_, fun i hij => ?_, fun hj => ?_⟩
  · unfold DiskObjects.change DiskObjects.call
    cases st.got[j]? with
    | none => rfl
    | some r =>
      simp only
      cases (diskProxy P order method file deps st.disk a p).result <;> rfl
  · unfold DiskObjects.change DiskObjects.look
    cases hj : st.got[j]? with
    | none => rfl
    | some r =>
      simp only
      cases hi : st.got[i]? with
      | none => rfl
      | some q =>
        simp only [Option.bind_some]
        obtain ⟨li, gi⟩ := List.getElem?_eq_some_iff.1 hi
        obtain ⟨lj, gj⟩ := List.getElem?_eq_some_iff.1 hj
        have hne : r ≠ q := by
          rw [← gi, ← gj]
          rcases Nat.lt_or_gt_of_ne hij with hlt | hlt
          · exact (List.pairwise_iff_getElem.1 h.1 i j li lj hlt).symm
          · exact List.pairwise_iff_getElem.1 h.1 j i lj li hlt
        rw [List.getElem?_set_ne hne]
  · unfold DiskObjects.change DiskObjects.look
    have hj' := List.getElem?_eq_getElem hj
    simp only [hj', Option.bind_some]
    rw [List.getElem?_set_self (h.2 _ (List.getElem_mem hj))]

/-- C141 for `disk_proxy`, whole programs: what the calls return does not depend on what the program does with the results. -/
theorem C141_disk_calls (order : List Path → List Path) (method : DiskMethod P) (file : Path) (deps : List Dep) (d : Disk)
    (ops : List (ResOp (P.Obj × P.Obj) P.Obj)) (a p : P.Obj) :
    ((DiskObjects.run order method file deps d ops).call order method file deps a p).1 =
      ((DiskObjects.run order method file deps d (ops.filter (fun op => match op with | .call _ => true | _ => false))).call order method file deps a p).1 := by
  have key : ∀ (ops : List (ResOp (P.Obj × P.Obj) P.Obj)) (st st' : DiskObjects P), st.disk = st'.disk →
      (ops.foldl (DiskObjects.step order method file deps) st).disk =
        ((ops.filter (fun op => match op with | .call _ => true | _ => false)).foldl (DiskObjects.step order method file deps) st').disk := by
    intro ops
    induction ops with
    | nil => intro st st' h; exact h
    | cons op ops ih =>
      intro st st' h
      cases op with
      | call k =>
        simp only [List.filter_cons, if_true, List.foldl_cons]
        apply ih
        show (st.call order method file deps k.1 k.2).2.disk = (st'.call order method file deps k.1 k.2).2.disk
        unfold DiskObjects.call
        simp only [h]
        cases (diskProxy P order method file deps st'.disk k.1 k.2).result <;> rfl
      | change j v =>
        simp only [List.filter_cons, Bool.false_eq_true, if_false, List.foldl_cons]
        apply ih
        show (st.change j v).disk = _
        unfold DiskObjects.change
        cases st.got[j]? <;> exact h
      | look j =>
        simp only [List.filter_cons, Bool.false_eq_true, if_false, List.foldl_cons]
        exact ih _ _ h
  have := key ops ⟨[], d, []⟩ ⟨[], d, []⟩ rfl
  unfold DiskObjects.run DiskObjects.call
  simp only [this]
  cases (diskProxy P order method file deps ((ops.filter (fun op => match op with | .call _ => true | _ => false)).foldl
    (DiskObjects.step order method file deps) ⟨[], d, []⟩).disk a p).result <;> rfl

/-- The disk after the calls of a program, each of them a call of `disk_proxy` on the disk that the one before left. -/
def Spec.diskAfter (order : List Path → List Path) (method : DiskMethod P) (file : Path) (deps : List Dep) : Disk → List (ResOp (P.Obj × P.Obj) P.Obj) → Disk
  | d, [] => d
  | d, .call k :: ops => Spec.diskAfter order method file deps (diskProxy P order method file deps d k.1 k.2).disk ops
  | d, _ :: ops => Spec.diskAfter order method file deps d ops

/-- C141 for `disk_proxy`, whole programs: the calls leave on the disk what the calls of C25 leave, and return what these return. -/
theorem C141_disk_refines (order : List Path → List Path) (method : DiskMethod P) (file : Path) (deps : List Dep) (d : Disk)
    (ops : List (ResOp (P.Obj × P.Obj) P.Obj)) (a p : P.Obj) :
    (DiskObjects.run order method file deps d ops).disk = Spec.diskAfter order method file deps d ops ∧
    ((DiskObjects.run order method file deps d ops).call order method file deps a p).1 =
      (diskProxy P order method file deps (Spec.diskAfter order method file deps d ops) a p).result := by
  have hcall : ∀ (st : DiskObjects P) (a p : P.Obj), (st.call order method file deps a p).1 = (diskProxy P order method file deps st.disk a p).result ∧
      (st.call order method file deps a p).2.disk = (diskProxy P order method file deps st.disk a p).disk := by
    intro st a p
    unfold DiskObjects.call
    simp only
    cases (diskProxy P order method file deps st.disk a p).result <;> exact ⟨rfl, rfl⟩
  have key : ∀ (ops : List (ResOp (P.Obj × P.Obj) P.Obj)) (st : DiskObjects P),
      (ops.foldl (DiskObjects.step order method file deps) st).disk = Spec.diskAfter order method file deps st.disk ops := by
    intro ops
    induction ops with
    | nil => intro st; rfl
    | cons op ops ih =>
      intro st
      rw [List.foldl_cons, ih]
      cases op with
      | call k =>
        show Spec.diskAfter _ _ _ _ (st.call order method file deps k.1 k.2).2.disk ops = _
        rw [(hcall st k.1 k.2).2]
        rfl
      | change j v =>
        have : (st.change j v).disk = st.disk := by
          unfold DiskObjects.change
          cases st.got[j]? <;> rfl
        show Spec.diskAfter _ _ _ _ (st.change j v).disk ops = _
        rw [this]
        rfl
      | look j => rfl
  have h1 : (DiskObjects.run order method file deps d ops).disk = Spec.diskAfter order method file deps d ops := key ops ⟨[], d, []⟩
  exact ⟨h1, by rw [(hcall _ a p).1, h1]⟩

/-! ### Cases that meet the hypotheses of C141 -/

/-- A call with one number. -/
def oneArg (n : Nat) : CallArgs sampleObjects := ⟨[n], []⟩

/-- A method that makes the list `[n]`. -/
def makeList : CallArgs sampleObjects → Except PyErr (List Nat) := fun k => .ok (k.args.map (fun (n : Nat) => n))

-- the first result is changed; the second call with the same argument returns the changed list
example : ((MemObjects.run makeList [.call (oneArg 3), .change 0 [3, 8]]).call makeList (oneArg 3)).1 = .ok [3, 8] := by decide

example : ((MemObjects.run makeList [.call (oneArg 3), .change 0 [3, 8]]).call makeList (oneArg 4)).1 = .ok [4] := by decide

example : (MemObjects.run makeList [.call (oneArg 3)]).got[0]? = some (oneArg 3, 0) := rfl

example : Spec.SameCall (oneArg 3) (oneArg 3) ∧ Spec.Hashable (oneArg 3) := 
  ⟨(keyEq_iff _ _).1 (keyEq_refl sampleObjects_laws _), (keyHashable_iff _).1 (by decide)⟩

example : ((DiskObjects.run (P := unary) id countBytes u!"cache" [.file u!"data"] freshDisk [.call ((5 : Nat), (1 : Nat)), .change 0 (9 : Nat)]).call id countBytes u!"cache"
    [.file u!"data"] (5 : Nat) (1 : Nat)).1 = .ok (6 : Nat) := rfl

example : (DiskObjects.run (P := unary) id countBytes u!"cache" [.file u!"data"] freshDisk [.call ((5 : Nat), (1 : Nat)), .change 0 (9 : Nat), .call ((5 : Nat), (1 : Nat))]).look 0 =
    some (9 : Nat) := rfl

end Cjk
