import Verif.Spec.SmartCache
/-!
# Properties of `cjktools/smart_cache.py` (C23 - C27)
-/

namespace Cjk
open Py

/-! ## C26: needs_update -/

theorem anyNewer_ok {fs : FS} {t : Nat} {ps : List Path} (h : ∀ p ∈ ps, ∃ f, fs p = some f) :
    ∃ b, anyNewer fs t ps = .ok b ∧ (b = true ↔ ∃ p ∈ ps, ∃ f, fs p = some f ∧ t < f.mtime) := by
  induction ps with
  | nil => exact ⟨false, rfl, by simp⟩
  | cons p ps ih =>
    obtain ⟨f, hf⟩ := h p (by simp)
    obtain ⟨b, hb, hb'⟩ := ih (fun q hq => h q (by simp [hq]))
    have hg : getmtime fs p = .ok f.mtime := by simp [getmtime, hf]
    by_cases hm : f.mtime > t
    · refine ⟨true, ?_, ?_⟩
      · simp only [anyNewer, hg]; show (if f.mtime > t then _ else _) = _; rw [if_pos hm]
      · simp only [true_iff]; exact ⟨p, by simp, f, hf, hm⟩
    · refine ⟨b, ?_, ?_⟩
      · simp only [anyNewer, hg]; show (if f.mtime > t then _ else _) = _; rw [if_neg hm]; exact hb
      · rw [hb']
        constructor
        · rintro ⟨q, hq, h⟩; exact ⟨q, by simp [hq], h⟩
        · rintro ⟨q, hq, g, hg', h⟩
          rcases List.mem_cons.1 hq with rfl | hq
          · rw [hf] at hg'; cases hg'; exact absurd h hm
          · exact ⟨q, hq, g, hg', h⟩

theorem depFiles_ok {order : List Path → List Path} (ho : Spec.SetOrder order) {d : Dep} (h : Spec.Supported d) :
    ∃ ps, depFiles order d = .ok ps ∧ ∀ p, p ∈ ps ↔ Spec.DependsOn d p := by
  cases d with
  | file p =>
    refine ⟨[p], rfl, fun q => ?_⟩
    simp only [List.mem_singleton]
    constructor
    · rintro rfl; exact .file _
    · intro h; cases h; rfl
  | other => exact absurd h id
  | module m =>
    cases hm : m.file with
    | none => exact absurd hm h
    | some f =>
      refine ⟨order (f :: m.imports.filterMap id), by simp only [depFiles, moduleDependencies, hm]; rfl, fun q => ?_⟩
      rw [ho]
      simp only [List.mem_cons, List.mem_filterMap, id_eq, exists_eq_right]
      constructor
      · rintro (rfl | h)
        · exact .moduleFile m _ hm
        · exact .imported m _ h
      · intro h
        cases h with
        | moduleFile _ _ h => rw [hm] at h; cases h; exact Or.inl rfl
        | imported _ _ h => exact Or.inr h

theorem depsNewer_cons {order : List Path → List Path} (ho : Spec.SetOrder order) {fs : FS} {t : Nat} {d : Dep} {ds : List Dep}
    (h : Spec.GoodDeps fs [d]) :
    (Spec.Newer fs t [d] → depsNewer order fs t (d :: ds) = .ok true) ∧
    (¬ Spec.Newer fs t [d] → depsNewer order fs t (d :: ds) = depsNewer order fs t ds) := by
  obtain ⟨ps, hps, hmem⟩ := depFiles_ok ho (h.1 d (by simp))
  obtain ⟨b, hb, hb'⟩ := anyNewer_ok (t := t) (fun p hp => h.2 d (by simp) p ((hmem p).1 hp))
  have hN : Spec.Newer fs t [d] ↔ b = true := by
    rw [hb']
    simp only [Spec.Newer, List.mem_singleton, exists_eq_left]
    constructor
    · rintro ⟨p, h1, h2⟩; exact ⟨p, (hmem p).2 h1, h2⟩
    · rintro ⟨p, h1, h2⟩; exact ⟨p, (hmem p).1 h1, h2⟩
  have he : depsNewer order fs t (d :: ds) = if b then .ok true else depsNewer order fs t ds := by
    simp only [depsNewer, hps]
    show (anyNewer fs t ps >>= fun r => _) = _
    rw [hb]; rfl
  rw [hN, he]
  cases b <;> simp

theorem newer_cons {fs : FS} {t : Nat} {d : Dep} {ds : List Dep} :
    Spec.Newer fs t (d :: ds) ↔ Spec.Newer fs t [d] ∨ Spec.Newer fs t ds := by
  simp [Spec.Newer]

theorem goodDeps_cons {fs : FS} {d : Dep} {ds : List Dep} :
    Spec.GoodDeps fs (d :: ds) ↔ Spec.GoodDeps fs [d] ∧ Spec.GoodDeps fs ds := by
  simp only [Spec.GoodDeps, List.mem_cons, List.not_mem_nil, or_false, forall_eq_or_imp, forall_eq]
  exact ⟨fun ⟨⟨a, b⟩, c, d⟩ => ⟨⟨a, c⟩, b, d⟩, fun ⟨⟨a, c⟩, b, d⟩ => ⟨⟨a, b⟩, c, d⟩⟩

/-- After good dependencies that are not newer, the rest decides; a newer one decides at once. -/
theorem depsNewer_append {order : List Path → List Path} (ho : Spec.SetOrder order) {fs : FS} {t : Nat} (pre ds : List Dep)
    (h : Spec.GoodDeps fs pre) :
    (Spec.Newer fs t pre → depsNewer order fs t (pre ++ ds) = .ok true) ∧
    (¬ Spec.Newer fs t pre → depsNewer order fs t (pre ++ ds) = depsNewer order fs t ds) := by
  induction pre with
  | nil => simp [Spec.Newer]
  | cons d pre ih =>
    rw [goodDeps_cons] at h
    have h1 := depsNewer_cons (t := t) (ds := pre ++ ds) ho h.1
    have h2 := ih h.2
    rw [newer_cons]
    by_cases hd : Spec.Newer fs t [d]
    · exact ⟨fun _ => h1.1 hd, fun hn => absurd (Or.inl hd) hn⟩
    · refine ⟨fun hn => ?_, fun hn => ?_⟩
      · rw [List.cons_append, h1.2 hd]
        exact h2.1 (hn.resolve_left hd)
      · rw [List.cons_append, h1.2 hd]
        exact h2.2 (fun h => hn (Or.inr h))

/-- C26: with supported, existing dependencies `needs_update` answers, and says yes exactly when the
target is missing or a dependency file is strictly newer. -/
theorem C26_needs_update_exact (order : List Path → List Path) (ho : Spec.SetOrder order) (fs : FS) (target : Path)
    (deps : List Dep) (h : Spec.GoodDeps fs deps) :
    ∃ b, needsUpdate order fs target deps = .ok b ∧
      (b = true ↔ ∀ f, fs target = some f → Spec.Newer fs f.mtime deps) := by
  unfold needsUpdate
  cases hf : fs target with
  | none => exact ⟨true, rfl, by simp⟩
  | some f =>
    have := depsNewer_append (t := f.mtime) ho deps [] h
    rw [List.append_nil] at this
    by_cases hn : Spec.Newer fs f.mtime deps
    · refine ⟨true, this.1 hn, ?_⟩
      simp only [true_iff]; rintro g hg; cases hg; exact hn
    · refine ⟨false, this.2 hn, ?_⟩
      simp only [Bool.false_eq_true, false_iff]
      intro h; exact hn (h f rfl)

/-- C26: the order of the dependencies and of the module sets does not matter. -/
theorem C26_order_independent (order order' : List Path → List Path) (ho : Spec.SetOrder order)
    (ho' : Spec.SetOrder order') (fs : FS) (target : Path)
    (deps deps' : List Dep) (hd : ∀ d, d ∈ deps ↔ d ∈ deps') (h : Spec.GoodDeps fs deps) :
    needsUpdate order fs target deps = needsUpdate order' fs target deps' := by
  have h' : Spec.GoodDeps fs deps' :=
    ⟨fun d hd' => h.1 d ((hd d).2 hd'), fun d hd' => h.2 d ((hd d).2 hd')⟩
  obtain ⟨b, hb, hb'⟩ := C26_needs_update_exact order ho fs target deps h
  obtain ⟨c, hc, hc'⟩ := C26_needs_update_exact order' ho' fs target deps' h'
  have hn : ∀ t, Spec.Newer fs t deps ↔ Spec.Newer fs t deps' := by
    intro t
    simp only [Spec.Newer, hd]
  rw [hb, hc]
  congr 1
  rw [Bool.eq_iff_iff, hb', hc']
  simp only [hn]

/-- C26: the errors.  Nothing is examined when the target is missing; a newer dependency decides before
later ones are looked at; otherwise the first bad dependency raises. -/
theorem C26_errors (order : List Path → List Path) (ho : Spec.SetOrder order) (fs : FS) (target : Path)
    (pre : List Dep) (bad : Dep) (post : List Dep) (h : Spec.GoodDeps fs pre) :
    (∀ deps, fs target = none → needsUpdate order fs target deps = .ok true) ∧
    (∀ f, fs target = some f → Spec.Newer fs f.mtime pre →
      needsUpdate order fs target (pre ++ bad :: post) = .ok true) ∧
    (∀ f, fs target = some f → ¬ Spec.Newer fs f.mtime pre →
      (bad = .other → needsUpdate order fs target (pre ++ bad :: post) = .error .typeError) ∧
      (∀ p, bad = .file p → fs p = none → needsUpdate order fs target (pre ++ bad :: post) = .error .osError) ∧
      (∀ m, bad = .module m → m.file = none →
        needsUpdate order fs target (pre ++ bad :: post) = .error .attributeError)) := by
  refine ⟨?_, ?_, ?_⟩
  · intro deps h; simp [needsUpdate, h]
  · intro f hf hn
    simp only [needsUpdate, hf]
    exact (depsNewer_append ho pre _ h).1 hn
  · intro f hf hn
    simp only [needsUpdate, hf, (depsNewer_append ho pre (bad :: post) h).2 hn]
    refine ⟨?_, ?_, ?_⟩
    · rintro rfl; rfl
    · rintro p rfl hp
      have : getmtime fs p = .error .osError := by simp [getmtime, hp]
      have h2 : anyNewer fs f.mtime [p] = .error .osError := by simp only [anyNewer, this]; rfl
      show (anyNewer fs f.mtime [p] >>= fun r => _) = _
      rw [h2]; rfl
    · rintro m rfl hm
      simp only [depsNewer, depFiles, moduleDependencies, hm]; rfl

/-- A world with target (time 5), a module with one import, and a file. -/
def exampleFS : FS := fun p =>
  if p = u!"cache" then some ⟨[], 5⟩ else if p = u!"mod.py" then some ⟨[1], 3⟩
  else if p = u!"imp.py" then some ⟨[2], 6⟩ else if p = u!"data" then some ⟨[3], 5⟩ else none

example : Spec.GoodDeps exampleFS [.file u!"data", .module ⟨some u!"mod.py", [none, some u!"imp.py"]⟩] ∧
    needsUpdate id exampleFS u!"cache" [.file u!"data"] = .ok false ∧
    needsUpdate id exampleFS u!"cache" [.file u!"data", .module ⟨some u!"mod.py", [none, some u!"imp.py"]⟩]
      = .ok true := by
  refine ⟨⟨?_, ?_⟩, by decide, by decide⟩
  · intro d hd
    simp only [List.mem_cons, List.not_mem_nil, or_false] at hd
    rcases hd with rfl | rfl
    · trivial
    · simp [Spec.Supported]
  · intro d hd p hp
    simp only [List.mem_cons, List.not_mem_nil, or_false] at hd
    rcases hd with rfl | rfl
    · cases hp; exact ⟨_, rfl⟩
    · cases hp with
      | moduleFile _ _ h => cases h; exact ⟨_, rfl⟩
      | imported _ _ h =>
        simp at h; subst h; exact ⟨_, rfl⟩

/-! ## C25: reading a partly written cache file -/

theorem prefix_append_cases {α : Type} {pre a b : List α} (h : pre <+: a ++ b) :
    (pre <+: a ∧ pre ≠ a) ∨ ∃ c, pre = a ++ c ∧ c <+: b := by
  rcases List.prefix_or_prefix_of_prefix h (List.prefix_append a b) with h1 | h1
  · by_cases he : pre = a
    · exact Or.inr ⟨[], by simp [he], List.nil_prefix⟩
    · exact Or.inl ⟨h1, he⟩
  · obtain ⟨c, rfl⟩ := h1
    exact Or.inr ⟨c, rfl, by rwa [List.prefix_append_right_inj] at h⟩

/-- What `try_cache` can find in a file of which only a beginning was written. -/
theorem loadCached_prefix {P : PickleObjects} (hP : PickleSpec P) (o a p : P.Obj) (pre : List Nat)
    (hpre : pre <+: (storedBytes P o a p).1) (args params : P.Obj) (r : P.Obj)
    (hr : loadCached P pre args params = some r) :
    r = o ∧ P.isNone o = false ∧ P.eq a args = .ok true ∧ P.eq p params = .ok true ∧
      pre = (storedBytes P o a p).1 ∧ (storedBytes P o a p).2 = none := by
  unfold loadCached at hr
  unfold storedBytes at hpre ⊢
  cases hda : P.dump a with
  | mk b1 r1 =>
    rw [hda] at hpre
    cases r1 with
    | some e =>
      obtain ⟨e', he'⟩ := hP.load_failed a pre (by rw [hda]; simp) (by rw [hda]; exact hpre)
      rw [he'] at hr; cases hr
    | none =>
      have la : ∀ rest, P.load (b1 ++ rest) = .ok (a, rest) := by
        intro rest; have := hP.load_dump a rest (by rw [hda]); rwa [hda] at this
      have lap : ∀ q, q <+: b1 → q ≠ b1 → ∃ e, P.load q = .error e := by
        intro q h1 h2; exact hP.load_prefix a q (by rw [hda]) (by rw [hda]; exact h1) (by rw [hda]; exact h2)
      cases hdp : P.dump p with
      | mk b2 r2 =>
        rw [hdp] at hpre
        cases r2 with
        | some e =>
          rcases prefix_append_cases hpre with ⟨h1, h2⟩ | ⟨c, rfl, hc⟩
          · obtain ⟨e', he'⟩ := lap pre h1 h2
            rw [he'] at hr; cases hr
          · obtain ⟨e', he'⟩ := hP.load_failed p c (by rw [hdp]; simp) (by rw [hdp]; exact hc)
            rw [la c] at hr
            simp only [Bind.bind, Except.bind, he'] at hr
            cases hr
        | none =>
          have lp : ∀ rest, P.load (b2 ++ rest) = .ok (p, rest) := by
            intro rest; have := hP.load_dump p rest (by rw [hdp]); rwa [hdp] at this
          have lpp : ∀ q, q <+: b2 → q ≠ b2 → ∃ e, P.load q = .error e := by
            intro q h1 h2; exact hP.load_prefix p q (by rw [hdp]) (by rw [hdp]; exact h1) (by rw [hdp]; exact h2)
          cases hdo : P.dump o with
          | mk b3 r3 =>
            rw [hdo] at hpre
            simp only at hpre
            rw [List.append_assoc] at hpre
            rcases prefix_append_cases hpre with ⟨h1, h2⟩ | ⟨c, rfl, hc⟩
            · obtain ⟨e', he'⟩ := lap pre h1 h2
              rw [he'] at hr; cases hr
            · rw [la c] at hr
              rcases prefix_append_cases hc with ⟨h1, h2⟩ | ⟨c', rfl, hc'⟩
              · obtain ⟨e', he'⟩ := lpp c h1 h2
                simp only [Bind.bind, Except.bind, he'] at hr
                cases hr
              · simp only [Bind.bind, Except.bind, lp c'] at hr
                cases hea : P.eq a args with
                | error e => rw [hea] at hr; cases hr
                | ok ea =>
                  rw [hea] at hr
                  cases ea with
                  | false => cases hr
                  | true =>
                    simp only [if_true] at hr
                    cases hep : P.eq p params with
                    | error e => rw [hep] at hr; cases hr
                    | ok ep =>
                      rw [hep] at hr
                      cases ep with
                      | false => cases hr
                      | true =>
                        simp only [if_true] at hr
                        -- the object itself
                        by_cases hfull : r3 = none ∧ c' = b3
                        · obtain ⟨rfl, rfl⟩ := hfull
                          have lo : P.load c' = .ok (o, []) := by
                            have := hP.load_dump o [] (by rw [hdo])
                            rwa [hdo, List.append_nil] at this
                          rw [lo] at hr
                          simp only at hr
                          cases hn : P.isNone o with
                          | true => rw [hn] at hr; cases hr
                          | false =>
                            rw [hn] at hr
                            simp only [Bool.false_eq_true, if_false, Option.some.injEq] at hr
                            exact ⟨hr.symm, rfl, rfl, rfl, by simp, rfl⟩
                        · have : ∃ e, P.load c' = .error e := by
                            by_cases h3 : r3 = none
                            · exact hP.load_prefix o c' (by rw [hdo]; exact h3) (by rw [hdo]; exact hc')
                                (by rw [hdo]; exact fun h => hfull ⟨h3, h⟩)
                            · exact hP.load_failed o c' (by rw [hdo]; exact h3) (by rw [hdo]; exact hc')
                          obtain ⟨e', he'⟩ := this
                          rw [he'] at hr; cases hr

/-- C25: whatever beginning of the bytes of `store_cache_object` is on the disk, `try_cache` yields
`None` or the stored object, the latter only for equal arguments and when everything was written. -/
theorem C25_crash_safe {P : PickleObjects} (hP : PickleSpec P) (order : List Path → List Path) (fs : FS) (file : Path)
    (deps : List Dep) (o a p : P.Obj) (n now : Nat) (args params : P.Obj) (r : P.Obj)
    (hr : tryCache P order (fs.write file ((storedBytes P o a p).1.take n) now) file args params deps = .ok (some r)) :
    r = o ∧ P.eq a args = .ok true ∧ P.eq p params = .ok true ∧
      (storedBytes P o a p).1.length ≤ n := by
  unfold tryCache at hr
  cases hu : needsUpdate order (fs.write file ((storedBytes P o a p).1.take n) now) file deps with
  | error e => rw [hu] at hr; cases hr
  | ok b =>
    rw [hu] at hr
    cases b with
    | true => cases hr
    | false =>
      have hw : (fs.write file ((storedBytes P o a p).1.take n) now) file =
          some ⟨(storedBytes P o a p).1.take n, now⟩ := by simp [FS.write]
      simp only [Bind.bind, Except.bind, Bool.false_eq_true, if_false, hw, Except.ok.injEq] at hr
      obtain ⟨h1, _, h3, h4, h5, _⟩ := loadCached_prefix hP o a p _ (List.take_prefix _ _) args params r hr
      refine ⟨h1, h3, h4, ?_⟩
      have := congrArg List.length h5
      rw [List.length_take] at this
      omega

/-- C25: the answer is never an exception: with its dependencies in order, `try_cache` finds nothing or the object that was being stored. -/
theorem C25_never_raises {P : PickleObjects} (hP : PickleSpec P) (order : List Path → List Path) (ho : Spec.SetOrder order) (fs : FS) (file : Path)
    (deps : List Dep) (hg : Spec.GoodDeps fs deps) (o a p : P.Obj) (n now : Nat) (args params : P.Obj) :
    tryCache P order (fs.write file ((storedBytes P o a p).1.take n) now) file args params deps = .ok none ∨
    tryCache P order (fs.write file ((storedBytes P o a p).1.take n) now) file args params deps = .ok (some o) := by
  have hg' : Spec.GoodDeps (fs.write file ((storedBytes P o a p).1.take n) now) deps := by
    refine ⟨hg.1, fun d hd q hq => ?_⟩
    obtain ⟨f, hf⟩ := hg.2 d hd q hq
    unfold FS.write
    split
    · exact ⟨_, rfl⟩
    · exact ⟨f, hf⟩
  cases ht : tryCache P order (fs.write file ((storedBytes P o a p).1.take n) now) file args params deps with
  | error e =>
    obtain ⟨b, hb, _⟩ := C26_needs_update_exact order ho _ file deps hg'
    unfold tryCache at ht
    rw [hb] at ht
    cases b with
    | true => cases ht
    | false =>
      simp only [Bind.bind, Except.bind, Bool.false_eq_true, if_false] at ht
      split at ht <;> cases ht
  | ok r =>
    cases r with
    | none => exact Or.inl rfl
    | some r =>
      obtain ⟨rfl, _⟩ := C25_crash_safe hP order fs file deps o a p n now args params r ht
      exact Or.inr rfl

/-! ## C24: up-to-date results -/

/-- If the cache file is not older than the dependencies, everything it yields is right. -/
def CacheOk (P : PickleObjects) (method : DiskMethod P) (file : Path) (deps : List Dep) (d : Disk) : Prop :=
  Spec.GoodDeps d.fs deps ∧
  ∀ f, d.fs file = some f → ¬ Spec.Newer d.fs f.mtime deps → ∀ args params r,
    loadCached P f.bytes args params = some r → method d.fs args params = .ok r

theorem cacheOk_store {P : PickleObjects} (hP : PickleSpec P) {method : DiskMethod P} {file : Path} {deps : List Dep}
    (hm : Spec.Determined P method deps) (hfile : ∀ d ∈ deps, ¬ Spec.DependsOn d file) {d : Disk}
    (hg : Spec.GoodDeps d.fs deps) {o a p : P.Obj} (ho : method d.fs a p = .ok o) {bytes : List Nat}
    (hb : bytes <+: (storedBytes P o a p).1) :
    CacheOk P method file deps { d with fs := d.fs.write file bytes d.now } := by
  have hsame : ∀ dd ∈ deps, ∀ q, Spec.DependsOn dd q → (d.fs.write file bytes d.now) q = d.fs q := by
    intro dd hd q hq
    have : q ≠ file := by rintro rfl; exact hfile dd hd hq
    simp [FS.write, this]
  refine ⟨⟨hg.1, fun dd hd q hq => ?_⟩, ?_⟩
  · show ∃ f, (d.fs.write file bytes d.now) q = some f
    rw [hsame dd hd q hq]; exact hg.2 dd hd q hq
  · intro f hf _ args params r hr
    have hf' : f = ⟨bytes, d.now⟩ := by
      have : (d.fs.write file bytes d.now) file = some ⟨bytes, d.now⟩ := by simp [FS.write]
      exact Option.some.inj (hf.symm.trans this)
    subst hf'
    obtain ⟨rfl, _, h1, h2, _⟩ := loadCached_prefix hP o a p bytes hb args params r hr
    show method (d.fs.write file bytes d.now) args params = _
    rw [hm.files (d.fs.write file bytes d.now) d.fs args params (fun dd hd q hq => by rw [hsame dd hd q hq])]
    rw [← hm.args d.fs a p args params h1 h2]
    exact ho

theorem reachable_cacheOk {P : PickleObjects} (hP : PickleSpec P) {order : List Path → List Path} {method : DiskMethod P}
    {file : Path} {deps : List Dep} (hm : Spec.Determined P method deps)
    (hfile : ∀ d ∈ deps, ¬ Spec.DependsOn d file) {d : Disk}
    (hd : Spec.Reachable P order method file deps d) : CacheOk P method file deps d := by
  induction hd with
  | init d h1 h2 => exact ⟨h2, fun f hf => by rw [h1] at hf; cases hf⟩
  | wait d n _ ih => exact ih
  | edit d p bytes _ hp hclock ih =>
    refine ⟨⟨ih.1.1, ?_⟩, ?_⟩
    · intro dd hdd q hq
      show ∃ f, (d.fs.write p bytes d.now) q = some f
      by_cases hqp : q = p
      · exact ⟨⟨bytes, d.now⟩, by simp [FS.write, hqp]⟩
      · simp only [FS.write, hqp, if_false]; exact ih.1.2 dd hdd q hq
    · intro f hf hn args params r hr
      have hf' : d.fs file = some f := by
        have : (d.fs.write p bytes d.now) file = d.fs file := by simp [FS.write, Ne.symm hp]
        rw [← this]; exact hf
      -- `p` is not a dependency, otherwise it would be newer
      have hnd : ∀ dd ∈ deps, ¬ Spec.DependsOn dd p := by
        intro dd hdd hdp
        apply hn
        refine ⟨dd, hdd, p, hdp, ⟨bytes, d.now⟩, by simp [FS.write], hclock f hf'⟩
      have hsame : ∀ dd ∈ deps, ∀ q, Spec.DependsOn dd q → (d.fs.write p bytes d.now) q = d.fs q := by
        intro dd hdd q hq
        have : q ≠ p := by rintro rfl; exact hnd dd hdd hq
        simp [FS.write, this]
      have hn' : ¬ Spec.Newer d.fs f.mtime deps := by
        rintro ⟨dd, hdd, q, hq, g, hg, hlt⟩
        exact hn ⟨dd, hdd, q, hq, g, (hsame dd hdd q hq).trans hg, hlt⟩
      show method (d.fs.write p bytes d.now) args params = _
      rw [hm.files (d.fs.write p bytes d.now) d.fs args params (fun dd hdd q hq => by rw [hsame dd hdd q hq])]
      exact ih.2 f hf' hn' args params r hr
  | remove d _ ih =>
    refine ⟨⟨ih.1.1, ?_⟩, ?_⟩
    · intro dd hdd q hq
      have : q ≠ file := by rintro rfl; exact hfile dd hdd hq
      simp only [this, if_false]; exact ih.1.2 dd hdd q hq
    · intro f hf; simp at hf
  | call d args params _ ih =>
    unfold diskProxy
    split
    · exact ih
    · exact ih
    · split
      · exact ih
      · rename_i o ho
        split
        · rename_i b hb
          exact cacheOk_store hP hm hfile ih.1 ho (by rw [hb]; exact List.prefix_refl _)
        · rename_i b e hb
          exact cacheOk_store hP hm hfile ih.1 ho (by rw [hb]; exact List.prefix_refl _)
  | crash d args params n _ ih =>
    unfold diskProxyCrash
    split
    · exact ih
    · exact ih
    · split
      · exact ih
      · rename_i o ho
        exact cacheOk_store hP hm hfile ih.1 ho (List.take_prefix _ _)

theorem tryCache_hit {P : PickleObjects} {order : List Path → List Path} (ho : Spec.SetOrder order) {method : DiskMethod P}
    {file : Path} {deps : List Dep} {d : Disk} (h : CacheOk P method file deps d) (args params : P.Obj) :
    (∃ o, tryCache P order d.fs file args params deps = .ok (some o) ∧ method d.fs args params = .ok o) ∨
    tryCache P order d.fs file args params deps = .ok none := by
  obtain ⟨b, hb, hb'⟩ := C26_needs_update_exact order ho d.fs file deps h.1
  unfold tryCache
  rw [hb]
  cases b with
  | true => exact Or.inr rfl
  | false =>
    simp only [Bool.false_eq_true, false_iff, Classical.not_forall] at hb'
    obtain ⟨f, hf, hn⟩ := hb'
    simp only [Bind.bind, Except.bind, Bool.false_eq_true, if_false, hf]
    cases hl : loadCached P f.bytes args params with
    | none => exact Or.inr rfl
    | some r => exact Or.inl ⟨r, rfl, h.2 f hf hn args params r hl⟩

/-- C24: in every reachable world a proxy call returns (or raises) what a direct call would at that
moment, provided arguments and result can be pickled; and it leaves the other files alone. -/
theorem C24_up_to_date {P : PickleObjects} (hP : PickleSpec P) (order : List Path → List Path) (ho : Spec.SetOrder order)
    (method : DiskMethod P) (file : Path) (deps : List Dep) (hm : Spec.Determined P method deps)
    (hfile : ∀ d ∈ deps, ¬ Spec.DependsOn d file) (d : Disk)
    (hd : Spec.Reachable P order method file deps d) (args params : P.Obj)
    (hpick : ∀ o, method d.fs args params = .ok o →
      (P.dump args).2 = none ∧ (P.dump params).2 = none ∧ (P.dump o).2 = none) :
    (diskProxy P order method file deps d args params).result = method d.fs args params ∧
    ∀ q, q ≠ file → (diskProxy P order method file deps d args params).disk.fs q = d.fs q := by
  have hok := reachable_cacheOk hP hm hfile hd
  unfold diskProxy
  rcases tryCache_hit ho hok args params with ⟨o, h1, h2⟩ | h1
  · rw [h1]; exact ⟨h2.symm, fun _ _ => rfl⟩
  · rw [h1]
    simp only
    cases hr : method d.fs args params with
    | error e => exact ⟨rfl, fun _ _ => rfl⟩
    | ok o =>
      obtain ⟨p1, p2, p3⟩ := hpick o hr
      have hs : (storedBytes P o args params).2 = none := by
        unfold storedBytes
        cases h1 : P.dump args with
        | mk b1 r1 =>
          rw [h1] at p1; cases p1
          cases h2 : P.dump params with
          | mk b2 r2 =>
            rw [h2] at p2; cases p2
            cases h3 : P.dump o with
            | mk b3 r3 => rw [h3] at p3; cases p3; rfl
      cases hb : storedBytes P o args params with
      | mk b r =>
        rw [hb] at hs; cases hs
        simp only [hb]
        refine ⟨trivial, ?_⟩
        intro q hq
        simp [FS.write, hq]

/-- C24/C25: the same after a crash: the world left by a crashed call is reachable, so C24 applies to it.
Without the assumption on pickling the only other outcome is the exception of `pickle.dump`. -/
theorem C24_unpicklable {P : PickleObjects} (hP : PickleSpec P) (order : List Path → List Path) (ho : Spec.SetOrder order)
    (method : DiskMethod P) (file : Path) (deps : List Dep) (hm : Spec.Determined P method deps)
    (hfile : ∀ d ∈ deps, ¬ Spec.DependsOn d file) (d : Disk)
    (hd : Spec.Reachable P order method file deps d) (args params : P.Obj) :
    (diskProxy P order method file deps d args params).result = method d.fs args params ∨
    ∃ o e, method d.fs args params = .ok o ∧ (storedBytes P o args params).2 = some e ∧
      (diskProxy P order method file deps d args params).result = .error e := by
  have hok := reachable_cacheOk hP hm hfile hd
  unfold diskProxy
  rcases tryCache_hit ho hok args params with ⟨o, h1, h2⟩ | h1
  · rw [h1]; exact Or.inl h2.symm
  · rw [h1]
    simp only
    cases hr : method d.fs args params with
    | error e => exact Or.inl rfl
    | ok o =>
      cases hb : storedBytes P o args params with
      | mk b r =>
        cases r with
        | none => left; simp only [hb]
        | some e => exact Or.inr ⟨o, e, rfl, by rw [hb], by simp only [hb]⟩

/-- C25: after a call that died while storing, at any byte, and anything that happened before it, a proxy call returns what the method returns. -/
theorem C25_call_after_crash {P : PickleObjects} (hP : PickleSpec P) (order : List Path → List Path) (ho : Spec.SetOrder order)
    (method : DiskMethod P) (file : Path) (deps : List Dep) (hm : Spec.Determined P method deps)
    (hfile : ∀ d ∈ deps, ¬ Spec.DependsOn d file) (d : Disk) (hd : Spec.Reachable P order method file deps d) (a p : P.Obj) (n : Nat) (args params : P.Obj)
    (hpick : ∀ o, method d.fs args params = .ok o → (P.dump args).2 = none ∧ (P.dump params).2 = none ∧ (P.dump o).2 = none) :
    (diskProxy P order method file deps (diskProxyCrash P order method file deps d a p n) args params).result = method d.fs args params := by
  have hsame : method (diskProxyCrash P order method file deps d a p n).fs args params = method d.fs args params := by
    apply hm.files
    intro dd hdd q hq
    have hne : q ≠ file := by rintro rfl; exact hfile dd hdd hq
    unfold diskProxyCrash
    split
    · rfl
    · rfl
    · split
      · rfl
      · simp [FS.write, hne]
  rw [← hsame]
  refine (C24_up_to_date hP order ho method file deps hm hfile _ (Spec.Reachable.crash d a p n hd) args params ?_).1
  rw [hsame]
  exact hpick

/-! ## C27: what is cached -/

/-- C27: directly after a call that stored `r` (not `None`), with dependencies no newer, a call with equal
arguments returns `r` without calling the method, and one with different arguments calls it. -/
theorem C27_last_result_cached {P : PickleObjects} (hP : PickleSpec P) (order : List Path → List Path)
    (ho : Spec.SetOrder order) (method method' : DiskMethod P) (file : Path) (deps : List Dep) (d : Disk)
    (a p r : P.Obj) (hfile : ∀ d ∈ deps, ¬ Spec.DependsOn d file)
    (hcall : (diskProxy P order method file deps d a p).called = true)
    (hres : (diskProxy P order method file deps d a p).result = .ok r)
    (hgood : Spec.GoodDeps d.fs deps) (hfresh : ¬ Spec.Newer d.fs d.now deps) (k : Nat) :
    let d' : Disk := { (diskProxy P order method file deps d a p).disk with now := d.now + k }
    (∀ a' p', P.isNone r = false → P.eq a a' = .ok true → P.eq p p' = .ok true →
      (diskProxy P order method' file deps d' a' p').result = .ok r ∧
      (diskProxy P order method' file deps d' a' p').called = false ∧
      (diskProxy P order method' file deps d' a' p').disk = d') ∧
    (∀ a' p', P.isNone r = true ∨ P.eq a a' ≠ .ok true ∨ P.eq p p' ≠ .ok true →
      (diskProxy P order method' file deps d' a' p').called = true) := by
  -- the first call stored
  obtain ⟨b, hb, hd'⟩ : ∃ b, storedBytes P r a p = (b, none) ∧
      (diskProxy P order method file deps d a p).disk = { d with fs := d.fs.write file b d.now } := by
    unfold diskProxy at hcall hres ⊢
    split at hcall
    · cases hcall
    · cases hcall
    · rename_i h1
      rw [h1] at hres
      simp only at hres ⊢
      cases hr : method d.fs a p with
      | error e => rw [hr] at hres; cases hres
      | ok o =>
        rw [hr] at hres
        simp only at hres ⊢
        cases hs : storedBytes P o a p with
        | mk b s =>
          rw [hs] at hres
          cases s with
          | some e => cases hres
          | none => cases hres; exact ⟨b, hs, rfl⟩
  have hsame : ∀ dd ∈ deps, ∀ q, Spec.DependsOn dd q → (d.fs.write file b d.now) q = d.fs q := by
    intro dd hdd q hq
    have : q ≠ file := by rintro rfl; exact hfile dd hdd hq
    simp [FS.write, this]
  have hg' : Spec.GoodDeps (d.fs.write file b d.now) deps :=
    ⟨hgood.1, fun dd hdd q hq => by rw [hsame dd hdd q hq]; exact hgood.2 dd hdd q hq⟩
  have hf' : (d.fs.write file b d.now) file = some ⟨b, d.now⟩ := by simp [FS.write]
  have hnu : needsUpdate order (d.fs.write file b d.now) file deps = .ok false := by
    obtain ⟨c, hc, hc'⟩ := C26_needs_update_exact order ho _ file deps hg'
    rw [hc]
    cases c with
    | false => rfl
    | true =>
      exfalso
      obtain ⟨dd, hdd, q, hq, g, hg, hlt⟩ := hc'.1 rfl _ hf'
      rw [hsame dd hdd q hq] at hg
      exact hfresh ⟨dd, hdd, q, hq, g, hg, hlt⟩
  have htry : ∀ a' p', tryCache P order (d.fs.write file b d.now) file a' p' deps = .ok (loadCached P b a' p') := by
    intro a' p'
    unfold tryCache
    rw [hnu]
    simp only [Bind.bind, Except.bind, Bool.false_eq_true, if_false, hf']
  intro d'
  have hd'fs : d'.fs = d.fs.write file b d.now := by show (diskProxy P order method file deps d a p).disk.fs = _; rw [hd']
  constructor
  · intro a' p' hn h1 h2
    have hload : loadCached P b a' p' = some r := by
      have hdump : ∃ b1 b2 b3, P.dump a = (b1, none) ∧ P.dump p = (b2, none) ∧ P.dump r = (b3, none) ∧
          b = b1 ++ (b2 ++ b3) := by
        unfold storedBytes at hb
        cases h3 : P.dump a with
        | mk b1 r1 =>
          rw [h3] at hb
          cases r1 with
          | some e => cases hb
          | none =>
            cases h4 : P.dump p with
            | mk b2 r2 =>
              rw [h4] at hb
              cases r2 with
              | some e => cases hb
              | none =>
                cases h5 : P.dump r with
                | mk b3 r3 => rw [h5] at hb; cases hb; exact ⟨b1, b2, b3, rfl, rfl, rfl, by simp⟩
      obtain ⟨b1, b2, b3, h3, h4, h5, rfl⟩ := hdump
      have la := hP.load_dump a (b2 ++ b3) (by rw [h3])
      have lp := hP.load_dump p b3 (by rw [h4])
      have lr := hP.load_dump r [] (by rw [h5])
      rw [h3] at la; rw [h4] at lp; rw [h5] at lr
      simp only [List.append_nil] at la lp lr
      unfold loadCached
      simp only [Bind.bind, Except.bind, la, lp, h1, h2, if_true, lr, hn]
      rfl
    have ht := htry a' p'
    rw [hload] at ht
    rw [← hd'fs] at ht
    unfold diskProxy
    rw [ht]
    exact ⟨rfl, rfl, rfl⟩
  · intro a' p' hor
    have hload : loadCached P b a' p' = none := by
      cases hl : loadCached P b a' p' with
      | none => rfl
      | some x =>
        obtain ⟨_, h2, h3, h4, _⟩ := loadCached_prefix hP r a p b (by rw [hb]; exact List.prefix_refl _) a' p' x hl
        rcases hor with h | h | h
        · rw [h2] at h; cases h
        · exact absurd h3 h
        · exact absurd h4 h
    have ht := htry a' p'
    rw [hload] at ht
    rw [← hd'fs] at ht
    unfold diskProxy
    rw [ht]
    simp only
    split
    · rfl
    · split <;> rfl

/-! ## A codec that satisfies `PickleSpec`, and the violation within one clock tick -/

/-- Objects are natural numbers, 0 is `None`; `n` is written as `n` ones and a zero. -/
def unaryLoad : List Nat → Nat → Except PyErr (Nat × List Nat)
  | [], _ => .error .unpicklingError
  | 0 :: r, n => .ok (n, r)
  | _ :: r, n => unaryLoad r (n + 1)

/-- The unary codec. -/
def unary : PickleObjects where
  Obj := Nat
  isNone := fun n => n == 0
  eq := fun a b => .ok (a == b)
  dump := fun n => (List.replicate n 1 ++ [0], none)
  load := fun b => unaryLoad b 0

theorem unaryLoad_ones (n k : Nat) (r : List Nat) : unaryLoad (List.replicate n 1 ++ r) k = unaryLoad r (k + n) := by
  induction n generalizing k with
  | zero => rfl
  | succ n ih =>
    rw [List.replicate_succ, List.cons_append]
    show unaryLoad (List.replicate n 1 ++ r) (k + 1) = _
    rw [ih]; congr 1; omega

theorem unary_spec : PickleSpec unary where
  load_dump := by
    intro (o : Nat) rest _
    show unaryLoad (List.replicate o 1 ++ [0] ++ rest) 0 = _
    rw [List.append_assoc, unaryLoad_ones, Nat.zero_add]
    rfl
  load_prefix := by
    intro (o : Nat) pre _ hp hne
    rcases prefix_append_cases (show pre <+: List.replicate o 1 ++ [0] from hp) with ⟨⟨t, ht⟩, _⟩ | ⟨c, rfl, hc⟩
    · have hall : ∀ x ∈ pre, x = 1 := by
        intro x hx
        have : x ∈ List.replicate o 1 := by rw [← ht]; exact List.mem_append_left _ hx
        exact (List.mem_replicate.1 this).2
      have : pre = List.replicate pre.length 1 := List.eq_replicate_iff.2 ⟨rfl, hall⟩
      refine ⟨.unpicklingError, ?_⟩
      show unaryLoad pre 0 = _
      rw [this]
      have := unaryLoad_ones pre.length 0 []
      rw [List.append_nil] at this
      rw [this]; rfl
    · have : c = [] := by
        obtain ⟨t, ht⟩ := hc
        cases c with
        | nil => rfl
        | cons x c =>
          simp only [List.cons_append, List.cons.injEq, List.append_eq_nil_iff] at ht
          obtain ⟨rfl, rfl, _⟩ := ht
          exact absurd rfl hne
      subst this
      refine ⟨.unpicklingError, ?_⟩
      show unaryLoad (List.replicate o 1 ++ []) 0 = _
      rw [unaryLoad_ones]; rfl
  load_failed := by intro o pre h; exact absurd rfl h

/-- A method that returns the number of bytes of file `data`, plus one, plus its argument. -/
def countBytes : DiskMethod unary := fun fs (a : Nat) _ =>
  match fs u!"data" with
  | some f => .ok (f.bytes.length + 1 + a)
  | none => .error .osError

theorem countBytes_determined : Spec.Determined unary countBytes [.file u!"data"] where
  files := by
    intro fs fs' a p h
    have := h (.file u!"data") (by simp) _ (.file _)
    unfold countBytes
    cases h1 : fs u!"data" <;> cases h2 : fs' u!"data" <;> simp_all
  args := by
    intro fs (a : Nat) p (a' : Nat) p' h1 _
    have : a = a' := by
      have h1' : (Except.ok (a == a') : Except PyErr Bool) = .ok true := h1
      simpa using h1'
    rw [this]
    rfl

/-- A world without cache file at time 0 with an empty data file. -/
def freshDisk : Disk := ⟨fun p => if p = u!"data" then some ⟨[], 0⟩ else none, 0⟩

/-- Non-vacuity of C24: a history with a call, waiting, an edit and another call. -/
example : Spec.Reachable unary id countBytes u!"cache" [.file u!"data"]
    { fs := ((diskProxy unary id countBytes u!"cache" [.file u!"data"] freshDisk (5 : Nat) (1 : Nat)).disk.fs.write u!"data" [7, 7] 1),
      now := 1 } ∧
    (∀ d ∈ [Dep.file u!"data"], ¬ Spec.DependsOn d u!"cache") := by
  constructor
  · have h0 : Spec.Reachable unary id countBytes u!"cache" [.file u!"data"] freshDisk := by
      refine .init _ (by decide) ⟨?_, ?_⟩
      · intro d hd; simp at hd; subst hd; trivial
      · intro d hd p hp; simp at hd; subst hd; cases hp; exact ⟨_, rfl⟩
    have h1 := Spec.Reachable.wait _ 1 (Spec.Reachable.call _ (5 : Nat) (1 : Nat) h0)
    refine Spec.Reachable.edit _ u!"data" [7, 7] h1 (by decide) ?_
    intro f hf
    have hw : (diskProxy unary id countBytes u!"cache" [.file u!"data"] freshDisk (5 : Nat) (1 : Nat)).disk.fs u!"cache"
        = some ⟨[1,1,1,1,1,0,1,0,1,1,1,1,1,1,0], 0⟩ := by rfl
    rw [hw] at hf
    cases hf
    show 0 < 1
    decide
  · intro d hd h
    simp at hd; subst hd
    cases h

/-- Without the clock assumption the cache goes stale: an edit in the same tick as the store is not
noticed, and the proxy returns 6 although a direct call gives 8. -/
theorem C24_same_tick_goes_stale :
    let d1 := (diskProxy unary id countBytes u!"cache" [.file u!"data"] freshDisk (5 : Nat) (1 : Nat)).disk
    let d2 : Disk := { d1 with fs := d1.fs.write u!"data" [7, 7] d1.now }
    (diskProxy unary id countBytes u!"cache" [.file u!"data"] d2 (5 : Nat) (1 : Nat)).result = .ok (6 : Nat) ∧
    countBytes d2.fs (5 : Nat) (1 : Nat) = .ok (8 : Nat) := by
  exact ⟨rfl, rfl⟩

/-- Non-vacuity of C27. -/
example : (diskProxy unary id countBytes u!"cache" [.file u!"data"] freshDisk (5 : Nat) (1 : Nat)).called = true ∧
    (diskProxy unary id countBytes u!"cache" [.file u!"data"] freshDisk (5 : Nat) (1 : Nat)).result = .ok (6 : Nat) ∧
    ¬ Spec.Newer freshDisk.fs freshDisk.now [.file u!"data"] := by
  refine ⟨rfl, rfl, ?_⟩
  rintro ⟨d, hd, p, hp, f, hf, hlt⟩
  simp at hd; subst hd
  cases hp
  have : freshDisk.fs u!"data" = some ⟨[], 0⟩ := rfl
  rw [this] at hf
  cases hf
  exact absurd hlt (by decide)

/-! ## C23: memory_proxy -/

/-- `==` is an equivalence relation. -/
structure Spec.EqLaws (O : PyObjects) : Prop where
  /-- reflexivity -/
  refl : ∀ a, O.eq a a = true
  /-- symmetry -/
  symm : ∀ a b, O.eq a b = true → O.eq b a = true
  /-- transitivity -/
  trans : ∀ a b c, O.eq a b = true → O.eq b c = true → O.eq a c = true

theorem tupleEq_refl {α : Type} {eq : α → α → Bool} (h : ∀ a, eq a a = true) (l : List α) : tupleEq eq l l = true := by
  induction l with
  | nil => rfl
  | cons a l ih => simp [tupleEq, h a, ih]

theorem tupleEq_symm {α : Type} {eq : α → α → Bool} (h : ∀ a b, eq a b = true → eq b a = true) (l m : List α)
    (hl : tupleEq eq l m = true) : tupleEq eq m l = true := by
  induction l generalizing m with
  | nil => cases m <;> simp_all [tupleEq]
  | cons a l ih =>
    cases m with
    | nil => simp [tupleEq] at hl
    | cons b m =>
      simp only [tupleEq, Bool.and_eq_true] at hl ⊢
      exact ⟨h _ _ hl.1, ih m hl.2⟩

theorem tupleEq_trans {α : Type} {eq : α → α → Bool} (h : ∀ a b c, eq a b = true → eq b c = true → eq a c = true)
    (l m n : List α) (h1 : tupleEq eq l m = true) (h2 : tupleEq eq m n = true) : tupleEq eq l n = true := by
  induction l generalizing m n with
  | nil => cases m <;> simp_all [tupleEq]
  | cons a l ih =>
    cases m with
    | nil => simp [tupleEq] at h1
    | cons b m =>
      cases n with
      | nil => simp [tupleEq] at h2
      | cons c n =>
        simp only [tupleEq, Bool.and_eq_true] at h1 h2 ⊢
        exact ⟨h _ _ _ h1.1 h2.1, ih m n h1.2 h2.2⟩

theorem keyEq_refl {O : PyObjects} (h : Spec.EqLaws O) (k : CallArgs O) : k.keyEq k = true := by
  simp only [CallArgs.keyEq, Bool.and_eq_true]
  exact ⟨tupleEq_refl h.refl _, tupleEq_refl (fun a => by simp [h.refl]) _⟩

theorem keyEq_symm {O : PyObjects} (h : Spec.EqLaws O) {k k' : CallArgs O} (hk : k.keyEq k' = true) : k'.keyEq k = true := by
  simp only [CallArgs.keyEq, Bool.and_eq_true] at hk ⊢
  refine ⟨tupleEq_symm h.symm _ _ hk.1, tupleEq_symm ?_ _ _ hk.2⟩
  intro a b; simp only [Bool.and_eq_true, beq_iff_eq]
  rintro ⟨h1, h2⟩; exact ⟨h1.symm, h.symm _ _ h2⟩

theorem keyEq_trans {O : PyObjects} (h : Spec.EqLaws O) {a b c : CallArgs O} (h1 : a.keyEq b = true) (h2 : b.keyEq c = true) :
    a.keyEq c = true := by
  simp only [CallArgs.keyEq, Bool.and_eq_true] at h1 h2 ⊢
  refine ⟨tupleEq_trans h.trans _ _ _ h1.1 h2.1, tupleEq_trans ?_ _ _ _ h1.2 h2.2⟩
  intro a b c; simp only [Bool.and_eq_true, beq_iff_eq]
  rintro ⟨h3, h4⟩ ⟨h5, h6⟩; exact ⟨h3.trans h5, h.trans _ _ _ h4 h6⟩

/-- The specification of a memoised history: for each call, look back in the log of earlier calls for the
first successful one with an equal key. -/
def firstSuccess {O : PyObjects} (log : List (CallArgs O × CallResult O)) (k : CallArgs O) : Option O.Obj :=
  log.findSome? (fun e => if e.1.keyEq k then e.2.result.toOption else none)

theorem findSome?_map_find? {O : PyObjects} (memo : List (CallArgs O × O.Obj)) (k : CallArgs O) :
    memoGet memo k = memo.findSome? (fun e => if e.1.keyEq k then some e.2 else none) := by
  induction memo with
  | nil => rfl
  | cons e memo ih =>
    unfold memoGet at ih ⊢
    simp only [List.find?_cons, List.findSome?_cons]
    cases h : e.1.keyEq k with
    | true => rfl
    | false => exact ih

/-- Invariant: the memo answers exactly like the log. -/
def MemoMatches {O : PyObjects} (memo : List (CallArgs O × O.Obj)) (log : List (CallArgs O × CallResult O)) : Prop :=
  ∀ k, memoGet memo k = firstSuccess log k

theorem memoGet_append {O : PyObjects} (memo : List (CallArgs O × O.Obj)) (k k' : CallArgs O) (v : O.Obj) :
    memoGet (memo ++ [(k, v)]) k' = (memoGet memo k').or (if k.keyEq k' then some v else none) := by
  rw [findSome?_map_find?, findSome?_map_find?, List.findSome?_append]
  simp only [List.findSome?_cons, List.findSome?_nil]
  cases k.keyEq k' <;> rfl

theorem firstSuccess_append {O : PyObjects} (log : List (CallArgs O × CallResult O)) (k k' : CallArgs O) (r : CallResult O) :
    firstSuccess (log ++ [(k, r)]) k' =
      (firstSuccess log k').or (if k.keyEq k' then r.result.toOption else none) := by
  unfold firstSuccess
  rw [List.findSome?_append]
  simp only [List.findSome?_cons, List.findSome?_nil]
  cases k.keyEq k' <;> cases r.result.toOption <;> rfl

theorem memoGet_congr {O : PyObjects} (h : Spec.EqLaws O) (memo : List (CallArgs O × O.Obj)) {k k' : CallArgs O}
    (hk : k.keyEq k' = true) : memoGet memo k = memoGet memo k' := by
  rw [findSome?_map_find?, findSome?_map_find?]
  congr 1
  funext e
  have : e.1.keyEq k = e.1.keyEq k' := by
    rw [Bool.eq_iff_iff]
    exact ⟨fun h1 => keyEq_trans h h1 hk, fun h1 => keyEq_trans h h1 (keyEq_symm h hk)⟩
  rw [this]

theorem memoryProxy_spec {O : PyObjects} (hO : Spec.EqLaws O) {σ : Type} (method : Method O σ) (s : σ)
    (memo : List (CallArgs O × O.Obj)) (k : CallArgs O) (log : List (CallArgs O × CallResult O))
    (hm : MemoMatches memo log) :
    MemoMatches (memoryProxy method s memo k).2.2 (log ++ [(k, (memoryProxy method s memo k).1)]) ∧
    (k.keyHashable = false → (memoryProxy method s memo k).1 = ⟨.error .typeError, false⟩) ∧
    (k.keyHashable = true → ∀ v, firstSuccess log k = some v → (memoryProxy method s memo k).1 = ⟨.ok v, false⟩) ∧
    (k.keyHashable = true → firstSuccess log k = none → (memoryProxy method s memo k).1 = ⟨(method s k).1, true⟩) := by
  unfold memoryProxy
  cases hh : k.keyHashable with
  | false =>
    simp only [Bool.false_eq_true, if_false]
    refine ⟨?_, fun _ => trivial, by simp, by simp⟩
    intro k'
    rw [hm k', firstSuccess_append]
    cases k.keyEq k' <;> simp [Except.toOption]
  | true =>
    simp only [if_true]
    cases hg : memoGet memo k with
    | some v =>
      simp only
      have hv : firstSuccess log k = some v := by rw [← hm k]; exact hg
      refine ⟨?_, by simp, ?_, ?_⟩
      · intro k'
        rw [hm k', firstSuccess_append]
        cases hk : k.keyEq k' with
        | false => simp
        | true =>
          have : firstSuccess log k' = some v := by
            rw [← hm k', ← memoGet_congr hO memo hk]; exact hg
          rw [this]; rfl
      · intro _ w hw; rw [hv] at hw; cases hw; trivial
      · intro _ hn; rw [hv] at hn; cases hn
    | none =>
      simp only
      have hv : firstSuccess log k = none := by rw [← hm k]; exact hg
      cases hr : method s k with
      | mk r s' =>
        cases r with
        | ok v =>
          refine ⟨?_, by simp, ?_, ?_⟩
          · intro k'
            simp only
            rw [memoGet_append, hm k', firstSuccess_append]
            cases k.keyEq k' <;> rfl
          · intro _ w hw; rw [hv] at hw; cases hw
          · intro _ _; rfl
        | error e =>
          refine ⟨?_, by simp, ?_, ?_⟩
          · intro k'
            simp only
            rw [hm k', firstSuccess_append]
            cases k.keyEq k' <;> simp [Except.toOption]
          · intro _ w hw; rw [hv] at hw; cases hw
          · intro _ _; rfl

theorem memoryRun_spec {O : PyObjects} (hO : Spec.EqLaws O) {σ : Type} (method : Method O σ)
    (memo : List (CallArgs O × O.Obj)) (log : List (CallArgs O × CallResult O)) (hm : MemoMatches memo log)
    (hist : List (σ × CallArgs O)) (i : Nat) (s : σ) (k : CallArgs O) (hi : hist[i]? = some (s, k)) :
    let outs := memoryRun method memo hist
    let past := log ++ ((hist.map Prod.snd).zip outs).take i
    ∃ r, outs[i]? = some r ∧
    (k.keyHashable = false → r = ⟨.error .typeError, false⟩) ∧
    (k.keyHashable = true → ∀ v, firstSuccess past k = some v → r = ⟨.ok v, false⟩) ∧
    (k.keyHashable = true → firstSuccess past k = none → r = ⟨(method s k).1, true⟩) := by
  induction hist generalizing memo log i with
  | nil => simp at hi
  | cons e hist ih =>
    obtain ⟨s0, k0⟩ := e
    have hspec := memoryProxy_spec hO method s0 memo k0 log hm
    cases i with
    | zero =>
      simp at hi
      obtain ⟨rfl, rfl⟩ := hi
      refine ⟨_, rfl, ?_⟩
      simp only [List.take_zero, List.append_nil]
      exact hspec.2
    | succ i =>
      have := ih (memoryProxy method s0 memo k0).2.2 (log ++ [(k0, (memoryProxy method s0 memo k0).1)]) hspec.1 i
        (by simpa using hi)
      simp only [memoryRun, List.getElem?_cons_succ, List.map_cons, List.zip_cons_cons, List.take_succ_cons]
      simp only [List.append_assoc, List.singleton_append] at this
      exact this

/-- For any method, stateful or not, any call of any history: an equal key that succeeded before
gives the first such result without calling the method; otherwise the method is called once and its
outcome passed on.  (Unhashable arguments raise `TypeError`.) -/
theorem memo_first_success {O : PyObjects} (hO : Spec.EqLaws O) {σ : Type} (method : Method O σ)
    (hist : List (σ × CallArgs O)) (i : Nat) (s : σ) (k : CallArgs O) (hi : hist[i]? = some (s, k)) :
    let outs := memoryRun method [] hist
    let past := ((hist.map Prod.snd).zip outs).take i
    ∃ r, outs[i]? = some r ∧
    (k.keyHashable = false → r = ⟨.error .typeError, false⟩) ∧
    (k.keyHashable = true → ∀ v, firstSuccess past k = some v → r = ⟨.ok v, false⟩) ∧
    (k.keyHashable = true → firstSuccess past k = none → r = ⟨(method s k).1, true⟩) := by
  have := memoryRun_spec hO method [] [] (fun k => rfl) hist i s k hi
  simpa using this

theorem memoryRun_length {O : PyObjects} {σ : Type} (method : Method O σ) (memo : List (CallArgs O × O.Obj))
    (hist : List (σ × CallArgs O)) : (memoryRun method memo hist).length = hist.length := by
  induction hist generalizing memo with
  | nil => rfl
  | cons e hist ih => obtain ⟨s, k⟩ := e; simp [memoryRun, ih]

/-- Transparency.  If the outcome of the method depends only on the arguments up to `==`, every call
of every history with hashable arguments gives exactly the method's outcome. -/
theorem memo_transparent {O : PyObjects} (hO : Spec.EqLaws O) {σ : Type} (method : Method O σ)
    (f : CallArgs O → Except PyErr O.Obj) (hf : ∀ s k, (method s k).1 = f k)
    (hresp : ∀ k k', k.keyEq k' = true → f k = f k')
    (hist : List (σ × CallArgs O)) (i : Nat) (s : σ) (k : CallArgs O) (hi : hist[i]? = some (s, k))
    (hk : k.keyHashable = true) :
    ((memoryRun method [] hist)[i]?).map CallResult.result = some (f k) := by
  induction i using Nat.strongRecOn generalizing s k with
  | _ i ih =>
    obtain ⟨r, hr, _, h2, h3⟩ := memo_first_success hO method hist i s k hi
    rw [hr]
    cases hfs : firstSuccess (((hist.map Prod.snd).zip (memoryRun method [] hist)).take i) k with
    | none => rw [h3 hk hfs]; simp [hf]
    | some v =>
      rw [h2 hk v hfs]
      unfold firstSuccess at hfs
      obtain ⟨e, he, hev⟩ := List.exists_of_findSome?_eq_some hfs
      split at hev
      · rename_i hek
        obtain ⟨j, hj, hje⟩ := List.getElem_of_mem he
        have hji : j < i := by rw [List.length_take] at hj; omega
        rw [List.getElem_take] at hje
        have hjl : j < ((hist.map Prod.snd).zip (memoryRun method [] hist)).length := by
          rw [List.length_take] at hj; omega
        rw [List.getElem_zip] at hje
        have hjh : j < hist.length := by simp [memoryRun_length] at hjl; exact hjl
        have hjo : j < (memoryRun method [] hist).length := by rw [memoryRun_length]; exact hjh
        have h1 : hist[j]? = some ((hist[j]).1, (hist[j]).2) := List.getElem?_eq_getElem hjh
        have hkey : (hist[j]).2 = e.1 := by rw [← hje]; simp
        have hres : (memoryRun method [] hist)[j] = e.2 := by rw [← hje]
        -- the earlier call succeeded, so its key was hashable
        have hhash : (hist[j]).2.keyHashable = true := by
          cases hh : (hist[j]).2.keyHashable with
          | true => rfl
          | false =>
            obtain ⟨r', hr', h4, _⟩ := memo_first_success hO method hist j _ _ h1
            rw [List.getElem?_eq_getElem hjo] at hr'
            cases hr'
            rw [hres] at h4
            rw [h4 hh] at hev
            cases hev
        have := ih j hji _ _ h1 hhash
        rw [List.getElem?_eq_getElem hjo, hres] at this
        simp only [Option.map_some, Option.some.injEq] at this
        rw [hkey] at this
        rw [this] at hev
        have hfv : f e.1 = .ok v := by
          cases hfe : f e.1 with
          | error x => rw [hfe] at hev; cases hev
          | ok w => rw [hfe] at hev; simp [Except.toOption] at hev; rw [hev]
        simp only [Option.map_some, Option.some.injEq]
        rw [← hresp e.1 k hek, hfv]
      · cases hev

/-- The method succeeds at most once per key: of two calls with equal keys that both called the
method, the earlier one raised. -/
theorem memo_at_most_one {O : PyObjects} (hO : Spec.EqLaws O) {σ : Type} (method : Method O σ)
    (hist : List (σ × CallArgs O)) (i j : Nat) (hij : i < j) (si sj : σ) (ki kj : CallArgs O)
    (hi : hist[i]? = some (si, ki)) (hj : hist[j]? = some (sj, kj)) (hk : ki.keyEq kj = true)
    (ri rj : CallResult O) (hri : (memoryRun method [] hist)[i]? = some ri)
    (hrj : (memoryRun method [] hist)[j]? = some rj) (hcj : rj.called = true) :
    ∃ e, ri.result = .error e := by
  cases hres : ri.result with
  | error e => exact ⟨e, rfl⟩
  | ok v =>
    exfalso
    obtain ⟨r, hr, h1, h2, _⟩ := memo_first_success hO method hist j sj kj hj
    rw [hrj] at hr; cases hr
    cases hh : kj.keyHashable with
    | false => rw [h1 hh] at hcj; cases hcj
    | true =>
      have hsome : (firstSuccess (((hist.map Prod.snd).zip (memoryRun method [] hist)).take j) kj).isSome = true := by
        unfold firstSuccess
        rw [List.findSome?_isSome_iff]
        refine ⟨(ki, ri), ?_, ?_⟩
        · have hz : ((hist.map Prod.snd).zip (memoryRun method [] hist))[i]? = some (ki, ri) := by
            rw [List.getElem?_zip_eq_some]
            exact ⟨by simp [hi], hri⟩
          rw [List.mem_iff_getElem?]
          exact ⟨i, by rw [List.getElem?_take_of_lt hij]; exact hz⟩
        · simp [hk, hres, Except.toOption]
      obtain ⟨w, hw⟩ := Option.isSome_iff_exists.1 hsome
      rw [h2 hh w hw] at hcj
      cases hcj

theorem tupleEq_iff {α : Type} {eq : α → α → Bool} (l m : List α) :
    tupleEq eq l m = true ↔ l.length = m.length ∧ ∀ (i : Nat) a b, l[i]? = some a → m[i]? = some b → eq a b = true := by
  induction l generalizing m with
  | nil => cases m <;> simp [tupleEq]
  | cons x l ih =>
    cases m with
    | nil => simp [tupleEq]
    | cons y m =>
      simp only [tupleEq, Bool.and_eq_true, ih, List.length_cons, Nat.add_right_cancel_iff]
      constructor
      · rintro ⟨h1, h2, h3⟩
        refine ⟨h2, fun i a b ha hb => ?_⟩
        cases i with
        | zero => simp only [List.getElem?_cons_zero, Option.some.injEq] at ha hb; subst ha; subst hb; exact h1
        | succ i => exact h3 i a b (by simpa using ha) (by simpa using hb)
      · rintro ⟨h2, h3⟩
        exact ⟨h3 0 x y rfl rfl, h2, fun i a b ha hb => h3 (i + 1) a b (by simpa using ha) (by simpa using hb)⟩

theorem keyEq_iff {O : PyObjects} (k k' : CallArgs O) : k.keyEq k' = true ↔ Spec.SameCall k k' := by
  simp only [CallArgs.keyEq, Bool.and_eq_true, tupleEq_iff, beq_iff_eq]
  constructor
  · rintro ⟨⟨h1, h2⟩, h3, h4⟩
    refine ⟨h1, h2, ?_, fun i p q hp hq => (h4 i p q hp hq).2⟩
    apply List.ext_getElem? 
    intro i
    simp only [List.getElem?_map]
    cases hp : k.params[i]? with
    | none => rw [List.getElem?_eq_none (by rw [← h3]; exact List.getElem?_eq_none_iff.1 hp)]
    | some p =>
      cases hq : k'.params[i]? with
      | none =>
        have := List.getElem?_eq_none_iff.1 hq
        have h5 := (List.getElem?_eq_some_iff.1 hp).1
        omega
      | some q => simp [(h4 i p q hp hq).1]
  · rintro ⟨h1, h2, h3, h4⟩
    refine ⟨⟨h1, h2⟩, by simpa using congrArg List.length h3, fun i p q hp hq => ⟨?_, h4 i p q hp hq⟩⟩
    have := congrArg (·[i]?) h3
    simpa [hp, hq] using this

theorem keyHashable_iff {O : PyObjects} (k : CallArgs O) : k.keyHashable = true ↔ Spec.Hashable k := by
  simp [CallArgs.keyHashable, Spec.Hashable]

theorem firstSuccess_none {O : PyObjects} (log : List (CallArgs O × CallResult O)) (k : CallArgs O) :
    firstSuccess log k = none ↔ Spec.NoSuccess log k := by
  unfold firstSuccess Spec.NoSuccess
  rw [List.findSome?_eq_none_iff]
  constructor
  · intro h e he hs
    have := h e he
    rw [if_pos ((keyEq_iff _ _).2 hs)] at this
    cases hr : e.2.result with
    | error x => exact ⟨x, rfl⟩
    | ok v => rw [hr] at this; cases this
  · intro h e he
    split
    · rename_i hk
      obtain ⟨x, hx⟩ := h e he ((keyEq_iff _ _).1 hk)
      rw [hx]; rfl
    · rfl

theorem firstSuccess_some {O : PyObjects} {log : List (CallArgs O × CallResult O)} {k : CallArgs O} {v : O.Obj}
    (h : Spec.FirstSuccess log k v) : firstSuccess log k = some v := by
  obtain ⟨before, k', r, after, rfl, hs, hr, hb⟩ := h
  have := (firstSuccess_none before k).2 hb
  unfold firstSuccess at *
  rw [List.findSome?_append, this, List.findSome?_cons, if_pos ((keyEq_iff _ _).2 hs), hr]
  rfl

/-- C23: for any method, stateful or not, any call of any history: unhashable arguments raise `TypeError` without calling the method;
if the same call succeeded before, its first result is returned without calling the method; otherwise the method is called once and
its outcome passed on.  (One of the three cases always applies.) -/
theorem C23_first_success_wins {O : PyObjects} (hO : Spec.EqLaws O) {σ : Type} (method : Method O σ)
    (hist : List (σ × CallArgs O)) (i : Nat) (s : σ) (k : CallArgs O) (hi : hist[i]? = some (s, k)) :
    let outs := memoryRun method [] hist
    let past := ((hist.map Prod.snd).zip outs).take i
    ∃ r, outs[i]? = some r ∧
    (¬ Spec.Hashable k → r = ⟨.error .typeError, false⟩) ∧
    (Spec.Hashable k → ∀ v, Spec.FirstSuccess past k v → r = ⟨.ok v, false⟩) ∧
    (Spec.Hashable k → Spec.NoSuccess past k → r = ⟨(method s k).1, true⟩) := by
  obtain ⟨r, h0, h1, h2, h3⟩ := memo_first_success hO method hist i s k hi
  refine ⟨r, h0, fun h => h1 ?_, fun h v hv => h2 ((keyHashable_iff k).2 h) v (firstSuccess_some hv),
    fun h hn => h3 ((keyHashable_iff k).2 h) ((firstSuccess_none _ k).2 hn)⟩
  cases hh : k.keyHashable with
  | false => rfl
  | true => exact absurd ((keyHashable_iff k).1 hh) h

/-- C23: transparency.  If the outcome of the method depends only on the arguments up to `==`, every call of every history with
hashable arguments gives exactly the method's outcome. -/
theorem C23_transparent {O : PyObjects} (hO : Spec.EqLaws O) {σ : Type} (method : Method O σ)
    (f : CallArgs O → Except PyErr O.Obj) (hf : ∀ s k, (method s k).1 = f k)
    (hresp : ∀ k k', Spec.SameCall k k' → f k = f k')
    (hist : List (σ × CallArgs O)) (i : Nat) (s : σ) (k : CallArgs O) (hi : hist[i]? = some (s, k)) (hk : Spec.Hashable k) :
    ((memoryRun method [] hist)[i]?).map CallResult.result = some (f k) :=
  memo_transparent hO method f hf (fun k k' h => hresp k k' ((keyEq_iff k k').1 h)) hist i s k hi ((keyHashable_iff k).2 hk)

/-- C23: the method succeeds at most once per call: of two same calls that both called the method, the earlier one raised. -/
theorem C23_at_most_one_success {O : PyObjects} (hO : Spec.EqLaws O) {σ : Type} (method : Method O σ)
    (hist : List (σ × CallArgs O)) (i j : Nat) (hij : i < j) (si sj : σ) (ki kj : CallArgs O)
    (hi : hist[i]? = some (si, ki)) (hj : hist[j]? = some (sj, kj)) (hk : Spec.SameCall ki kj)
    (ri rj : CallResult O) (hri : (memoryRun method [] hist)[i]? = some ri)
    (hrj : (memoryRun method [] hist)[j]? = some rj) (hcj : rj.called = true) :
    ∃ e, ri.result = .error e :=
  memo_at_most_one hO method hist i j hij si sj ki kj hi hj ((keyEq_iff ki kj).2 hk) ri rj hri hrj hcj

/-- Objects: natural numbers compared modulo 10 (a coarse `==`); numbers above 100 are unhashable. -/
def sampleObjects : PyObjects := ⟨Nat, fun a b => a % 10 == b % 10, fun a => a ≤ 100⟩

theorem sampleObjects_laws : Spec.EqLaws sampleObjects where
  refl := by intro a; simp [sampleObjects]
  symm := by intro a b; simp only [sampleObjects, beq_iff_eq]; exact Eq.symm
  trans := by intro a b c; simp only [sampleObjects, beq_iff_eq]; exact Eq.trans

/-- A counter: returns the number of calls so far; fails on arguments equal to 7. -/
def sampleMethod : Method sampleObjects Nat := fun s k =>
  match k.args with
  | [(a : Nat)] => if a % 10 = 7 then (.error .valueError, s + 1) else (.ok s, s + 1)
  | _ => (.ok s, s + 1)

example : (memoryRun (O := sampleObjects) sampleMethod []
      [(0, ⟨[(7 : Nat)], []⟩), (1, ⟨[(17 : Nat)], []⟩), (2, ⟨[(3 : Nat)], []⟩), (3, ⟨[(13 : Nat)], []⟩), (4, ⟨[(200 : Nat)], []⟩)]).map
      CallResult.called = [true, true, true, false, false] := by decide

/-- C23: the order of keyword arguments is part of the key: the same call written in two orders is
computed twice. -/
theorem C23_keyword_order_matters :
    (memoryRun (O := sampleObjects) sampleMethod []
      [(0, ⟨[], [(u!"a", (1 : Nat)), (u!"b", (2 : Nat))]⟩), (1, ⟨[], [(u!"b", (2 : Nat)), (u!"a", (1 : Nat))]⟩)]).map
      CallResult.called = [true, true] := by decide

end Cjk
