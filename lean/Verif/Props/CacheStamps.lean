import Verif.Spec.CacheStamps
import Verif.Props.SmartCache
/-!
# C155: replaced dependencies and arbitrary time stamps
-/

namespace Cjk
open Py

variable {P : PickleObjects} {order : List Path → List Path} {method : DiskMethod P} {file : Path} {deps : List Dep}

/-! ## The cache file and the kept result -/

theorem storedBytes_picklable (hp : Spec.Picklable P) (o a p : P.Obj) :
    storedBytes P o a p = ((P.dump a).1 ++ (P.dump p).1 ++ (P.dump o).1, none) := by
  unfold storedBytes
  have ha := hp a
  have hpp := hp p
  have ho := hp o
  cases h1 : P.dump a with
  | mk b1 r1 =>
    cases h2 : P.dump p with
    | mk b2 r2 =>
      cases h3 : P.dump o with
      | mk b3 r3 =>
        rw [h1] at ha; rw [h2] at hpp; rw [h3] at ho
        cases ha; cases hpp; cases ho
        rfl

/-- What is read from the file of a kept result. -/
theorem loadCached_kept (hP : PickleSpec P) (hp : Spec.Picklable P) (o a p a' p' : P.Obj) :
    (P.eq a a' = .ok true → P.eq p p' = .ok true → P.isNone o = false → loadCached P (storedBytes P o a p).1 a' p' = some o) ∧
    (¬ (P.eq a a' = .ok true ∧ P.eq p p' = .ok true ∧ P.isNone o = false) → loadCached P (storedBytes P o a p).1 a' p' = none) := by
  constructor
  · intro h1 h2 hn
    have la := hP.load_dump a ((P.dump p).1 ++ (P.dump o).1) (hp a)
    have lp := hP.load_dump p (P.dump o).1 (hp p)
    have lo := hP.load_dump o [] (hp o)
    rw [List.append_nil] at lo
    rw [storedBytes_picklable hp]
    unfold loadCached
    simp only [Bind.bind, Except.bind, List.append_assoc, la, lp, h1, h2, if_true, lo, hn]
    rfl
  · intro h
    cases hl : loadCached P (storedBytes P o a p).1 a' p' with
    | none => rfl
    | some r =>
      obtain ⟨_, h2, h3, h4, _⟩ := loadCached_prefix hP o a p _ (List.prefix_refl _) a' p' r hl
      exact absurd ⟨h3, h4, h2⟩ h

/-- The four ways a call of the proxy can go. -/
theorem proxy_cases (hp : Spec.Picklable P) (d : Disk) (a p : P.Obj) :
    (∃ e, tryCache P order d.fs file a p deps = .error e ∧ diskProxy P order method file deps d a p = ⟨.error e, d, false⟩) ∨
    (∃ o, tryCache P order d.fs file a p deps = .ok (some o) ∧ diskProxy P order method file deps d a p = ⟨.ok o, d, false⟩) ∨
    (tryCache P order d.fs file a p deps = .ok none ∧ ∃ e, method d.fs a p = .error e ∧ diskProxy P order method file deps d a p = ⟨.error e, d, true⟩) ∨
    (tryCache P order d.fs file a p deps = .ok none ∧ ∃ o, method d.fs a p = .ok o ∧
      diskProxy P order method file deps d a p = ⟨.ok o, { d with fs := d.fs.write file (storedBytes P o a p).1 d.now }, true⟩) := by
  unfold diskProxy
  cases ht : tryCache P order d.fs file a p deps with
  | error e => exact Or.inl ⟨e, rfl, rfl⟩
  | ok c =>
    cases c with
    | some o => exact Or.inr (Or.inl ⟨o, rfl, rfl⟩)
    | none =>
      cases hm : method d.fs a p with
      | error e => exact Or.inr (Or.inr (Or.inl ⟨rfl, e, rfl, rfl⟩))
      | ok o =>
        refine Or.inr (Or.inr (Or.inr ⟨rfl, o, rfl, ?_⟩))
        simp only [storedBytes_picklable hp]

/-- The disk and what is known from watching it. -/
structure StampInv (method : DiskMethod P) (file : Path) (d : Disk) (w : Spec.Watched P) : Prop where
  clock : w.clock = d.now
  contents : ∀ q, q ≠ file → (d.fs q).map File.bytes = w.contents q
  nothing : w.kept = none → d.fs file = none
  kept : ∀ k, w.kept = some k → d.fs file = some ⟨(storedBytes P k.obj k.args k.params).1, k.time⟩ ∧
    ∃ fs : FS, (∀ q, q ≠ file → (fs q).map File.bytes = k.contents q) ∧ method fs k.args k.params = .ok k.obj

theorem stampInv_step (hp : Spec.Picklable P) {d : Disk} {w : Spec.Watched P} (h : StampInv method file d w) (e : StampEv P) (he : ∀ p b, e = .write p b → p ≠ file) :
    StampInv method file (stampStep order method file deps d e).1 (w.see file (e, (stampStep order method file deps d e).2)) := by
  cases e with
  | clock t => exact ⟨rfl, h.contents, h.nothing, h.kept⟩
  | write p b =>
    have hpf := he p b rfl
    have hf : (d.fs.write p b d.now) file = d.fs file := if_neg (fun x : file = p => hpf x.symm)
    refine ⟨h.clock, fun q hq => ?_, fun hk => ?_, fun k hk => ?_⟩
    · show ((d.fs.write p b d.now) q).map File.bytes = if q = p then some b else w.contents q
      unfold FS.write
      split
      · rfl
      · exact h.contents q hq
    · exact hf.trans (h.nothing hk)
    · exact ⟨hf.trans (h.kept k hk).1, (h.kept k hk).2⟩
  | touch p t =>
    have hc : ∀ q, ((d.fs.touch p t) q).map File.bytes = (d.fs q).map File.bytes := by
      intro q
      unfold FS.touch
      split
      · cases d.fs q <;> rfl
      · rfl
    by_cases hpf : p = file
    · subst hpf
      have hs : w.see p (StampEv.touch p t, (stampStep order method p deps d (.touch p t)).2) = { w with kept := w.kept.map (fun k => { k with time := t }) } := if_pos rfl
      rw [hs]
      refine ⟨h.clock, fun q hq => (hc q).trans (h.contents q hq), fun hk => ?_, fun k hk => ?_⟩
      · have := h.nothing (by simpa using hk)
        show (d.fs.touch p t) p = none
        simp [FS.touch, this]
      · have hk' : w.kept.map (fun k => { k with time := t }) = some k := hk
        cases hw : w.kept with
        | none => rw [hw] at hk'; cases hk'
        | some k0 =>
          rw [hw] at hk'
          cases hk'
          obtain ⟨h1, h2⟩ := h.kept k0 hw
          exact ⟨by show (d.fs.touch p t) p = _; simp [FS.touch, h1], h2⟩
    · have hs : w.see file (StampEv.touch p t, (stampStep order method file deps d (.touch p t)).2) = w := if_neg hpf
      rw [hs]
      have hf : (d.fs.touch p t) file = d.fs file := if_neg (fun x : file = p => hpf x.symm)
      exact ⟨h.clock, fun q hq => (hc q).trans (h.contents q hq), fun hk => hf.trans (h.nothing hk), fun k hk => ⟨hf.trans (h.kept k hk).1, (h.kept k hk).2⟩⟩
  | remove p =>
    refine ⟨h.clock, fun q hq => ?_, fun hk => ?_, fun k hk => ?_⟩
    · show ((d.fs.remove p) q).map File.bytes = if q = p then none else w.contents q
      unfold FS.remove
      split
      · rfl
      · exact h.contents q hq
    · have hk' : (if p = file then none else w.kept) = none := hk
      show (if file = p then none else d.fs file) = none
      by_cases hpf : p = file
      · rw [if_pos hpf.symm]
      · rw [if_neg (fun x => hpf x.symm)]
        rw [if_neg hpf] at hk'
        exact h.nothing hk'
    · have hk' : (if p = file then none else w.kept) = some k := hk
      by_cases hpf : p = file
      · rw [if_pos hpf] at hk'; cases hk'
      · rw [if_neg hpf] at hk'
        obtain ⟨h1, h2⟩ := h.kept k hk'
        refine ⟨?_, h2⟩
        show (if file = p then none else d.fs file) = _
        rw [if_neg (fun x => hpf x.symm)]
        exact h1
  | call a p =>
    rcases proxy_cases (order := order) (method := method) (file := file) (deps := deps) hp d a p with ⟨e, _, hr⟩ | ⟨o, _, hr⟩ | ⟨_, e, _, hr⟩ | ⟨_, o, hm, hr⟩
    · simp only [stampStep, hr, Spec.Watched.see]; exact h
    · simp only [stampStep, hr, Spec.Watched.see]; exact h
    · simp only [stampStep, hr, Spec.Watched.see]; exact h
    · simp only [stampStep, hr, Spec.Watched.see]
      refine ⟨h.clock, fun q hq => ?_, (fun hk => by cases hk), fun k hk => ?_⟩
      · simp only [FS.write, if_neg hq]
        exact h.contents q hq
      · cases hk
        refine ⟨?_, d.fs, fun q hq => h.contents q hq, hm⟩
        simp only [FS.write, if_true, h.clock]

theorem stampInv_run (hp : Spec.Picklable P) (evs : List (StampEv P)) : ∀ {d : Disk} {w : Spec.Watched P}, StampInv method file d w → Spec.OthersAway file evs →
    StampInv method file (stampDisk order method file deps d evs) (w.seeAll file (stampTrace order method file deps d evs)) := by
  induction evs with
  | nil => intro d w h _; exact h
  | cons e evs ih =>
    intro d w h ha
    exact ih (stampInv_step hp h e (fun p b hb => ha p b (by simp [hb]))) (fun p b hb => ha p b (by simp [hb]))

theorem stampInv_start {d : Disk} (h0 : d.fs file = none) : StampInv method file d (Spec.Watched.start d) :=
  ⟨rfl, fun _ _ => rfl, fun _ => h0, fun k hk => by cases hk⟩

/-! ## One call -/

theorem call_of_inv (hP : PickleSpec P) (hp : Spec.Picklable P) (ho : Spec.SetOrder order) {d : Disk} {w : Spec.Watched P} (h : StampInv method file d w)
    (hg : Spec.GoodDeps d.fs deps) (a p : P.Obj) :
    (∀ k, w.kept = some k → Spec.Answers d.fs deps k a p → tryCache P order d.fs file a p deps = .ok (some k.obj)) ∧
    ((∀ k, w.kept = some k → ¬ Spec.Answers d.fs deps k a p) → tryCache P order d.fs file a p deps = .ok none) := by
  obtain ⟨b, hb, hb'⟩ := C26_needs_update_exact order ho d.fs file deps hg
  constructor
  · intro k hk hans
    obtain ⟨hf, _⟩ := h.kept k hk
    have hfalse : b = false := by
      cases b with
      | false => rfl
      | true => exact absurd (hb'.1 rfl _ hf) hans.notNewer
    subst hfalse
    unfold tryCache
    simp only [hb, Bind.bind, Except.bind, Bool.false_eq_true, if_false, hf]
    rw [(loadCached_kept hP hp k.obj k.args k.params a p).1 hans.args hans.params hans.some]
  · intro hno
    cases b with
    | true =>
      unfold tryCache
      simp only [hb, Bind.bind, Except.bind, if_true]
    | false =>
      cases hk : w.kept with
      | none => exact absurd (hb'.2 (fun f hf => by rw [h.nothing hk] at hf; cases hf)) (by simp)
      | some k =>
        obtain ⟨hf, _⟩ := h.kept k hk
        unfold tryCache
        simp only [hb, Bind.bind, Except.bind, Bool.false_eq_true, if_false, hf]
        rw [(loadCached_kept hP hp k.obj k.args k.params a p).2]
        rintro ⟨h1, h2, h3⟩
        refine hno k hk ⟨h1, h2, h3, fun hn => ?_⟩
        have := hb'.2 (fun f hf' => by rw [hf] at hf'; cases hf'; exact hn)
        cases this

section
variable (hP : PickleSpec P) (hp : Spec.Picklable P) (ho : Spec.SetOrder order) (d : Disk) (h0 : d.fs file = none) (evs : List (StampEv P)) (ha : Spec.OthersAway file evs)
include hP hp ho h0 ha

/-- **C155** (exactly).  However the clock is set, and whatever times the files and the cache file are given: a call whose dependencies exist gives the kept result, without running the
method, exactly if that result answers the call; otherwise the method runs, and the call ends as the method does on the files as they are. -/
theorem C155_exact (a p : P.Obj) :
    let now := stampDisk order method file deps d evs
    let w := (Spec.Watched.start d).seeAll file (stampTrace order method file deps d evs)
    let r := diskProxy P order method file deps now a p
    Spec.GoodDeps now.fs deps →
    (∀ k, w.kept = some k → Spec.Answers now.fs deps k a p → r.result = .ok k.obj ∧ r.called = false) ∧
    ((∀ k, w.kept = some k → ¬ Spec.Answers now.fs deps k a p) → r.result = method now.fs a p ∧ r.called = true) := by
  intro now w r hg
  have hi : StampInv method file now w := stampInv_run hp evs (stampInv_start h0) ha
  obtain ⟨h1, h2⟩ := call_of_inv hP hp ho hi hg a p
  rcases proxy_cases (order := order) (method := method) (file := file) (deps := deps) hp now a p with ⟨e, ht, hr⟩ | ⟨o, ht, hr⟩ | ⟨ht, e, hm, hr⟩ | ⟨ht, o, hm, hr⟩
  · refine ⟨fun k hk hans => ?_, fun hno => ?_⟩
    · rw [h1 k hk hans] at ht; cases ht
    · rw [h2 hno] at ht; cases ht
  · refine ⟨fun k hk hans => ?_, fun hno => ?_⟩
    · rw [h1 k hk hans] at ht; cases ht
      exact ⟨congrArg DiskResult.result hr, congrArg DiskResult.called hr⟩
    · rw [h2 hno] at ht; cases ht
  · refine ⟨fun k hk hans => ?_, fun _ => ⟨(congrArg DiskResult.result hr).trans hm.symm, congrArg DiskResult.called hr⟩⟩
    rw [h1 k hk hans] at ht; cases ht
  · refine ⟨fun k hk hans => ?_, fun _ => ⟨(congrArg DiskResult.result hr).trans hm.symm, congrArg DiskResult.called hr⟩⟩
    rw [h1 k hk hans] at ht; cases ht

omit hP ho in
/-- **C155** (what is kept).  The kept result is what the method gave for the arguments and the contents of the files of the call that stored it. -/
theorem C155_kept (k : Spec.Kept P) (hk : ((Spec.Watched.start d).seeAll file (stampTrace order method file deps d evs)).kept = some k) :
    ∃ fs : FS, (∀ q, q ≠ file → (fs q).map File.bytes = k.contents q) ∧ method fs k.args k.params = .ok k.obj :=
  ((stampInv_run hp evs (stampInv_start h0) ha).kept k hk).2

/-- **C155** (right calls).  For a method that is determined by its dependencies, a call is right when all files of the dependencies have the contents they had when the kept result
was stored, or one of them has a later time than the cache file. -/
theorem C155_right (hm : Spec.Determined P method deps) (hfile : ∀ x ∈ deps, ¬ Spec.DependsOn x file) (a p : P.Obj)
    (hg : Spec.GoodDeps (stampDisk order method file deps d evs).fs deps)
    (hc : ∀ k, ((Spec.Watched.start d).seeAll file (stampTrace order method file deps d evs)).kept = some k →
      Spec.SameContents (stampDisk order method file deps d evs).fs deps k ∨ Spec.Newer (stampDisk order method file deps d evs).fs k.time deps) :
    (diskProxy P order method file deps (stampDisk order method file deps d evs) a p).result = method (stampDisk order method file deps d evs).fs a p := by
  obtain ⟨h1, h2⟩ := C155_exact (method := method) (deps := deps) hP hp ho d h0 evs ha a p hg
  by_cases hans : ∃ k, ((Spec.Watched.start d).seeAll file (stampTrace order method file deps d evs)).kept = some k ∧
      Spec.Answers (stampDisk order method file deps d evs).fs deps k a p
  · obtain ⟨k, hk, hk'⟩ := hans
    rw [(h1 k hk hk').1]
    rcases hc k hk with hs | hn
    · obtain ⟨fs, hfs, hv⟩ := C155_kept (order := order) (deps := deps) hp d h0 evs ha k hk
      rw [← hm.args _ _ _ _ _ hk'.args hk'.params, ← hv]
      refine hm.files _ _ _ _ (fun x hx q hq => ?_)
      rw [hs x hx q hq, hfs q (fun e => hfile x hx (e ▸ hq))]
    · exact absurd hn hk'.notNewer
  · exact (h2 (fun k hk hk' => hans ⟨k, hk, hk'⟩)).1

/-- **C155** (wrong calls, exactly).  A call is wrong exactly if the kept result answers it and the method gives something else on the files as they are. -/
theorem C155_wrong (a p : P.Obj) (hg : Spec.GoodDeps (stampDisk order method file deps d evs).fs deps) :
    (diskProxy P order method file deps (stampDisk order method file deps d evs) a p).result ≠ method (stampDisk order method file deps d evs).fs a p ↔
    ∃ k, ((Spec.Watched.start d).seeAll file (stampTrace order method file deps d evs)).kept = some k ∧
      Spec.Answers (stampDisk order method file deps d evs).fs deps k a p ∧ method (stampDisk order method file deps d evs).fs a p ≠ .ok k.obj := by
  obtain ⟨h1, h2⟩ := C155_exact (method := method) (deps := deps) hP hp ho d h0 evs ha a p hg
  constructor
  · intro hne
    by_cases hans : ∃ k, ((Spec.Watched.start d).seeAll file (stampTrace order method file deps d evs)).kept = some k ∧
        Spec.Answers (stampDisk order method file deps d evs).fs deps k a p
    · obtain ⟨k, hk, hk'⟩ := hans
      refine ⟨k, hk, hk', fun he => hne ?_⟩
      rw [(h1 k hk hk').1, he]
    · exact absurd (h2 (fun k hk hk' => hans ⟨k, hk, hk'⟩)).1 hne
  · rintro ⟨k, hk, hk', hne⟩ he
    rw [(h1 k hk hk').1] at he
    exact hne he.symm

omit hP in
/-- **C155** (removed dependencies).  While a result is kept, a call raises `OSError` without running the method when a dependency is missing and those before it are there and not
newer than the cache file. -/
theorem C155_removed (pre post : List Dep) (q : Path) (hd : deps = pre ++ .file q :: post) (k : Spec.Kept P)
    (hk : ((Spec.Watched.start d).seeAll file (stampTrace order method file deps d evs)).kept = some k)
    (hg : Spec.GoodDeps (stampDisk order method file deps d evs).fs pre) (hn : ¬ Spec.Newer (stampDisk order method file deps d evs).fs k.time pre)
    (hq : (stampDisk order method file deps d evs).fs q = none) (a p : P.Obj) :
    (diskProxy P order method file deps (stampDisk order method file deps d evs) a p).result = .error .osError ∧
    (diskProxy P order method file deps (stampDisk order method file deps d evs) a p).called = false := by
  have hi := stampInv_run (order := order) (deps := deps) hp evs (stampInv_start (method := method) h0) ha
  obtain ⟨hf, _⟩ := hi.kept k hk
  have hu := ((C26_errors order ho (stampDisk order method file deps d evs).fs file pre (.file q) post hg).2.2 _ hf hn).2.1 q rfl hq
  rw [← hd] at hu
  have ht : tryCache P order (stampDisk order method file deps d evs).fs file a p deps = .error .osError := by
    unfold tryCache
    rw [hu]
    rfl
  unfold diskProxy
  rw [ht]
  exact ⟨rfl, rfl⟩

end

/-- **C155** (times in the future).  While a dependency has a later time than the clock, a result that is stored does not answer the next call: the method runs again. -/
theorem C155_future (hP : PickleSpec P) (hp : Spec.Picklable P) (ho : Spec.SetOrder order) (hfile : ∀ x ∈ deps, ¬ Spec.DependsOn x file) (d : Disk) (h0 : d.fs file = none)
    (evs : List (StampEv P)) (ha : Spec.OthersAway file evs) (hg : Spec.GoodDeps (stampDisk order method file deps d evs).fs deps)
    (hn : Spec.Newer (stampDisk order method file deps d evs).fs (stampDisk order method file deps d evs).now deps) (a p : P.Obj)
    (hc : (diskProxy P order method file deps (stampDisk order method file deps d evs) a p).called = true) (o : P.Obj)
    (hr : (diskProxy P order method file deps (stampDisk order method file deps d evs) a p).result = .ok o) (a' p' : P.Obj) :
    (diskProxy P order method file deps (diskProxy P order method file deps (stampDisk order method file deps d evs) a p).disk a' p').called = true := by
  have hi := stampInv_run (order := order) (deps := deps) hp evs (stampInv_start (method := method) h0) ha
  generalize stampDisk order method file deps d evs = now at *
  have hi2 := stampInv_step (order := order) (deps := deps) hp hi (.call a p) (fun _ _ h => by cases h)
  rcases proxy_cases (order := order) (method := method) (file := file) (deps := deps) hp now a p with ⟨e, _, hx⟩ | ⟨x, _, hx⟩ | ⟨_, e, _, hx⟩ | ⟨_, x, _, hx⟩
  · rw [hx] at hc; cases hc
  · rw [hx] at hc; cases hc
  · rw [hx] at hr; cases hr
  · simp only [stampStep, hx, Spec.Watched.see] at hi2
    rw [hx]
    have hsame : ∀ y ∈ deps, ∀ q, Spec.DependsOn y q → (now.fs.write file (storedBytes P x a p).1 now.now) q = now.fs q := by
      intro y hy q hq
      exact if_neg (fun e : q = file => hfile y hy (e ▸ hq))
    have hg2 : Spec.GoodDeps (now.fs.write file (storedBytes P x a p).1 now.now) deps :=
      ⟨hg.1, fun y hy q hq => by rw [hsame y hy q hq]; exact hg.2 y hy q hq⟩
    have hno := (call_of_inv hP hp ho hi2 hg2 a' p').2 (fun k hk hans => by
      cases hk
      obtain ⟨y, hy, q, hq, f, hf, hlt⟩ := hn
      exact hans.notNewer ⟨y, hy, q, hq, f, (hsame y hy q hq).trans hf, by rw [hi.clock]; exact hlt⟩)
    unfold diskProxy
    rw [hno]
    simp only
    split
    · rfl
    · split <;> rfl

/-! ## A restored file -/

/-- The file `data` is written at time 5, the method is called at time 9, and then an older version of `data` (two bytes, of time 3) is put back, as `cp -p` does. -/
def restored : List (StampEv unary) :=
  [.clock 5, .write u!"data" [7], .clock 9, .call (5 : Nat) (1 : Nat), .clock 20, .write u!"data" [7, 7], .touch u!"data" 3]

theorem unary_picklable : Spec.Picklable unary := fun _ => rfl

/-- **C155** (it fails).  After the older version was put back, a call returns 7, the result for the newer version, although the method gives 8; so does every later call until
a dependency or the cache file gets another time. -/
theorem C155_restored :
    (diskProxy unary id countBytes u!"cache" [.file u!"data"] (stampDisk id countBytes u!"cache" [.file u!"data"] freshDisk restored) (5 : Nat) (1 : Nat)).result = .ok (7 : Nat) ∧
    countBytes (stampDisk id countBytes u!"cache" [.file u!"data"] freshDisk restored).fs (5 : Nat) (1 : Nat) = .ok (8 : Nat) ∧
    ∀ t, (diskProxy unary id countBytes u!"cache" [.file u!"data"] (stampDisk id countBytes u!"cache" [.file u!"data"] freshDisk (restored ++ [.clock t])) (5 : Nat) (1 : Nat)).result =
      .ok (7 : Nat) :=
  ⟨rfl, rfl, fun _ => rfl⟩

/-- The hypotheses of the theorems are met by this history. -/
example : Spec.OthersAway u!"cache" restored ∧ Spec.GoodDeps (stampDisk id countBytes u!"cache" [.file u!"data"] freshDisk restored).fs [.file u!"data"] ∧
    (∃ k, ((Spec.Watched.start freshDisk).seeAll u!"cache" (stampTrace id countBytes u!"cache" [.file u!"data"] freshDisk restored)).kept = some k ∧ k.time = 9 ∧ k.obj = (7 : Nat)) := by
  refine ⟨?_, ⟨?_, ?_⟩, ⟨_, rfl, rfl, rfl⟩⟩
  · intro p b h
    simp only [restored, List.mem_cons, reduceCtorEq, StampEv.write.injEq, false_or, List.not_mem_nil, or_false] at h
    rcases h with ⟨rfl, _⟩ | ⟨rfl, _⟩ <;> decide
  · intro x hx; simp only [List.mem_singleton] at hx; subst hx; trivial
  · intro x hx q hq; simp only [List.mem_singleton] at hx; subst hx; cases hq; exact ⟨_, rfl⟩

/-- A dependency from the future (time 30 at time 9): the method runs in each call. -/
example : (diskProxy unary id countBytes u!"cache" [.file u!"data"]
    (stampDisk id countBytes u!"cache" [.file u!"data"] freshDisk [.clock 9, .touch u!"data" 30, .call (5 : Nat) (1 : Nat)]) (5 : Nat) (1 : Nat)).called = true := rfl

/-- A removed dependency. -/
example : (diskProxy unary id countBytes u!"cache" [.file u!"data"]
    (stampDisk id countBytes u!"cache" [.file u!"data"] freshDisk [.call (5 : Nat) (1 : Nat), .remove u!"data"]) (5 : Nat) (1 : Nat)).result = .error .osError := rfl

end Cjk
