import Verif.Spec.CacheStream
import Verif.Props.SmartCache
/-!
# Cache files of any name, files that cannot be opened (C114, C115)
-/

namespace Cjk
open Py

theorem endsWith_iff_suffix (s t : Str) : endsWith s t = true ↔ t <:+ s := by
  unfold endsWith
  exact List.isSuffixOf_iff_suffix

/-- The stream `sopen` gives for a file that can be opened. -/
theorem sopen_stream (file mode : Str) (hf : file ≠ u!"-") (hm : ¬ (c!"r" ∈ mode ∧ c!"w" ∈ mode)) (os : OpenCall → Option PyErr)
    (ho : ∀ c, os c = none) :
    (sopen os [] file mode).1 = .ok (.opened (if u!".bz2" <:+ file then .bz2 file mode else if u!".gz" <:+ file then .gzip file mode else .plain file mode)) := by
  unfold sopen
  have h0 : (decide (c!"r" ∈ mode) && decide (c!"w" ∈ mode)) = false := by
    rw [Bool.eq_false_iff, ne_eq, Bool.and_eq_true, decide_eq_true_eq, decide_eq_true_eq]; exact hm
  simp only [h0, Bool.false_eq_true, if_false, endsWith_iff_suffix, openFile, ho, if_neg hf]
  split
  · rfl
  · split <;> rfl

theorem readCache_eq (Z : Codecs) (os : OpenCall → Option PyErr) (ho : ∀ c, os c = none) (w : CacheWorld) (file : Path) (hf : file ≠ u!"-") :
    readCache Z os w file = ((fileBytes w.disk.fs file).map (Spec.codecFor Z file).decode, w) := by
  unfold readCache
  rw [sopen_stream file _ hf (by decide) os ho]
  unfold Spec.codecFor
  by_cases h1 : u!".bz2" <:+ file
  · simp only [if_pos h1]
  · by_cases h2 : u!".gz" <:+ file
    · simp only [if_neg h1, if_pos h2]
    · simp only [if_neg h1, if_neg h2]
      cases fileBytes w.disk.fs file <;> rfl

theorem storeStream_eq (P : PickleObjects) (Z : Codecs) (os : OpenCall → Option PyErr) (ho : ∀ c, os c = none) (w : CacheWorld) (file : Path)
    (hf : file ≠ u!"-") (o a p : P.Obj) :
    storeStream P Z os w file o a p =
      ((storedBytes P o a p).2, w.write file ((Spec.codecFor Z file).encode w.disk.now (storedBytes P o a p).1)) := by
  unfold storeStream
  rw [sopen_stream file _ hf (by decide) os ho]
  unfold Spec.codecFor
  by_cases h1 : u!".bz2" <:+ file
  · simp only [if_pos h1]
  · by_cases h2 : u!".gz" <:+ file
    · simp only [if_neg h1, if_pos h2]
    · simp only [if_neg h1, if_neg h2]

theorem codecFor_spec {Z : Codecs} (h1 : CodecSpec Z.gzip) (h2 : CodecSpec Z.bz2) (file : Path) : CodecSpec (Spec.codecFor Z file) := by
  unfold Spec.codecFor
  split
  · exact h2
  · split
    · exact h1
    · exact ⟨fun _ _ => rfl, fun _ _ _ h => h⟩

/-! ### The dependencies are the same files -/

theorem anyNewer_congr {fs fs' : FS} {t : Nat} {ps : List Path} (h : ∀ p ∈ ps, fs p = fs' p) : anyNewer fs t ps = anyNewer fs' t ps := by
  induction ps with
  | nil => rfl
  | cons p ps ih =>
    unfold anyNewer getmtime
    rw [h p (by simp), ih (fun q hq => h q (by simp [hq]))]

theorem depFiles_mem {order : List Path → List Path} (ho : Spec.SetOrder order) {d : Dep} {ps : List Path} (h : depFiles order d = .ok ps) :
    ∀ p ∈ ps, Spec.DependsOn d p := by
  cases d with
  | file q => cases h; intro p hp; rw [List.mem_singleton] at hp; subst hp; exact .file _
  | other => cases h
  | module m =>
    simp only [depFiles, moduleDependencies] at h
    cases hm : m.file with
    | none => rw [hm] at h; cases h
    | some f =>
      rw [hm] at h
      cases h
      intro p hp
      have hp := (ho _ _).1 hp
      rcases List.mem_cons.1 hp with rfl | hp
      · exact .moduleFile m _ hm
      · obtain ⟨x, hx, he⟩ := List.mem_filterMap.1 hp
        exact .imported m _ (by simpa using (show x = some p from he) ▸ hx)

theorem depsNewer_congr {order : List Path → List Path} (ho : Spec.SetOrder order) {fs fs' : FS} {t : Nat} {deps : List Dep}
    (h : ∀ d ∈ deps, ∀ p, Spec.DependsOn d p → fs p = fs' p) : depsNewer order fs t deps = depsNewer order fs' t deps := by
  induction deps with
  | nil => rfl
  | cons d ds ih =>
    unfold depsNewer
    rw [ih (fun x hx => h x (by simp [hx]))]
    cases hd : depFiles order d with
    | error e => rfl
    | ok ps =>
      show (anyNewer fs t ps >>= _) = (anyNewer fs' t ps >>= _)
      rw [anyNewer_congr (fun p hp => h d (by simp) p (depFiles_mem ho hd p hp))]

theorem needsUpdate_congr {order : List Path → List Path} (ho : Spec.SetOrder order) {fs fs' : FS} {file : Path} {deps : List Dep}
    (h : ∀ d ∈ deps, ∀ p, Spec.DependsOn d p → fs p = fs' p) (ht : (fs file).map File.mtime = (fs' file).map File.mtime) :
    needsUpdate order fs file deps = needsUpdate order fs' file deps := by
  unfold needsUpdate
  cases h1 : fs file with
  | none =>
    cases h2 : fs' file with
    | none => rfl
    | some g => rw [h1, h2] at ht; cases ht
  | some f =>
    cases h2 : fs' file with
    | none => rw [h1, h2] at ht; cases ht
    | some g =>
      rw [h1, h2] at ht
      have : f.mtime = g.mtime := by simpa using ht
      show depsNewer order fs f.mtime deps = depsNewer order fs' g.mtime deps
      rw [this, depsNewer_congr ho h]

/-! ### The simulation -/

section
variable {P : PickleObjects} {Z : Codecs} {order : List Path → List Path} {method : DiskMethod P} {file : Path} {deps : List Dep}

theorem stands_now {d : Disk} {w : CacheWorld} (h : Spec.Stands Z file d w) : w.disk.now = d.now := by
  rcases h with h | h <;> exact h.1

theorem stands_other {d : Disk} {w : CacheWorld} (h : Spec.Stands Z file d w) : ∀ q, q ≠ file → w.disk.fs q = d.fs q := by
  rcases h with h | h <;> exact h.2.1

theorem stands_mtime {d : Disk} {w : CacheWorld} (h : Spec.Stands Z file d w) : (w.disk.fs file).map File.mtime = (d.fs file).map File.mtime := by
  rcases h with ⟨_, _, h1, h2⟩ | ⟨_, _, b, t, h1, h2⟩
  · rw [h1, h2]
  · rw [h1, h2]; rfl

theorem stands_deps {d : Disk} {w : CacheWorld} (h : Spec.Stands Z file d w) (hfile : ∀ x ∈ deps, ¬ Spec.DependsOn x file) :
    ∀ x ∈ deps, ∀ p, Spec.DependsOn x p → w.disk.fs p = d.fs p := by
  intro x hx p hp
  refine stands_other h p ?_
  rintro rfl
  exact hfile x hx hp

theorem stands_write {d : Disk} {w : CacheWorld} (h : Spec.Stands Z file d w) (b : List Nat) :
    Spec.Stands Z file { d with fs := d.fs.write file ((Spec.codecFor Z file).decode b) d.now } (w.write file b) := by
  refine .inr ⟨(stands_now h : w.disk.now = d.now), ?_, b, d.now, ?_, ?_⟩
  · intro q hq
    show (w.disk.fs.write file b w.disk.now) q = (d.fs.write file _ d.now) q
    unfold FS.write
    rw [if_neg hq, if_neg hq, stands_other h q hq]
  · show (w.disk.fs.write file b w.disk.now) file = _
    unfold FS.write
    rw [if_pos rfl, stands_now h]
  · show (d.fs.write file _ d.now) file = _
    unfold FS.write
    rw [if_pos rfl]

theorem tryCacheStream_eq (ho : Spec.SetOrder order) (hfile : ∀ x ∈ deps, ¬ Spec.DependsOn x file) (hf : file ≠ u!"-") {d : Disk} {w : CacheWorld}
    (h : Spec.Stands Z file d w) (args params : P.Obj) :
    tryCacheStream P Z order (fun _ => none) w file args params deps = (tryCache P order d.fs file args params deps, w) := by
  unfold tryCacheStream tryCache
  rw [needsUpdate_congr ho (stands_deps h hfile) (stands_mtime h), readCache_eq Z _ (fun _ => rfl) w file hf]
  cases hn : needsUpdate order d.fs file deps with
  | error e => rfl
  | ok b =>
    cases b with
    | true => rfl
    | false =>
      simp only [Bind.bind, Except.bind, Bool.false_eq_true, if_false]
      rcases h with ⟨_, _, h1, h2⟩ | ⟨_, _, b, t, h1, h2⟩
      · unfold fileBytes; rw [h1, h2]; rfl
      · unfold fileBytes; rw [h1, h2]; rfl

theorem method_congr (hm : Spec.Determined P method deps) (hfile : ∀ x ∈ deps, ¬ Spec.DependsOn x file) {d : Disk} {w : CacheWorld}
    (h : Spec.Stands Z file d w) (args params : P.Obj) : method w.disk.fs args params = method d.fs args params :=
  hm.files _ _ _ _ (fun x hx q hq => by rw [stands_deps h hfile x hx q hq])

theorem stands_call (h1 : CodecSpec Z.gzip) (h2 : CodecSpec Z.bz2) (ho : Spec.SetOrder order) (hm : Spec.Determined P method deps)
    (hfile : ∀ x ∈ deps, ¬ Spec.DependsOn x file) (hf : file ≠ u!"-") {d : Disk} {w : CacheWorld} (h : Spec.Stands Z file d w) (args params : P.Obj) :
    (diskProxyStream P Z order (fun _ => none) method file deps w args params).result = (diskProxy P order method file deps d args params).result ∧
    (diskProxyStream P Z order (fun _ => none) method file deps w args params).called = (diskProxy P order method file deps d args params).called ∧
    Spec.Stands Z file (diskProxy P order method file deps d args params).disk
      (diskProxyStream P Z order (fun _ => none) method file deps w args params).world ∧
    (diskProxyStream P Z order (fun _ => none) method file deps w args params).world.stdinOpen = w.stdinOpen ∧
    (diskProxyStream P Z order (fun _ => none) method file deps w args params).world.stdoutOpen = w.stdoutOpen := by
  unfold diskProxyStream diskProxy
  rw [tryCacheStream_eq ho hfile hf h]
  cases ht : tryCache P order d.fs file args params deps with
  | error e => exact ⟨rfl, rfl, h, rfl, rfl⟩
  | ok r =>
    cases r with
    | some o => exact ⟨rfl, rfl, h, rfl, rfl⟩
    | none =>
      simp only [method_congr hm hfile h]
      cases hr : method d.fs args params with
      | error e => exact ⟨rfl, rfl, h, rfl, rfl⟩
      | ok o =>
        simp only [storeStream_eq P Z _ (fun _ => rfl) w file hf]
        have hw := stands_write h ((Spec.codecFor Z file).encode w.disk.now (storedBytes P o args params).1)
        rw [(codecFor_spec h1 h2 file).decode_encode] at hw
        cases hs : storedBytes P o args params with
        | mk b e =>
          rw [hs] at hw
          cases e with
          | none => exact ⟨rfl, rfl, hw, rfl, rfl⟩
          | some e => exact ⟨rfl, rfl, hw, rfl, rfl⟩

theorem stands_crash (h1 : CodecSpec Z.gzip) (h2 : CodecSpec Z.bz2) (ho : Spec.SetOrder order) (hm : Spec.Determined P method deps)
    (hfile : ∀ x ∈ deps, ¬ Spec.DependsOn x file) (hf : file ≠ u!"-") {d : Disk} {w : CacheWorld} (h : Spec.Stands Z file d w) (args params : P.Obj) (n : Nat) :
    ∃ m, Spec.Stands Z file (diskProxyCrash P order method file deps d args params m)
      (diskProxyStreamCrash P Z order (fun _ => none) method file deps w args params n) := by
  unfold diskProxyStreamCrash diskProxyCrash
  rw [tryCacheStream_eq ho hfile hf h]
  cases ht : tryCache P order d.fs file args params deps with
  | error e => exact ⟨0, h⟩
  | ok r =>
    cases r with
    | some o => exact ⟨0, h⟩
    | none =>
      simp only [method_congr hm hfile h]
      cases hr : method d.fs args params with
      | error e => exact ⟨0, h⟩
      | ok o =>
        simp only [sopen_stream file u!"wb" hf (by decide) (fun _ => none) (fun _ => rfl)]
        have key : ∃ m, Spec.Stands Z file { d with fs := d.fs.write file ((storedBytes P o args params).1.take m) d.now }
            (w.write file (((Spec.codecFor Z file).encode w.disk.now (storedBytes P o args params).1).take n)) := by
          have hp := (codecFor_spec h1 h2 file).decode_prefix w.disk.now (storedBytes P o args params).1 _
            (List.take_prefix n ((Spec.codecFor Z file).encode w.disk.now (storedBytes P o args params).1))
          have hw := stands_write h (((Spec.codecFor Z file).encode w.disk.now (storedBytes P o args params).1).take n)
          rw [List.prefix_iff_eq_take.1 hp] at hw
          exact ⟨_, hw⟩
        unfold Spec.codecFor at key
        by_cases e1 : u!".bz2" <:+ file
        · simpa only [if_pos e1] using key
        · by_cases e2 : u!".gz" <:+ file
          · simpa only [if_neg e1, if_pos e2] using key
          · simpa only [if_neg e1, if_neg e2] using key

theorem reachableStream_stands (h1 : CodecSpec Z.gzip) (h2 : CodecSpec Z.bz2) (ho : Spec.SetOrder order) (hm : Spec.Determined P method deps)
    (hfile : ∀ x ∈ deps, ¬ Spec.DependsOn x file) (hf : file ≠ u!"-") {w : CacheWorld} (hw : Spec.ReachableStream P Z order method file deps w) :
    ∃ d, Spec.Reachable P order method file deps d ∧ Spec.Stands Z file d w := by
  induction hw with
  | init w hn hg => exact ⟨w.disk, .init _ hn hg, .inl ⟨rfl, fun _ _ => rfl, hn, hn⟩⟩
  | wait w n _ ih =>
    obtain ⟨d, hd, hs⟩ := ih
    refine ⟨_, .wait d n hd, ?_⟩
    rcases hs with ⟨a, b, c⟩ | ⟨a, b, c⟩
    · exact .inl ⟨by show w.disk.now + n = d.now + n; rw [a], b, c⟩
    · exact .inr ⟨by show w.disk.now + n = d.now + n; rw [a], b, c⟩
  | edit w p bytes _ hp ht ih =>
    obtain ⟨d, hd, hs⟩ := ih
    have hc : ∀ f, d.fs file = some f → f.mtime < d.now := by
      intro f hf'
      have hmt := stands_mtime hs
      rw [hf'] at hmt
      cases hw : w.disk.fs file with
      | none => rw [hw] at hmt; cases hmt
      | some g =>
        rw [hw] at hmt
        have e : g.mtime = f.mtime := by simpa using hmt
        rw [← e, ← stands_now hs]
        exact ht g hw
    refine ⟨_, .edit d p bytes hd hp hc, ?_⟩
    have hother : ∀ q, q ≠ file → (w.disk.fs.write p bytes w.disk.now) q = (d.fs.write p bytes d.now) q := by
      intro q hq
      unfold FS.write
      rw [stands_now hs, stands_other hs q hq]
    rcases hs with ⟨a, b, c, e⟩ | ⟨a, b, x, t, c, e⟩
    · refine .inl ⟨a, hother, ?_, ?_⟩
      · show (w.disk.fs.write p bytes w.disk.now) file = none
        unfold FS.write; rw [if_neg (Ne.symm hp)]; exact c
      · show (d.fs.write p bytes d.now) file = none
        unfold FS.write; rw [if_neg (Ne.symm hp)]; exact e
    · refine .inr ⟨a, hother, x, t, ?_, ?_⟩
      · show (w.disk.fs.write p bytes w.disk.now) file = _
        unfold FS.write; rw [if_neg (Ne.symm hp)]; exact c
      · show (d.fs.write p bytes d.now) file = _
        unfold FS.write; rw [if_neg (Ne.symm hp)]; exact e
  | remove w _ ih =>
    obtain ⟨d, hd, hs⟩ := ih
    refine ⟨_, .remove d hd, .inl ⟨(stands_now hs : w.disk.now = d.now), ?_, ?_, ?_⟩⟩
    · intro q hq
      show (if q = file then none else w.disk.fs q) = if q = file then none else d.fs q
      rw [if_neg hq, if_neg hq, stands_other hs q hq]
    · show (if file = file then none else w.disk.fs file) = none
      rw [if_pos rfl]
    · show (if file = file then none else d.fs file) = none
      rw [if_pos rfl]
  | call w args params _ ih =>
    obtain ⟨d, hd, hs⟩ := ih
    exact ⟨_, .call d args params hd, (stands_call h1 h2 ho hm hfile hf hs args params).2.2.1⟩
  | crash w args params n _ ih =>
    obtain ⟨d, hd, hs⟩ := ih
    obtain ⟨m, hm'⟩ := stands_crash h1 h2 ho hm hfile hf hs args params n
    exact ⟨_, .crash d args params m hd, hm'⟩

/-- C114: whatever the name of the cache file (except `-`), every world that can be reached with it stands for one reached with a plain file, and every call
has the same result, calls the method or not alike, and leads again to worlds that stand for each other; the standard streams are left alone. -/
theorem C114_same_as_plain (h1 : CodecSpec Z.gzip) (h2 : CodecSpec Z.bz2) (ho : Spec.SetOrder order) (hm : Spec.Determined P method deps)
    (hfile : ∀ x ∈ deps, ¬ Spec.DependsOn x file) (hf : file ≠ u!"-") (w : CacheWorld) (hw : Spec.ReachableStream P Z order method file deps w) :
    ∃ d, Spec.Reachable P order method file deps d ∧ Spec.Stands Z file d w ∧ ∀ args params,
      let r := diskProxyStream P Z order (fun _ => none) method file deps w args params
      r.result = (diskProxy P order method file deps d args params).result ∧
      r.called = (diskProxy P order method file deps d args params).called ∧
      Spec.Stands Z file (diskProxy P order method file deps d args params).disk r.world ∧
      r.world.stdinOpen = w.stdinOpen ∧ r.world.stdoutOpen = w.stdoutOpen := by
  obtain ⟨d, hd, hs⟩ := reachableStream_stands h1 h2 ho hm hfile hf hw
  exact ⟨d, hd, hs, fun args params => stands_call h1 h2 ho hm hfile hf hs args params⟩

/-- C114: in every reachable world, also after a crash that left a part of a compressed file, a call gives what the method would give at that moment. -/
theorem C114_up_to_date (hP : PickleSpec P) (h1 : CodecSpec Z.gzip) (h2 : CodecSpec Z.bz2) (ho : Spec.SetOrder order) (hm : Spec.Determined P method deps)
    (hfile : ∀ x ∈ deps, ¬ Spec.DependsOn x file) (hf : file ≠ u!"-") (w : CacheWorld) (hw : Spec.ReachableStream P Z order method file deps w)
    (args params : P.Obj)
    (hpick : ∀ o, method w.disk.fs args params = .ok o → (P.dump args).2 = none ∧ (P.dump params).2 = none ∧ (P.dump o).2 = none) :
    (diskProxyStream P Z order (fun _ => none) method file deps w args params).result = method w.disk.fs args params := by
  obtain ⟨d, hd, hs⟩ := reachableStream_stands h1 h2 ho hm hfile hf hw
  rw [(stands_call h1 h2 ho hm hfile hf hs args params).1, method_congr hm hfile hs]
  rw [method_congr hm hfile hs] at hpick
  exact (C24_up_to_date hP order ho method file deps hm hfile d hd args params hpick).1

/-- C114: a result that was stored is used again: after a call that ran the method and returned `r` (not `None`), with no dependency newer, a call with equal
arguments returns `r` without running it. -/
theorem C114_reused (hP : PickleSpec P) (h1 : CodecSpec Z.gzip) (h2 : CodecSpec Z.bz2) (ho : Spec.SetOrder order) (hm : Spec.Determined P method deps)
    (hfile : ∀ x ∈ deps, ¬ Spec.DependsOn x file) (hf : file ≠ u!"-") (w : CacheWorld) (hw : Spec.ReachableStream P Z order method file deps w)
    (a p r : P.Obj) (hcall : (diskProxyStream P Z order (fun _ => none) method file deps w a p).called = true)
    (hres : (diskProxyStream P Z order (fun _ => none) method file deps w a p).result = .ok r) (hr : P.isNone r = false)
    (hgood : Spec.GoodDeps w.disk.fs deps) (hfresh : ¬ Spec.Newer w.disk.fs w.disk.now deps)
    (a' p' : P.Obj) (ha : P.eq a a' = .ok true) (hp : P.eq p p' = .ok true) :
    let w' := (diskProxyStream P Z order (fun _ => none) method file deps w a p).world
    (diskProxyStream P Z order (fun _ => none) method file deps w' a' p').result = .ok r ∧
    (diskProxyStream P Z order (fun _ => none) method file deps w' a' p').called = false := by
  obtain ⟨d, hd, hs⟩ := reachableStream_stands h1 h2 ho hm hfile hf hw
  obtain ⟨e1, e2, e3, _⟩ := stands_call h1 h2 ho hm hfile hf hs a p
  have hdeps := stands_deps hs hfile
  have hg : Spec.GoodDeps d.fs deps := ⟨hgood.1, fun x hx q hq => by rw [← hdeps x hx q hq]; exact hgood.2 x hx q hq⟩
  have hn : ¬ Spec.Newer d.fs d.now deps := by
    rintro ⟨x, hx, q, hq, f, hf', hlt⟩
    exact hfresh ⟨x, hx, q, hq, f, by rw [hdeps x hx q hq]; exact hf', by rw [stands_now hs]; exact hlt⟩
  have h27 := C27_last_result_cached hP order ho method method file deps d a p r hfile (e2 ▸ hcall) (e1 ▸ hres) hg hn 0
  obtain ⟨k1, k2, _⟩ := h27.1 a' p' hr ha hp
  have hd0 : ({ (diskProxy P order method file deps d a p).disk with now := d.now + 0 } : Disk) = (diskProxy P order method file deps d a p).disk := by
    have : (diskProxy P order method file deps d a p).disk.now = d.now := by
      unfold diskProxy
      split
      · rfl
      · rfl
      · split
        · rfl
        · split <;> rfl
    rw [Nat.add_zero, ← this]
  rw [hd0] at k1 k2
  obtain ⟨f1, f2, _⟩ := stands_call h1 h2 ho hm hfile hf e3 a' p'
  exact ⟨f1.trans k1, f2.trans k2⟩

/-! ### The name `-` -/

theorem sopen_dash (mode : Str) (os : OpenCall → Option PyErr) (hm : ¬ (c!"r" ∈ mode ∧ c!"w" ∈ mode)) :
    (sopen os [] u!"-" mode).1 = if c!"r" ∈ mode then .ok .stdin else .ok .stdout := by
  unfold sopen
  have h0 : (decide (c!"r" ∈ mode) && decide (c!"w" ∈ mode)) = false := by
    rw [Bool.eq_false_iff, ne_eq, Bool.and_eq_true, decide_eq_true_eq, decide_eq_true_eq]; exact hm
  simp only [h0, Bool.false_eq_true, if_false, endsWith_iff_suffix]
  rw [if_neg (by decide), if_neg (by decide), if_pos trivial]
  by_cases h : c!"r" ∈ mode
  · rw [if_pos (by simpa using h), if_pos h]
  · rw [if_neg (by simpa using h), if_neg h]

/-- C114 is false for the name `-`, which `sopen` takes for the standard streams: no call ever returns a value; a method that returns has run for nothing, and
afterwards standard output is closed. -/
theorem C114_standard_refuted (P : PickleObjects) (Z : Codecs) (order : List Path → List Path) (os : OpenCall → Option PyErr) (method : DiskMethod P)
    (deps : List Dep) (w : CacheWorld) (args params : P.Obj) :
    let r := diskProxyStream P Z order os method u!"-" deps w args params
    (∃ e, r.result = .error e) ∧
    (r.called = true → ∀ o, method w.disk.fs args params = .ok o → r.world.stdoutOpen = false) := by
  have key : ∀ w' : CacheWorld, w'.disk = w.disk → w'.stdoutOpen = w.stdoutOpen →
      (∃ e, (match method w'.disk.fs args params with
        | .error e => (⟨.error e, w', true⟩ : StreamResult P)
        | .ok o => match storeStream P Z os w' u!"-" o args params with
          | (none, w'') => ⟨.ok o, w'', true⟩
          | (some e, w'') => ⟨.error e, w'', true⟩).result = .error e) ∧
      ∀ o, method w.disk.fs args params = .ok o → (match method w'.disk.fs args params with
        | .error e => (⟨.error e, w', true⟩ : StreamResult P)
        | .ok o => match storeStream P Z os w' u!"-" o args params with
          | (none, w'') => ⟨.ok o, w'', true⟩
          | (some e, w'') => ⟨.error e, w'', true⟩).world.stdoutOpen = false := by
    intro w' hd _
    have hs : ∀ o, ∃ e w'', storeStream P Z os w' u!"-" o args params = (some e, w'') ∧ w''.stdoutOpen = false := by
      intro o
      unfold storeStream
      rw [sopen_dash _ os (by decide), if_neg (by decide)]
      simp only
      cases h : w'.stdoutOpen with
      | true => exact ⟨_, _, rfl, rfl⟩
      | false => exact ⟨_, _, rfl, h⟩
    rw [hd]
    cases hr : method w.disk.fs args params with
    | error e => exact ⟨⟨e, rfl⟩, by simp⟩
    | ok o =>
      obtain ⟨e, w'', h1, h2⟩ := hs o
      simp only [h1]
      exact ⟨⟨e, rfl⟩, fun _ _ => h2⟩
  unfold diskProxyStream tryCacheStream readCache
  rw [sopen_dash _ os (by decide), if_pos (by decide)]
  cases needsUpdate order w.disk.fs u!"-" deps with
  | error e => exact ⟨⟨e, rfl⟩, fun h => by cases h⟩
  | ok b =>
    cases b with
    | true => exact ⟨(key w rfl rfl).1, fun _ => (key w rfl rfl).2⟩
    | false => exact ⟨(key { w with stdinOpen := false } rfl rfl).1, fun _ => (key { w with stdinOpen := false } rfl rfl).2⟩

/-! ### Files that cannot be opened -/

theorem sopen_fails (file mode : Str) (hf : file ≠ u!"-") (hm : ¬ (c!"r" ∈ mode ∧ c!"w" ∈ mode)) (os : OpenCall → Option PyErr) :
    (sopen os [] file mode).1 = match os (Spec.opening file mode) with
      | some e => .error e
      | none => .ok (.opened (Spec.opening file mode)) := by
  unfold sopen Spec.opening
  have h0 : (decide (c!"r" ∈ mode) && decide (c!"w" ∈ mode)) = false := by
    rw [Bool.eq_false_iff, ne_eq, Bool.and_eq_true, decide_eq_true_eq, decide_eq_true_eq]; exact hm
  simp only [h0, Bool.false_eq_true, if_false, endsWith_iff_suffix, openFile, if_neg hf]
  by_cases e1 : u!".bz2" <:+ file
  · simp only [if_pos e1]; cases os (.bz2 file mode) <;> rfl
  · by_cases e2 : u!".gz" <:+ file
    · simp only [if_neg e1, if_pos e2]; cases os (.gzip file mode) <;> rfl
    · simp only [if_neg e1, if_neg e2]; cases os (.plain file mode) <;> rfl

/-- C115: a cache file that cannot be opened for reading is no obstacle: the method is called as if there were none (provided the dependencies exist), and the
only exceptions are those of the method and of storing. -/
theorem C115_unreadable (P : PickleObjects) (Z : Codecs) (ho : Spec.SetOrder order) (os : OpenCall → Option PyErr) (method : DiskMethod P)
    (file : Path) (hf : file ≠ u!"-") (deps : List Dep) (w : CacheWorld) (hgood : Spec.GoodDeps w.disk.fs deps) (args params : P.Obj)
    (hos : os (Spec.opening file u!"rb") ≠ none) :
    let r := diskProxyStream P Z order os method file deps w args params
    r.called = true ∧
    (∀ e, method w.disk.fs args params = .error e → r.result = .error e ∧ r.world = w) ∧
    (∀ o, method w.disk.fs args params = .ok o → os (Spec.opening file u!"wb") = none →
      r.result = (match (storedBytes P o args params).2 with | none => .ok o | some e => .error e)) := by
  have htry : tryCacheStream P Z order os w file args params deps = (.ok none, w) := by
    unfold tryCacheStream readCache
    rw [sopen_fails file _ hf (by decide) os]
    obtain ⟨b, hb, _⟩ := C26_needs_update_exact order ho w.disk.fs file deps hgood
    rw [hb]
    cases ho' : os (Spec.opening file u!"rb") with
    | none => exact absurd ho' hos
    | some e => cases b <;> rfl
  unfold diskProxyStream
  rw [htry]
  simp only
  cases hr : method w.disk.fs args params with
  | error e => exact ⟨rfl, fun e' he => by cases he; exact ⟨rfl, rfl⟩, fun o h => by cases h⟩
  | ok o =>
    have hst : os (Spec.opening file u!"wb") = none → (storeStream P Z os w file o args params).1 = (storedBytes P o args params).2 := by
      intro hw
      unfold storeStream
      rw [sopen_fails file _ hf (by decide) os, hw]
      unfold Spec.opening
      by_cases e1 : u!".bz2" <:+ file
      · simp only [if_pos e1]
      · by_cases e2 : u!".gz" <:+ file
        · simp only [if_neg e1, if_pos e2]
        · simp only [if_neg e1, if_neg e2]
    refine ⟨?_, fun e h => by (cases h), ?_⟩
    · cases hs : storeStream P Z os w file o args params with
      | mk x y => cases x <;> simp only [hs]
    · intro o' ho' hw
      cases ho'
      have := hst hw
      cases hs : storeStream P Z os w file o args params with
      | mk x y =>
        rw [hs] at this
        simp only at this
        rw [← this]
        cases x <;> simp only [hs]

theorem readCache_world (Z : Codecs) (os : OpenCall → Option PyErr) (w : CacheWorld) (file : Path) (hf : file ≠ u!"-") : (readCache Z os w file).2 = w := by
  unfold readCache
  rw [sopen_fails file _ hf (by decide) os]
  cases os (Spec.opening file u!"rb") with
  | some y => rfl
  | none =>
    unfold Spec.opening
    by_cases e1 : u!".bz2" <:+ file
    · simp only [if_pos e1]
    · by_cases e2 : u!".gz" <:+ file
      · simp only [if_neg e1, if_pos e2]
      · simp only [if_neg e1, if_neg e2]

theorem tryCacheStream_world (P : PickleObjects) (Z : Codecs) (os : OpenCall → Option PyErr) (w : CacheWorld) (file : Path) (hf : file ≠ u!"-") (deps : List Dep)
    (args params : P.Obj) : (tryCacheStream P Z order os w file args params deps).2 = w := by
  unfold tryCacheStream
  cases needsUpdate order w.disk.fs file deps with
  | error y => rfl
  | ok b =>
    cases b with
    | true => rfl
    | false =>
      have hr := readCache_world Z os w file hf
      cases hc : readCache Z os w file with
      | mk y z =>
        rw [hc] at hr
        cases y <;> simpa only [hc] using hr

/-- C115 is false for a cache file that cannot be written: a call that has to run the method raises the exception of opening the file although the method
returned a value, and no file changes.  Whether the method runs, and the answers given without it, are the same as with a file that can be written. -/
theorem C115_unwritable_exact (P : PickleObjects) (Z : Codecs) (os os' : OpenCall → Option PyErr) (method : DiskMethod P)
    (file : Path) (hf : file ≠ u!"-") (deps : List Dep) (w : CacheWorld) (args params : P.Obj) (e : PyErr)
    (hos : os (Spec.opening file u!"wb") = some e) (hsame : os (Spec.opening file u!"rb") = os' (Spec.opening file u!"rb")) :
    let r := diskProxyStream P Z order os method file deps w args params
    let r' := diskProxyStream P Z order os' method file deps w args params
    r.world = w ∧ r.called = r'.called ∧
    (r.called = false → r.result = r'.result) ∧
    (r.called = true → ∀ o, method w.disk.fs args params = .ok o → r.result = .error e) ∧
    (r.called = true → ∀ x, method w.disk.fs args params = .error x → r.result = .error x ∧ r'.result = .error x) := by
  have hw := tryCacheStream_world (order := order) P Z os w file hf deps args params
  have heq : tryCacheStream P Z order os w file args params deps = tryCacheStream P Z order os' w file args params deps := by
    unfold tryCacheStream readCache
    rw [sopen_fails file _ hf (by decide) os, sopen_fails file _ hf (by decide) os', hsame]
  have hst : ∀ o, storeStream P Z os w file o args params = (some e, w) := by
    intro o
    unfold storeStream
    rw [sopen_fails file _ hf (by decide) os, hos]
  unfold diskProxyStream
  rw [← heq]
  cases ht : tryCacheStream P Z order os w file args params deps with
  | mk x w' =>
    rw [ht] at hw
    change w' = w at hw
    subst hw
    cases x with
    | error y => exact ⟨rfl, rfl, fun _ => rfl, fun h => by (cases h), fun h => by (cases h)⟩
    | ok v =>
      cases v with
      | some o => exact ⟨rfl, rfl, fun _ => rfl, fun h => by (cases h), fun h => by (cases h)⟩
      | none =>
        simp only
        cases hr : method w'.disk.fs args params with
        | error y => exact ⟨rfl, rfl, fun _ => rfl, fun _ o h => by (cases h), fun _ x h => by (cases h; exact ⟨rfl, rfl⟩)⟩
        | ok o =>
          simp only [hst]
          refine ⟨trivial, ?_, fun h => by (cases h), fun _ _ _ => trivial, fun _ x h => by (cases h)⟩
          cases hs : storeStream P Z os' w' file o args params with
          | mk x y => cases x <;> simp only

end

/-! ### Non-vacuity -/

/-- A codec that marks every byte with a 1 and the end with a 0. -/
def markDecode : List Nat → List Nat
  | 1 :: x :: r => x :: markDecode r
  | _ => []

/-- The codec. -/
def markCodec : Codec := ⟨fun _ b => b.flatMap (fun x => [1, x]) ++ [0], markDecode⟩

theorem markDecode_one (x : Nat) : markDecode [x] = [] := by simp [markDecode]

theorem markCodec_spec : CodecSpec markCodec where
  decode_encode t b := by
    show markDecode (b.flatMap (fun x => [1, x]) ++ [0]) = b
    induction b with
    | nil => rfl
    | cons x b ih => simp only [List.flatMap_cons, List.cons_append, List.nil_append, markDecode, ih]
  decode_prefix t b pre h := by
    change pre <+: b.flatMap (fun x => [1, x]) ++ [0] at h
    show markDecode pre <+: b
    induction b generalizing pre with
    | nil =>
      match pre, h with
      | [], _ => exact List.nil_prefix
      | [x], _ => rw [markDecode_one]; exact List.nil_prefix
      | x :: y :: r, h => exact absurd h.length_le (by simp)
    | cons c b ih =>
      match pre, h with
      | [], _ => exact List.nil_prefix
      | [x], _ => rw [markDecode_one]; exact List.nil_prefix
      | x :: y :: r, h =>
        simp only [List.flatMap_cons, List.cons_append, List.nil_append, List.cons_prefix_cons] at h
        obtain ⟨rfl, rfl, h'⟩ := h
        exact List.cons_prefix_cons.2 ⟨rfl, ih r h'⟩

/-- A history with a compressed cache: a call, a crash of another call that leaves a part of the file, and a call that finds it. -/
example :
    let w0 : CacheWorld := ⟨freshDisk, true, true⟩
    let r1 := diskProxyStream unary ⟨markCodec, markCodec⟩ id (fun _ => none) countBytes u!"c.gz" [.file u!"data"] w0 (5 : Nat) (1 : Nat)
    let r2 := diskProxyStream unary ⟨markCodec, markCodec⟩ id (fun _ => none) countBytes u!"c.gz" [.file u!"data"] r1.world (5 : Nat) (1 : Nat)
    let w3 := diskProxyStreamCrash unary ⟨markCodec, markCodec⟩ id (fun _ => none) countBytes u!"c.gz" [.file u!"data"] r2.world (2 : Nat) (1 : Nat) 9
    let r4 := diskProxyStream unary ⟨markCodec, markCodec⟩ id (fun _ => none) countBytes u!"c.gz" [.file u!"data"] w3 (2 : Nat) (1 : Nat)
    r1.result = .ok (6 : Nat) ∧ r1.called = true ∧ r2.result = .ok (6 : Nat) ∧ r2.called = false ∧ r4.result = .ok (3 : Nat) ∧ r4.called = true := by
  exact ⟨rfl, rfl, rfl, rfl, rfl, rfl⟩

/-- With the name `-` the result 6 is lost and standard output is closed. -/
example :
    let r := diskProxyStream unary ⟨markCodec, markCodec⟩ id (fun _ => none) countBytes u!"-" [.file u!"data"] ⟨freshDisk, true, true⟩ (5 : Nat) (1 : Nat)
    r.result = .error .typeError ∧ r.called = true ∧ r.world.stdoutOpen = false := by
  exact ⟨rfl, rfl, rfl⟩

/-- A file that cannot be written. -/
example :
    let os : OpenCall → Option PyErr := fun c => if c = .plain u!"cache" u!"wb" then some .osError else none
    let r := diskProxyStream unary ⟨markCodec, markCodec⟩ id os countBytes u!"cache" [.file u!"data"] ⟨freshDisk, true, true⟩ (5 : Nat) (1 : Nat)
    r.result = .error .osError ∧ r.called = true := by
  exact ⟨rfl, rfl⟩

end Cjk
