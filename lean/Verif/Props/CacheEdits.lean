import Verif.Spec.CacheEdits
import Verif.Props.CacheObjects
/-!
# C149: dependencies that change while a call of the proxy runs
-/

namespace Cjk
open Py
open Spec (content contentAfter)

variable {P : PickleObjects}

/-! ## Contents of files -/

theorem contentAfter_append (q : Path) (c : Option (List Nat)) (l l' : List (EditEv P)) : contentAfter q c (l ++ l') = contentAfter q (contentAfter q c l) l' := by
  induction l generalizing c with
  | nil => rfl
  | cons e l ih => cases e <;> exact ih _

theorem content_write (fs : FS) (p q : Path) (b : List Nat) (t : Nat) : content (fs.write p b t) q = if p = q then some b else content fs q := by
  unfold content FS.write
  by_cases h : q = p
  · rw [if_pos h, if_pos h.symm]; rfl
  · rw [if_neg h, if_neg (fun x => h x.symm)]

theorem go_files (method : DiskMethod P) (file : Path) (w : EditWorld P) : (∀ q, q ≠ file → (w.go method file).1.fs q = w.fs q) ∧ (w.go method file).1.now = w.now := by
  unfold EditWorld.go
  split
  · exact ⟨fun _ _ => rfl, rfl⟩
  · exact ⟨fun _ _ => rfl, rfl⟩
  · split
    · exact ⟨fun _ _ => rfl, rfl⟩
    · split <;> exact ⟨fun _ _ => rfl, rfl⟩
  · split
    · exact ⟨fun _ _ => rfl, rfl⟩
    · split <;> exact ⟨fun _ _ => rfl, rfl⟩
  · split <;> exact ⟨fun _ _ => rfl, rfl⟩
  · split <;> exact ⟨fun q h => by simp [FS.write, h], rfl⟩

theorem content_step (method : DiskMethod P) (file : Path) (files : List Path) (w : EditWorld P) (e : EditEv P) {q : Path} (hq : q ≠ file) :
    content (editStep method file files w e).1.fs q = contentAfter q (content w.fs q) [e] := by
  cases e with
  | wait n => rfl
  | edit p b => exact content_write _ _ _ _ _
  | begin a p =>
    unfold editStep
    simp only
    split
    · split <;> rfl
    · rfl
  | go => exact congrArg (Option.map File.bytes) ((go_files method file w).1 q hq)
  | read p =>
    unfold editStep
    simp only
    split <;> rfl

theorem editRun_append (method : DiskMethod P) (file : Path) (files : List Path) (w : EditWorld P) (l l' : List (EditEv P)) :
    editRun method file files w (l ++ l') = editRun method file files (editRun method file files w l) l' := List.foldl_append

theorem content_run (method : DiskMethod P) (file : Path) (files : List Path) (w : EditWorld P) (evs : List (EditEv P)) {q : Path} (hq : q ≠ file) :
    content (editRun method file files w evs).fs q = contentAfter q (content w.fs q) evs := by
  induction evs generalizing w with
  | nil => rfl
  | cons e evs ih =>
    show content (editRun method file files (editStep method file files w e).1 evs).fs q = _
    rw [ih, content_step method file files w e hq, ← contentAfter_append]
    rfl

/-! ## What is invariant -/

/-- The cache file belongs to these contents: a file that is not newer has this content, and what is found in the cache file is right for these contents. -/
def StoredFor (method : DiskMethod P) (files : List Path) (fs : FS) (f : File) (sv : Path → Option (List Nat)) : Prop :=
  (∀ q ∈ files, ∀ g, fs q = some g → g.mtime ≤ f.mtime → some g.bytes = sv q) ∧
  ∀ a p o, loadCached P f.bytes a p = some o → ∀ v : FS, (∀ q ∈ files, content v q = sv q) → method v a p = .ok o

structure EditInv (method : DiskMethod P) (file : Path) (files : List Path) (w : EditWorld P) : Prop where
  past : ∀ q f, w.fs q = some f → f.mtime ≤ w.now
  exist : ∀ q ∈ files, ∃ f, w.fs q = some f
  cache : ∀ f, w.fs file = some f → ∃ sv, StoredFor method files w.fs f sv

/-- A call with these arguments is under way; `M q c` says that file `q` had content `c` at some moment of the call. -/
def InCall (method : DiskMethod P) (file : Path) (files : List Path) (M : Path → Option (List Nat) → Prop) (a p : P.Obj) (w : EditWorld P) : Prop :=
  match w.phase with
  | .idle => False
  | .checking a' p' t todo => a' = a ∧ p' = p ∧ ∃ f sv done, w.fs file = some f ∧ f.mtime = t ∧ StoredFor method files w.fs f sv ∧ files = done ++ todo ∧ ∀ q ∈ done, M q (sv q)
  | .loading a' p' => a' = a ∧ p' = p ∧ ∃ f sv, w.fs file = some f ∧ StoredFor method files w.fs f sv ∧ ∀ q ∈ files, M q (sv q)
  | .running a' p' seen => a' = a ∧ p' = p ∧ ∀ q ∈ files, content seen q = content w.fs q ∧ M q (content w.fs q)
  | .storing a' p' o => a' = a ∧ p' = p ∧ method w.fs a p = .ok o ∧ ∀ q ∈ files, M q (content w.fs q)

theorem InCall.mono {method : DiskMethod P} {file : Path} {files : List Path} {M M' : Path → Option (List Nat) → Prop} {a p : P.Obj} {w : EditWorld P}
    (h : InCall method file files M a p w) (hM : ∀ q c, M q c → M' q c) : InCall method file files M' a p w := by
  unfold InCall at h ⊢
  split at h
  · exact h
  · obtain ⟨h1, h2, f, sv, done, h3, h4, h5, h6, h7⟩ := h
    exact ⟨h1, h2, f, sv, done, h3, h4, h5, h6, fun q hq => hM _ _ (h7 q hq)⟩
  · obtain ⟨h1, h2, f, sv, h3, h4, h5⟩ := h
    exact ⟨h1, h2, f, sv, h3, h4, fun q hq => hM _ _ (h5 q hq)⟩
  · exact ⟨h.1, h.2.1, fun q hq => ⟨(h.2.2 q hq).1, hM _ _ (h.2.2 q hq).2⟩⟩
  · exact ⟨h.1, h.2.1, h.2.2.1, fun q hq => hM _ _ (h.2.2.2 q hq)⟩

/-- The contents as files. -/
def asFS (sv : Path → Option (List Nat)) : FS := fun q => (sv q).map (fun b => ⟨b, 0⟩)

theorem content_asFS (sv : Path → Option (List Nat)) (q : Path) : content (asFS sv) q = sv q := by
  unfold content asFS
  cases sv q <;> rfl

/-- The call ended well: with what the method gives for contents the files had. -/
def EndsWell (method : DiskMethod P) (files : List Path) (M : Path → Option (List Nat) → Prop) (a p : P.Obj) (r : Except PyErr P.Obj) : Prop :=
  ∃ view : FS, (∀ q ∈ files, M q (content view q)) ∧ r = method view a p

section
variable {method : DiskMethod P} {file : Path} {files : List Path}

/-- An edit. -/
theorem editInv_edit (w : EditWorld P) (hi : EditInv method file files w) (q : Path) (b : List Nat) (hq : q ≠ file)
    (hc : q ∈ files → ∀ f, w.fs file = some f → f.mtime < w.now) : EditInv method file files { w with fs := w.fs.write q b w.now } ∧
      ∀ f sv, w.fs file = some f → StoredFor method files w.fs f sv → StoredFor method files (w.fs.write q b w.now) f sv := by
  have hs : ∀ f sv, w.fs file = some f → StoredFor method files w.fs f sv → StoredFor method files (w.fs.write q b w.now) f sv := by
    intro f sv hf h
    refine ⟨fun x hx g hg hle => ?_, h.2⟩
    by_cases hxq : x = q
    · subst hxq
      simp only [FS.write, if_true, Option.some.injEq] at hg
      subst hg
      exact absurd (hc hx f hf) (Nat.not_lt.2 hle)
    · simp only [FS.write, if_neg hxq] at hg
      exact h.1 x hx g hg hle
  have hfile : (w.fs.write q b w.now) file = w.fs file := if_neg (fun h : file = q => hq h.symm)
  refine ⟨⟨fun x f hf => ?_, fun x hx => ?_, fun f hf => ?_⟩, hs⟩
  · by_cases hxq : x = q
    · subst hxq
      simp only [FS.write, if_true, Option.some.injEq] at hf
      subst hf
      exact Nat.le_refl _
    · simp only [FS.write, if_neg hxq] at hf
      exact hi.past x f hf
  · by_cases hxq : x = q
    · exact ⟨⟨b, w.now⟩, by simp [FS.write, hxq]⟩
    · obtain ⟨f, hf⟩ := hi.exist x hx
      exact ⟨f, by simp [FS.write, hxq, hf]⟩
  · simp only at hf
    rw [hfile] at hf
    obtain ⟨sv, h⟩ := hi.cache f hf
    exact ⟨sv, hs f sv hf h⟩

theorem editInv_phase {w : EditWorld P} (hi : EditInv method file files w) (ph : EditPhase P) : EditInv method file files { w with phase := ph } :=
  ⟨hi.past, hi.exist, hi.cache⟩

/-- After storing a result that is right for the contents of the files now. -/
theorem editInv_store (hP : PickleSpec P) (hm : Spec.OfFiles P method files) (hfile : file ∉ files) {w : EditWorld P} (hi : EditInv method file files w) {a p o : P.Obj}
    (ho : method w.fs a p = .ok o) : EditInv method file files ⟨w.fs.write file (storedBytes P o a p).1 w.now, w.now, .idle⟩ := by
  have hne : ∀ q ∈ files, q ≠ file := fun q hq h => hfile (h ▸ hq)
  refine ⟨fun x f hf => ?_, fun x hx => ?_, fun f hf => ?_⟩
  · by_cases hx : x = file
    · subst hx
      simp only [FS.write, if_true, Option.some.injEq] at hf
      subst hf
      exact Nat.le_refl _
    · simp only [FS.write, if_neg hx] at hf
      exact hi.past x f hf
  · obtain ⟨f, hf⟩ := hi.exist x hx
    exact ⟨f, by simp [FS.write, hne x hx, hf]⟩
  · simp only [FS.write, if_true, Option.some.injEq] at hf
    subst hf
    refine ⟨content w.fs, fun q hq g hg _ => ?_, fun a' p' o' hl v hv => ?_⟩
    · simp only [FS.write, if_neg (hne q hq)] at hg
      unfold content
      rw [hg]
      rfl
    · obtain ⟨rfl, _, h1, h2, _⟩ := loadCached_prefix hP o a p _ (List.prefix_refl _) a' p' o' hl
      rw [← hm.args v a p a' p' h1 h2, hm.files v w.fs a p hv, ho]

/-- A step of a call that nobody disturbs. -/
theorem go_inv (hP : PickleSpec P) (hm : Spec.OfFiles P method files) (hfile : file ∉ files)
    (hpick : ∀ fs a p o, method fs a p = .ok o → (storedBytes P o a p).2 = none) {M : Path → Option (List Nat) → Prop} {a p : P.Obj} {w : EditWorld P}
    (hi : EditInv method file files w) (hc : InCall method file files M a p w) (hM : ∀ q c, content w.fs q = c → M q c) :
    EditInv method file files (w.go method file).1 ∧ match (w.go method file).2 with
      | none => InCall method file files M a p (w.go method file).1
      | some r => (w.go method file).1.phase = .idle ∧ EndsWell method files M a p r.1 := by
  obtain ⟨fs, now, ph⟩ := w
  have hstart : ∀ x y, x = a → y = p → InCall method file files M a p (EditWorld.start ⟨fs, now, ph⟩ x y) :=
    fun x y hx hy => ⟨hx, hy, fun q _ => ⟨rfl, hM q _ rfl⟩⟩
  cases ph with
  | idle => exact hc.elim
  | checking a' p' t todo =>
    obtain ⟨h1, h2, f, sv, done, h3, h4, h5, h6, h7⟩ := hc
    cases todo with
    | nil =>
      refine ⟨editInv_phase hi _, h1, h2, f, sv, h3, h5, ?_⟩
      rw [List.append_nil] at h6
      rwa [h6]
    | cons q todo =>
      obtain ⟨g, hg⟩ := hi.exist q (by rw [h6]; simp)
      simp only at hg
      have hgm : getmtime fs q = .ok g.mtime := by unfold getmtime; rw [hg]
      simp only [EditWorld.go, hgm]
      by_cases hlt : g.mtime > t
      · rw [if_pos hlt]
        exact ⟨editInv_phase hi _, hstart _ _ h1 h2⟩
      · rw [if_neg hlt]
        refine ⟨editInv_phase hi _, h1, h2, f, sv, done ++ [q], h3, h4, h5, by simp [h6], fun x hx => ?_⟩
        rcases List.mem_append.1 hx with hx | hx
        · exact h7 x hx
        · simp only [List.mem_singleton] at hx
          subst hx
          refine hM x _ ?_
          rw [← h5.1 x (by rw [h6]; simp) g hg (by rw [h4]; exact Nat.not_lt.1 hlt)]
          exact congrArg (Option.map File.bytes) hg
  | loading a' p' =>
    obtain ⟨rfl, rfl, f, sv, h3, h4, h5⟩ := hc
    simp only at h3
    simp only [EditWorld.go, h3]
    cases hl : loadCached P f.bytes a' p' with
    | none => exact ⟨editInv_phase hi _, hstart _ _ rfl rfl⟩
    | some o =>
      refine ⟨editInv_phase hi _, rfl, asFS sv, fun q hq => ?_, ?_⟩
      · rw [content_asFS]; exact h5 q hq
      · exact (h4.2 _ _ _ hl _ (fun q _ => content_asFS sv q)).symm
  | running a' p' seen =>
    obtain ⟨rfl, rfl, h⟩ := hc
    have hs : method seen a' p' = method fs a' p' := hm.files _ _ _ _ (fun q hq => (h q hq).1)
    simp only [EditWorld.go, hs]
    cases hr : method fs a' p' with
    | error e => exact ⟨editInv_phase hi _, rfl, fs, fun q hq => (h q hq).2, hr.symm⟩
    | ok o => exact ⟨editInv_phase hi _, rfl, rfl, hr, fun q hq => (h q hq).2⟩
  | storing a' p' o =>
    obtain ⟨rfl, rfl, ho, h⟩ := hc
    have hst := editInv_store hP hm hfile hi ho
    have hpk := hpick _ _ _ _ ho
    simp only [EditWorld.go]
    cases hb : storedBytes P o a' p' with
    | mk b r =>
      rw [hb] at hpk hst
      simp only at hpk
      subst hpk
      exact ⟨hst, rfl, fs, h, ho.symm⟩

/-- An event during a call. -/
theorem step_inv (hP : PickleSpec P) (hm : Spec.OfFiles P method files) (hfile : file ∉ files)
    (hpick : ∀ fs a p o, method fs a p = .ok o → (storedBytes P o a p).2 = none) {M : Path → Option (List Nat) → Prop} {a p : P.Obj} {w : EditWorld P} (e : EditEv P)
    (hi : EditInv method file files w) (hc : InCall method file files M a p w) (hM : ∀ q c, content w.fs q = c → M q c)
    (hok : Spec.ClockOk file files w e) (hun : Spec.Undisturbed files w e) :
    EditInv method file files (editStep method file files w e).1 ∧ match (editStep method file files w e).2 with
      | none => InCall method file files (fun q c => M q c ∨ content (editStep method file files w e).1.fs q = c) a p (editStep method file files w e).1
      | some r => (editStep method file files w e).1.phase = .idle ∧ EndsWell method files M a p r.1 := by
  cases e with
  | wait n =>
    exact ⟨⟨fun q f hf => Nat.le_trans (hi.past q f hf) (Nat.le_add_right _ _), hi.exist, hi.cache⟩, InCall.mono hc (fun _ _ => Or.inl)⟩
  | edit q b =>
    obtain ⟨hinv, hs⟩ := editInv_edit w hi q b hok.1 hok.2
    refine ⟨hinv, ?_⟩
    have hfile' : (w.fs.write q b w.now) file = w.fs file := if_neg (fun h : file = q => hok.1 h.symm)
    obtain ⟨fs, now, ph⟩ := w
    cases ph with
    | idle => exact hc.elim
    | checking a' p' t todo =>
      obtain ⟨h1, h2, f, sv, done, h3, h4, h5, h6, h7⟩ := hc
      exact ⟨h1, h2, f, sv, done, hfile'.trans h3, h4, hs f sv h3 h5, h6, fun x hx => Or.inl (h7 x hx)⟩
    | loading a' p' =>
      obtain ⟨h1, h2, f, sv, h3, h4, h5⟩ := hc
      exact ⟨h1, h2, f, sv, hfile'.trans h3, hs f sv h3 h4, fun x hx => Or.inl (h5 x hx)⟩
    | running a' p' seen =>
      obtain ⟨h1, h2, h⟩ := hc
      refine ⟨h1, h2, fun x hx => ⟨?_, Or.inr rfl⟩⟩
      rw [(h x hx).1]
      refine ((content_write _ _ _ _ _).trans (if_neg ?_)).symm
      rintro rfl
      exact hun hx
    | storing a' p' o =>
      obtain ⟨h1, h2, h3, h⟩ := hc
      refine ⟨h1, h2, ?_, fun x hx => Or.inr rfl⟩
      rw [← h3]
      refine hm.files _ _ _ _ (fun x hx => (content_write _ _ _ _ _).trans (if_neg ?_))
      rintro rfl
      exact hun hx
  | begin a' p' =>
    obtain ⟨fs, now, ph⟩ := w
    cases ph with
    | idle => exact hc.elim
    | checking _ _ _ _ => exact ⟨hi, InCall.mono hc (fun _ _ => Or.inl)⟩
    | loading _ _ => exact ⟨hi, InCall.mono hc (fun _ _ => Or.inl)⟩
    | running _ _ _ => exact ⟨hi, InCall.mono hc (fun _ _ => Or.inl)⟩
    | storing _ _ _ => exact ⟨hi, InCall.mono hc (fun _ _ => Or.inl)⟩
  | go =>
    have := go_inv hP hm hfile hpick hi hc hM
    refine ⟨this.1, ?_⟩
    have h2 := this.2
    simp only [editStep]
    cases hr : (w.go method file).2 with
    | none => rw [hr] at h2; exact InCall.mono h2 (fun _ _ => Or.inl)
    | some r => rw [hr] at h2; exact h2
  | read q =>
    obtain ⟨fs, now, ph⟩ := w
    cases ph with
    | idle => exact hc.elim
    | checking _ _ _ _ => exact ⟨hi, InCall.mono hc (fun _ _ => Or.inl)⟩
    | loading _ _ => exact ⟨hi, InCall.mono hc (fun _ _ => Or.inl)⟩
    | storing _ _ _ => exact ⟨hi, InCall.mono hc (fun _ _ => Or.inl)⟩
    | running a' p' seen =>
      obtain ⟨h1, h2, h⟩ := hc
      refine ⟨editInv_phase hi _, h1, h2, fun x hx => ⟨?_, Or.inr rfl⟩⟩
      by_cases hxq : x = q
      · subst hxq
        exact congrArg (Option.map File.bytes) (if_pos rfl)
      · exact (congrArg (Option.map File.bytes) (if_neg hxq)).trans (h x hx).1

/-- The begin of a call. -/
theorem begin_inv {w : EditWorld P} (hi : EditInv method file files w) (hidle : w.phase = .idle) (a p : P.Obj) :
    (editStep method file files w (.begin a p)).2 = none ∧ (editStep method file files w (.begin a p)).1.fs = w.fs ∧ EditInv method file files (editStep method file files w (.begin a p)).1 ∧
      InCall method file files (fun q c => content w.fs q = c) a p (editStep method file files w (.begin a p)).1 := by
  obtain ⟨fs, now, ph⟩ := w
  simp only at hidle
  subst hidle
  unfold editStep
  simp only
  cases hf : fs file with
  | none => exact ⟨rfl, rfl, editInv_phase hi _, rfl, rfl, fun q _ => ⟨rfl, rfl⟩⟩
  | some f =>
    obtain ⟨sv, h⟩ := hi.cache f hf
    exact ⟨rfl, rfl, editInv_phase hi _, rfl, rfl, f, sv, [], hf, rfl, h, rfl, (by intro q hq; cases hq)⟩

/-- Any event: the invariant of files stays, and a call is under way or not. -/
theorem run_inv (hP : PickleSpec P) (hm : Spec.OfFiles P method files) (hfile : file ∉ files)
    (hpick : ∀ fs a p o, method fs a p = .ok o → (storedBytes P o a p).2 = none) (evs : List (EditEv P)) (w : EditWorld P)
    (hi : EditInv method file files w) (hc : w.phase = .idle ∨ ∃ a p, InCall method file files (fun _ _ => True) a p w)
    (hok : Spec.Always method file files (fun w e => Spec.ClockOk file files w e ∧ Spec.Undisturbed files w e) w evs) :
    EditInv method file files (editRun method file files w evs) := by
  induction evs generalizing w with
  | nil => exact hi
  | cons e evs ih =>
    show EditInv method file files (editRun method file files (editStep method file files w e).1 evs)
    suffices h : EditInv method file files (editStep method file files w e).1 ∧
        ((editStep method file files w e).1.phase = .idle ∨ ∃ a p, InCall method file files (fun _ _ => True) a p (editStep method file files w e).1) from
      ih _ h.1 h.2 hok.2
    rcases hc with hidle | ⟨a, p, hc⟩
    · cases e with
      | wait n => exact ⟨⟨fun q f hf => Nat.le_trans (hi.past q f hf) (Nat.le_add_right _ _), hi.exist, hi.cache⟩, Or.inl hidle⟩
      | edit q b => exact ⟨(editInv_edit w hi q b hok.1.1.1 hok.1.1.2).1, Or.inl hidle⟩
      | begin a p =>
        obtain ⟨_, _, h3, h4⟩ := begin_inv hi hidle a p
        exact ⟨h3, Or.inr ⟨a, p, h4.mono (fun _ _ _ => trivial)⟩⟩
      | go =>
        have : w.go method file = (w, none) := by unfold EditWorld.go; rw [hidle]
        simp only [editStep, this]
        exact ⟨hi, Or.inl hidle⟩
      | read q =>
        have : editStep method file files w (.read q) = (w, none) := by unfold editStep; simp only [hidle]
        rw [this]
        exact ⟨hi, Or.inl hidle⟩
    · have h := step_inv hP hm hfile hpick e hi hc (fun _ _ _ => trivial) hok.1.1 hok.1.2
      refine ⟨h.1, ?_⟩
      have h2 := h.2
      cases hr : (editStep method file files w e).2 with
      | none => rw [hr] at h2; exact Or.inr ⟨a, p, h2.mono (fun _ _ _ => trivial)⟩
      | some r => rw [hr] at h2; exact Or.inl h2.1

theorem callEnd_inv (hP : PickleSpec P) (hm : Spec.OfFiles P method files) (hfile : file ∉ files)
    (hpick : ∀ fs a p o, method fs a p = .ok o → (storedBytes P o a p).2 = none) (a p : P.Obj) (evs : List (EditEv P)) (w : EditWorld P) (M : Path → Option (List Nat) → Prop)
    (hi : EditInv method file files w) (hc : InCall method file files M a p w) (hM : ∀ q c, content w.fs q = c → M q c)
    (hok : Spec.Always method file files (fun w e => Spec.ClockOk file files w e ∧ Spec.Undisturbed files w e) w evs)
    (r : CallEnd P) (hr : callEnd method file files w evs = some r) :
    EndsWell method files (fun q c => M q c ∨ ∃ pre, pre <+: evs ∧ content (editRun method file files w pre).fs q = c) a p r.1 := by
  induction evs generalizing w M with
  | nil => cases hr
  | cons e evs ih =>
    have h := step_inv hP hm hfile hpick e hi hc hM hok.1.1 hok.1.2
    unfold callEnd at hr
    obtain ⟨hi', h2⟩ := h
    cases hs : (editStep method file files w e).2 with
    | some r' =>
      rw [hs] at hr h2
      simp only [Option.some.injEq] at hr
      subst hr
      obtain ⟨_, v, h3, h4⟩ := h2
      exact ⟨v, fun q hq => Or.inl (h3 q hq), h4⟩
    | none =>
      rw [hs] at hr h2
      obtain ⟨v, h3, h4⟩ := ih _ _ hi' h2 (fun q c h => Or.inr h) hok.2 hr
      refine ⟨v, fun q hq => ?_, h4⟩
      rcases h3 q hq with (h | h) | ⟨pre, hp, h⟩
      · exact Or.inl h
      · exact Or.inr ⟨[e], ⟨evs, rfl⟩, h⟩
      · exact Or.inr ⟨e :: pre, (List.cons_prefix_cons.2 ⟨rfl, hp⟩), h⟩

theorem always_append {ok : EditWorld P → EditEv P → Prop} (l l' : List (EditEv P)) (w : EditWorld P) :
    Spec.Always method file files ok w (l ++ l') ↔ Spec.Always method file files ok w l ∧ Spec.Always method file files ok (editRun method file files w l) l' := by
  induction l generalizing w with
  | nil => exact ⟨fun h => ⟨trivial, h⟩, fun h => h.2⟩
  | cons e l ih =>
    show ok w e ∧ Spec.Always method file files ok (editStep method file files w e).1 (l ++ l') ↔ (_ ∧ _) ∧ _
    rw [ih, and_assoc]
    rfl

theorem start_inv {w : EditWorld P} (h : Spec.Start file files w) : EditInv method file files w :=
  ⟨h.past, h.exist, fun f hf => by rw [h.none] at hf; cases hf⟩

end

/-- C149: if other programs may write dependencies at any time, also between the steps of a call, but not while the method runs and its result is stored, then every call gives what the
method gives for contents which the dependencies had during this call. -/
theorem C149_undisturbed_partial (hP : PickleSpec P) (method : DiskMethod P) (file : Path) (files : List Path) (hm : Spec.OfFiles P method files) (hfile : file ∉ files)
    (hpick : ∀ fs a p o, method fs a p = .ok o → (storedBytes P o a p).2 = none) (w : EditWorld P) (hw : Spec.Start file files w)
    (before : List (EditEv P)) (a p : P.Obj) (during : List (EditEv P)) (hidle : (editRun method file files w before).phase = .idle)
    (hok : Spec.Always method file files (fun w e => Spec.ClockOk file files w e ∧ Spec.Undisturbed files w e) w (before ++ .begin a p :: during))
    (r : CallEnd P) (hr : callEnd method file files (editRun method file files w before) (.begin a p :: during) = some r) :
    Spec.OfTheTime method files w.fs before a p during r.1 := by
  obtain ⟨ho1, ho2⟩ := (always_append _ _ _).1 hok
  have hi := run_inv hP hm hfile hpick before w (start_inv hw) (Or.inl hw.idle) ho1
  obtain ⟨h1, h2, h3, h4⟩ := begin_inv hi hidle a p
  unfold callEnd at hr
  rw [h1] at hr
  obtain ⟨v, hv, hres⟩ := callEnd_inv hP hm hfile hpick a p during _ _ h3 h4 (by intro q c h; rw [h2] at h; exact h) ho2.2 r hr
  refine ⟨v, fun q hq => ?_, hres⟩
  have hq' : q ≠ file := fun h => hfile (h ▸ hq)
  rcases hv q hq with h | ⟨pre, hp, h⟩
  · refine ⟨[], List.nil_prefix, ?_⟩
    rw [List.append_nil, ← content_run method file files w before hq', h]
  · refine ⟨pre, hp, ?_⟩
    rw [contentAfter_append, ← content_run method file files w before hq', ← h, content_run method file files _ pre hq', h2]

/-- Nothing writes the file. -/
theorem contentAfter_unwritten (q : Path) (c : Option (List Nat)) (evs : List (EditEv P)) (h : ∀ b, .edit q b ∉ evs) : contentAfter q c evs = c := by
  induction evs generalizing c with
  | nil => rfl
  | cons e evs ih =>
    have ih := fun c => ih c (fun b hb => h b (List.mem_cons_of_mem _ hb))
    cases e with
    | edit x b =>
      show contentAfter q (if x = q then some b else c) evs = c
      rw [if_neg, ih]
      rintro rfl
      exact h b (List.mem_cons_self ..)
    | wait n => exact ih c
    | begin a p => exact ih c
    | go => exact ih c
    | read x => exact ih c

/-- C149: if also nobody writes a dependency during this call, the call gives what the method gives for the files as they are then. -/
theorem C149_quiet_call_partial (hP : PickleSpec P) (method : DiskMethod P) (file : Path) (files : List Path) (hm : Spec.OfFiles P method files) (hfile : file ∉ files)
    (hpick : ∀ fs a p o, method fs a p = .ok o → (storedBytes P o a p).2 = none) (w : EditWorld P) (hw : Spec.Start file files w)
    (before : List (EditEv P)) (a p : P.Obj) (during : List (EditEv P)) (hidle : (editRun method file files w before).phase = .idle)
    (hok : Spec.Always method file files (fun w e => Spec.ClockOk file files w e ∧ Spec.Undisturbed files w e) w (before ++ .begin a p :: during))
    (hquiet : ∀ q ∈ files, ∀ b, .edit q b ∉ during)
    (r : CallEnd P) (hr : callEnd method file files (editRun method file files w before) (.begin a p :: during) = some r) :
    r.1 = method (editRun method file files w before).fs a p := by
  obtain ⟨v, hv, h⟩ := C149_undisturbed_partial hP method file files hm hfile hpick w hw before a p during hidle hok r hr
  rw [h]
  refine hm.files _ _ _ _ (fun q hq => ?_)
  obtain ⟨pre, hp, hc⟩ := hv q hq
  rw [hc, contentAfter_append, contentAfter_unwritten _ _ pre (fun b hb => hquiet q hq b (hp.subset hb)), content_run method file files w before (fun h => hfile (h ▸ hq))]

/-! ## The exact condition -/

/-- All files exist. -/
def AllExist (files : List Path) (fs : FS) : Prop := ∀ q ∈ files, ∃ f, fs q = some f

section
variable {method : DiskMethod P} {file : Path} {files : List Path}

/-- What is in the cache file was computed from existing files. -/
structure ConstInv (method : DiskMethod P) (file : Path) (files : List Path) (w : EditWorld P) : Prop where
  exist : AllExist files w.fs
  cache : ∀ f, w.fs file = some f → ∃ v a p o, AllExist files v ∧ method v a p = .ok o ∧ f.bytes = (storedBytes P o a p).1

/-- A call with these arguments is under way. -/
def ConstCall (method : DiskMethod P) (files : List Path) (M : Path → Option (List Nat) → Prop) (a p : P.Obj) (w : EditWorld P) : Prop :=
  match w.phase with
  | .idle => False
  | .checking a' p' _ todo => a' = a ∧ p' = p ∧ ∀ q ∈ todo, q ∈ files
  | .loading a' p' => a' = a ∧ p' = p
  | .running a' p' seen => a' = a ∧ p' = p ∧ AllExist files seen ∧ ∀ q ∈ files, M q (content seen q)
  | .storing a' p' o => a' = a ∧ p' = p ∧ ∃ v, AllExist files v ∧ method v a p = .ok o ∧ ∀ q ∈ files, M q (content v q)

theorem ConstCall.mono {M M' : Path → Option (List Nat) → Prop} {a p : P.Obj} {w : EditWorld P}
    (h : ConstCall method files M a p w) (hM : ∀ q c, M q c → M' q c) : ConstCall method files M' a p w := by
  unfold ConstCall at h ⊢
  split at h
  · exact h
  · exact h
  · exact h
  · exact ⟨h.1, h.2.1, h.2.2.1, fun q hq => hM _ _ (h.2.2.2 q hq)⟩
  · obtain ⟨h1, h2, v, h3, h4, h5⟩ := h
    exact ⟨h1, h2, v, h3, h4, fun q hq => hM _ _ (h5 q hq)⟩

/-- A result other than None, once it is there, is the result for all contents of the dependencies. -/
def ConstantOnce (P : PickleObjects) (method : DiskMethod P) (files : List Path) : Prop :=
  ∀ (fs fs' : FS) a p o, AllExist files fs → AllExist files fs' → method fs a p = .ok o → P.isNone o = false → method fs' a p = .ok o

theorem const_go (hP : PickleSpec P) (hm : Spec.OfFiles P method files) (hfile : file ∉ files) (hcon : ConstantOnce P method files)
    (hpick : ∀ fs a p o, method fs a p = .ok o → (storedBytes P o a p).2 = none) {M : Path → Option (List Nat) → Prop} {a p : P.Obj} {w : EditWorld P}
    (hi : ConstInv method file files w) (hc : ConstCall method files M a p w) (hM : ∀ q c, content w.fs q = c → M q c) :
    ConstInv method file files (w.go method file).1 ∧ match (w.go method file).2 with
      | none => ConstCall method files M a p (w.go method file).1
      | some r => (w.go method file).1.phase = .idle ∧ EndsWell method files M a p r.1 := by
  obtain ⟨fs, now, ph⟩ := w
  have hstart : ∀ x y, x = a → y = p → ConstCall method files M a p (EditWorld.start ⟨fs, now, ph⟩ x y) :=
    fun x y hx hy => ⟨hx, hy, hi.exist, fun q _ => hM q _ rfl⟩
  cases ph with
  | idle => exact hc.elim
  | checking a' p' t todo =>
    obtain ⟨h1, h2, h3⟩ := hc
    cases todo with
    | nil => exact ⟨⟨hi.exist, hi.cache⟩, h1, h2⟩
    | cons q todo =>
      obtain ⟨g, hg⟩ := hi.exist q (h3 q (List.mem_cons_self ..))
      simp only at hg
      have hgm : getmtime fs q = .ok g.mtime := by unfold getmtime; rw [hg]
      simp only [EditWorld.go, hgm]
      split
      · exact ⟨⟨hi.exist, hi.cache⟩, hstart _ _ h1 h2⟩
      · exact ⟨⟨hi.exist, hi.cache⟩, h1, h2, fun x hx => h3 x (List.mem_cons_of_mem _ hx)⟩
  | loading a' p' =>
    obtain ⟨rfl, rfl⟩ := hc
    simp only [EditWorld.go]
    cases hf : fs file with
    | none => exact ⟨⟨hi.exist, hi.cache⟩, hstart _ _ rfl rfl⟩
    | some f =>
      simp only
      cases hl : loadCached P f.bytes a' p' with
      | none => exact ⟨⟨hi.exist, hi.cache⟩, hstart _ _ rfl rfl⟩
      | some o =>
        refine ⟨⟨hi.exist, hi.cache⟩, rfl, fs, fun q _ => hM q _ rfl, ?_⟩
        obtain ⟨v, x, y, o', hv, ho', hb⟩ := hi.cache f hf
        rw [hb] at hl
        obtain ⟨rfl, hn, h1, h2, _⟩ := loadCached_prefix hP o' x y _ (List.prefix_refl _) a' p' o hl
        rw [← hm.args fs x y a' p' h1 h2]
        exact (hcon v fs x y _ hv hi.exist ho' hn).symm
  | running a' p' seen =>
    obtain ⟨rfl, rfl, he, h⟩ := hc
    simp only [EditWorld.go]
    cases hr : method seen a' p' with
    | error e => exact ⟨⟨hi.exist, hi.cache⟩, rfl, seen, h, hr.symm⟩
    | ok o => exact ⟨⟨hi.exist, hi.cache⟩, rfl, rfl, seen, he, hr, h⟩
  | storing a' p' o =>
    obtain ⟨rfl, rfl, v, hv, ho, h⟩ := hc
    have hpk := hpick _ _ _ _ ho
    have hst : ConstInv method file files ⟨fs.write file (storedBytes P o a' p').1 now, now, .idle⟩ := by
      refine ⟨fun x hx => ?_, fun f hf => ?_⟩
      · obtain ⟨f, hf⟩ := hi.exist x hx
        exact ⟨f, (if_neg (fun h : x = file => hfile (h ▸ hx))).trans hf⟩
      · simp only [FS.write, if_true, Option.some.injEq] at hf
        subst hf
        exact ⟨v, a', p', o, hv, ho, rfl⟩
    simp only [EditWorld.go]
    cases hb : storedBytes P o a' p' with
    | mk b r =>
      rw [hb] at hpk hst
      simp only at hpk
      subst hpk
      exact ⟨hst, rfl, v, h, ho.symm⟩

theorem const_edit {w : EditWorld P} (hi : ConstInv method file files w) (q : Path) (b : List Nat) (hq : q ≠ file) :
    ConstInv method file files { w with fs := w.fs.write q b w.now } := by
  refine ⟨fun x hx => ?_, fun f hf => ?_⟩
  · by_cases hxq : x = q
    · exact ⟨⟨b, w.now⟩, if_pos hxq⟩
    · obtain ⟨f, hf⟩ := hi.exist x hx
      exact ⟨f, (if_neg hxq).trans hf⟩
  · refine hi.cache f (Eq.trans ?_ hf)
    exact (if_neg (fun h : file = q => hq h.symm)).symm

theorem const_step (hP : PickleSpec P) (hm : Spec.OfFiles P method files) (hfile : file ∉ files) (hcon : ConstantOnce P method files)
    (hpick : ∀ fs a p o, method fs a p = .ok o → (storedBytes P o a p).2 = none) {M : Path → Option (List Nat) → Prop} {a p : P.Obj} {w : EditWorld P} (e : EditEv P)
    (hi : ConstInv method file files w) (hc : ConstCall method files M a p w) (hM : ∀ q c, content w.fs q = c → M q c) (hok : Spec.ClockOk file files w e) :
    ConstInv method file files (editStep method file files w e).1 ∧ match (editStep method file files w e).2 with
      | none => ConstCall method files (fun q c => M q c ∨ content (editStep method file files w e).1.fs q = c) a p (editStep method file files w e).1
      | some r => (editStep method file files w e).1.phase = .idle ∧ EndsWell method files M a p r.1 := by
  cases e with
  | wait n => exact ⟨⟨hi.exist, hi.cache⟩, ConstCall.mono hc (fun _ _ => Or.inl)⟩
  | edit q b => exact ⟨const_edit hi q b hok.1, ConstCall.mono (w := ⟨w.fs.write q b w.now, w.now, w.phase⟩) hc (fun _ _ => Or.inl)⟩
  | begin a' p' =>
    obtain ⟨fs, now, ph⟩ := w
    cases ph with
    | idle => exact hc.elim
    | checking _ _ _ _ => exact ⟨hi, ConstCall.mono hc (fun _ _ => Or.inl)⟩
    | loading _ _ => exact ⟨hi, ConstCall.mono hc (fun _ _ => Or.inl)⟩
    | running _ _ _ => exact ⟨hi, ConstCall.mono hc (fun _ _ => Or.inl)⟩
    | storing _ _ _ => exact ⟨hi, ConstCall.mono hc (fun _ _ => Or.inl)⟩
  | go =>
    have := const_go hP hm hfile hcon hpick hi hc hM
    refine ⟨this.1, ?_⟩
    have h2 := this.2
    simp only [editStep]
    cases hr : (w.go method file).2 with
    | none => rw [hr] at h2; exact ConstCall.mono h2 (fun _ _ => Or.inl)
    | some r => rw [hr] at h2; exact h2
  | read q =>
    obtain ⟨fs, now, ph⟩ := w
    cases ph with
    | idle => exact hc.elim
    | checking _ _ _ _ => exact ⟨hi, ConstCall.mono hc (fun _ _ => Or.inl)⟩
    | loading _ _ => exact ⟨hi, ConstCall.mono hc (fun _ _ => Or.inl)⟩
    | storing _ _ _ => exact ⟨hi, ConstCall.mono hc (fun _ _ => Or.inl)⟩
    | running a' p' seen =>
      obtain ⟨h1, h2, he, h⟩ := hc
      refine ⟨⟨hi.exist, hi.cache⟩, h1, h2, fun x hx => ?_, fun x hx => ?_⟩
      · by_cases hxq : x = q
        · obtain ⟨f, hf⟩ := hi.exist x hx
          exact ⟨f, (if_pos hxq).trans hf⟩
        · obtain ⟨f, hf⟩ := he x hx
          exact ⟨f, (if_neg hxq).trans hf⟩
      · by_cases hxq : x = q
        · subst hxq
          exact Or.inr (congrArg (Option.map File.bytes) (if_pos rfl)).symm
        · refine Or.inl ?_
          have : content (fun y => if y = q then fs y else seen y) x = content seen x := congrArg (Option.map File.bytes) (if_neg hxq)
          rw [this]
          exact h x hx

theorem const_begin {w : EditWorld P} (hi : ConstInv method file files w) (hidle : w.phase = .idle) (a p : P.Obj) :
    (editStep method file files w (.begin a p)).2 = none ∧ (editStep method file files w (.begin a p)).1.fs = w.fs ∧ ConstInv method file files (editStep method file files w (.begin a p)).1 ∧
      ConstCall method files (fun q c => content w.fs q = c) a p (editStep method file files w (.begin a p)).1 := by
  obtain ⟨fs, now, ph⟩ := w
  simp only at hidle
  subst hidle
  unfold editStep
  simp only
  cases hf : fs file with
  | none => exact ⟨rfl, rfl, ⟨hi.exist, hi.cache⟩, rfl, rfl, hi.exist, fun q _ => rfl⟩
  | some f => exact ⟨rfl, rfl, ⟨hi.exist, hi.cache⟩, rfl, rfl, fun q hq => hq⟩

theorem const_run (hP : PickleSpec P) (hm : Spec.OfFiles P method files) (hfile : file ∉ files) (hcon : ConstantOnce P method files)
    (hpick : ∀ fs a p o, method fs a p = .ok o → (storedBytes P o a p).2 = none) (evs : List (EditEv P)) (w : EditWorld P)
    (hi : ConstInv method file files w) (hc : w.phase = .idle ∨ ∃ a p, ConstCall method files (fun _ _ => True) a p w)
    (hok : Spec.Always method file files (Spec.ClockOk file files) w evs) : ConstInv method file files (editRun method file files w evs) := by
  induction evs generalizing w with
  | nil => exact hi
  | cons e evs ih =>
    show ConstInv method file files (editRun method file files (editStep method file files w e).1 evs)
    suffices h : ConstInv method file files (editStep method file files w e).1 ∧
        ((editStep method file files w e).1.phase = .idle ∨ ∃ a p, ConstCall method files (fun _ _ => True) a p (editStep method file files w e).1) from
      ih _ h.1 h.2 hok.2
    rcases hc with hidle | ⟨a, p, hc⟩
    · cases e with
      | wait n => exact ⟨⟨hi.exist, hi.cache⟩, Or.inl hidle⟩
      | edit q b => exact ⟨const_edit hi q b hok.1.1, Or.inl hidle⟩
      | begin a p =>
        obtain ⟨_, _, h3, h4⟩ := const_begin hi hidle a p
        exact ⟨h3, Or.inr ⟨a, p, h4.mono (fun _ _ _ => trivial)⟩⟩
      | go =>
        have : w.go method file = (w, none) := by unfold EditWorld.go; rw [hidle]
        simp only [editStep, this]
        exact ⟨hi, Or.inl hidle⟩
      | read q =>
        have : editStep method file files w (.read q) = (w, none) := by unfold editStep; simp only [hidle]
        rw [this]
        exact ⟨hi, Or.inl hidle⟩
    · have h := const_step hP hm hfile hcon hpick e hi hc (fun _ _ _ => trivial) hok.1
      refine ⟨h.1, ?_⟩
      have h2 := h.2
      cases hr : (editStep method file files w e).2 with
      | none => rw [hr] at h2; exact Or.inr ⟨a, p, h2.mono (fun _ _ _ => trivial)⟩
      | some r => rw [hr] at h2; exact Or.inl h2.1

theorem const_callEnd (hP : PickleSpec P) (hm : Spec.OfFiles P method files) (hfile : file ∉ files) (hcon : ConstantOnce P method files)
    (hpick : ∀ fs a p o, method fs a p = .ok o → (storedBytes P o a p).2 = none) (a p : P.Obj) (evs : List (EditEv P)) (w : EditWorld P) (M : Path → Option (List Nat) → Prop)
    (hi : ConstInv method file files w) (hc : ConstCall method files M a p w) (hM : ∀ q c, content w.fs q = c → M q c)
    (hok : Spec.Always method file files (Spec.ClockOk file files) w evs) (r : CallEnd P) (hr : callEnd method file files w evs = some r) :
    EndsWell method files (fun q c => M q c ∨ ∃ pre, pre <+: evs ∧ content (editRun method file files w pre).fs q = c) a p r.1 := by
  induction evs generalizing w M with
  | nil => cases hr
  | cons e evs ih =>
    obtain ⟨hi', h2⟩ := const_step hP hm hfile hcon hpick e hi hc hM hok.1
    unfold callEnd at hr
    cases hs : (editStep method file files w e).2 with
    | some r' =>
      rw [hs] at hr h2
      simp only [Option.some.injEq] at hr
      subst hr
      obtain ⟨_, v, h3, h4⟩ := h2
      exact ⟨v, fun q hq => Or.inl (h3 q hq), h4⟩
    | none =>
      rw [hs] at hr h2
      obtain ⟨v, h3, h4⟩ := ih _ _ hi' h2 (fun q c h => Or.inr h) hok.2 hr
      refine ⟨v, fun q hq => ?_, h4⟩
      rcases h3 q hq with (h | h) | ⟨pre, hp, h⟩
      · exact Or.inl h
      · exact Or.inr ⟨[e], ⟨evs, rfl⟩, h⟩
      · exact Or.inr ⟨e :: pre, (List.cons_prefix_cons.2 ⟨rfl, hp⟩), h⟩

/-- No file in a list is newer: the loop of `needs_update` goes to its end, and then the cache file is read. -/
theorem check_through (fs : FS) (now t : Nat) (a p : P.Obj) (todo : List Path) (h : ∀ q ∈ todo, ∃ f, fs q = some f ∧ f.mtime ≤ t) (f : File) (hf : fs file = some f) (o : P.Obj)
    (hl : loadCached P f.bytes a p = some o) :
    callEnd method file files ⟨fs, now, .checking a p t todo⟩ (List.replicate (todo.length + 2) .go) = some (.ok o, false) := by
  induction todo with
  | nil =>
    show callEnd method file files _ [.go, .go] = _
    simp only [callEnd, editStep, EditWorld.go, hf, hl]
  | cons q todo ih =>
    obtain ⟨g, hg, hle⟩ := h q (List.mem_cons_self ..)
    have hgm : getmtime fs q = .ok g.mtime := by unfold getmtime; rw [hg]
    rw [List.length_cons, List.replicate_succ, callEnd]
    have : editStep method file files ⟨fs, now, .checking a p t (q :: todo)⟩ .go = (⟨fs, now, .checking a p t todo⟩, none) := by
      simp only [editStep, EditWorld.go, hgm, gt_iff_lt, Nat.not_lt.2 hle, if_false]
    rw [this]
    exact ih (fun x hx => h x (List.mem_cons_of_mem _ hx))

end

theorem contentAfter_gos (q : Path) (c : Option (List Nat)) (n : Nat) : contentAfter (P := P) q c (List.replicate n .go) = c := by
  induction n with
  | zero => rfl
  | succ n ih => exact ih

/-- A method runs, another program writes a dependency, then the result is stored; after this, a second call. -/
def lateEdit (a p : P.Obj) (q : Path) (b : List Nat) : List (EditEv P) := [.begin a p, .go, .edit q b, .wait 1, .go]

section
variable {method : DiskMethod P} {file : Path} {files : List Path}

/-- C149: a dependency that is written after the method has run and before its result is stored is not noticed: the next call gets the result for the old content, without running
the method. -/
theorem C149_late_edit (hP : PickleSpec P) (hfile : file ∉ files) (hrefl : ∀ a, P.eq a a = .ok true)
    (w : EditWorld P) (hw : Spec.Start file files w) (a p o : P.Obj) (ho : method w.fs a p = .ok o) (hpk : (storedBytes P o a p).2 = none) (hn : P.isNone o = false)
    (q : Path) (hq : q ≠ file) (b : List Nat) :
    (editRun method file files w (lateEdit a p q b)).phase = .idle ∧
    callEnd method file files (editRun method file files w (lateEdit a p q b)) (.begin a p :: List.replicate (files.length + 2) .go) = some (.ok o, false) ∧
    Spec.Always method file files (Spec.ClockOk file files) w (lateEdit a p q b ++ .begin a p :: List.replicate (files.length + 2) .go) := by
  obtain ⟨fs, now, ph⟩ := w
  obtain ⟨hid, hno, hex, hpast⟩ := hw
  simp only at hid hno hex hpast ho
  subst hid
  have hrun : editRun method file files ⟨fs, now, .idle⟩ (lateEdit a p q b) =
      ⟨(fs.write q b now).write file (storedBytes P o a p).1 (now + 1), now + 1, .idle⟩ := by
    simp only [editRun, lateEdit, List.foldl_cons, List.foldl_nil, editStep, hno, EditWorld.start, EditWorld.go, ho]
    cases hb : storedBytes P o a p with
    | mk x y => cases y <;> rfl
  have hclock : ∀ n w, Spec.Always method file files (Spec.ClockOk file files) w (List.replicate n .go) := by
    intro n
    induction n with
    | zero => intro w; trivial
    | succ n ih => intro w; exact ⟨trivial, ih _⟩
  refine ⟨by rw [hrun], ?_, ?_⟩
  · rw [hrun, callEnd]
    have hcf : ((fs.write q b now).write file (storedBytes P o a p).1 (now + 1)) file = some ⟨(storedBytes P o a p).1, now + 1⟩ := if_pos rfl
    simp only [editStep, hcf]
    have hbb : storedBytes P o a p = ((storedBytes P o a p).1, none) := Prod.ext rfl hpk
    refine check_through _ _ _ a p files (fun x hx => ?_) _ hcf o ((loadCached_complete hP hbb a p).1 ⟨hn, hrefl a, hrefl p⟩)
    have hxf : x ≠ file := fun h => hfile (h ▸ hx)
    by_cases hxq : x = q
    · exact ⟨⟨b, now⟩, (if_neg hxf).trans (if_pos hxq), Nat.le_succ _⟩
    · obtain ⟨f, hf⟩ := hex x hx
      exact ⟨f, (if_neg hxf).trans ((if_neg hxq).trans hf), Nat.le_succ_of_le (hpast x f hf)⟩
  · refine (always_append _ _ _).2 ⟨?_, trivial, hclock _ _⟩
    refine ⟨trivial, trivial, ?_, trivial, trivial, trivial⟩
    refine ⟨hq, fun _ f hf => ?_⟩
    have : (editStep method file files (editStep method file files ⟨fs, now, .idle⟩ (.begin a p)).1 .go).1.fs file = none := by
      simp only [editStep, hno, EditWorld.start, EditWorld.go, ho]
    rw [this] at hf
    cases hf

end

/-- C149: the exact condition.  Calls give results for contents which the dependencies had during the call, whatever other programs write and when, exactly if a result that is
cached does not depend on the dependencies at all. -/
theorem C149_exact_condition (hP : PickleSpec P) (hrefl : ∀ a, P.eq a a = .ok true) (method : DiskMethod P) (file : Path) (files : List Path) (hm : Spec.OfFiles P method files)
    (hfile : file ∉ files) (hpick : ∀ fs a p o, method fs a p = .ok o → (storedBytes P o a p).2 = none) :
    (∀ w, Spec.Start file files w → ∀ before a p during, (editRun method file files w before).phase = .idle →
      Spec.Always method file files (Spec.ClockOk file files) w (before ++ .begin a p :: during) →
      ∀ r, callEnd method file files (editRun method file files w before) (.begin a p :: during) = some r → Spec.OfTheTime method files w.fs before a p during r.1) ↔
    ∀ (fs fs' : FS) a p o, (∀ q ∈ files, ∃ f, fs q = some f) → (∀ q ∈ files, ∃ f, fs' q = some f) → method fs a p = .ok o → P.isNone o = false →
      method fs' a p = .ok o := by
  constructor
  · intro H
    -- one file changes
    have one : ∀ (fs : FS) a p o q b, (∀ q ∈ files, ∃ f, fs q = some f) → q ∈ files → method fs a p = .ok o → P.isNone o = false →
        ∀ fs', (∀ x ∈ files, content fs' x = if q = x then some b else content fs x) → method fs' a p = .ok o := by
      intro fs a p o q b hex hq ho hn fs' hfs'
      have hqf : q ≠ file := fun h => hfile (h ▸ hq)
      let fs0 : FS := fun x => if x = file then none else asFS (content fs) x
      have hne : ∀ x ∈ files, x ≠ file := fun x hx h => hfile (h ▸ hx)
      have h0 : ∀ x ∈ files, content fs0 x = content fs x := by
        intro x hx
        refine Eq.trans (congrArg (Option.map File.bytes) (if_neg (hne x hx))) ?_
        exact content_asFS _ _
      have hw : Spec.Start (P := P) file files ⟨fs0, 0, .idle⟩ := by
        refine ⟨rfl, if_pos rfl, fun x hx => ?_, fun x f hf => ?_⟩
        · obtain ⟨f, hf⟩ := hex x hx
          refine ⟨⟨f.bytes, 0⟩, (if_neg (hne x hx)).trans ?_⟩
          simp [asFS, content, hf]
        · simp only [fs0] at hf
          split at hf
          · cases hf
          · unfold asFS at hf
            cases hc : content fs x with
            | none => rw [hc] at hf; cases hf
            | some c => rw [hc] at hf; cases hf; exact Nat.le_refl _
      have ho0 : method fs0 a p = .ok o := by rw [hm.files fs0 fs a p h0, ho]
      obtain ⟨h1, h2, h3⟩ := C149_late_edit hP hfile hrefl ⟨fs0, 0, .idle⟩ hw a p o ho0 (hpick _ _ _ _ ho) hn q hqf b
      obtain ⟨v, hv, hr⟩ := H _ hw _ a p _ h1 h3 _ h2
      rw [hm.files fs' v a p, ← hr]
      intro x hx
      obtain ⟨pre, ⟨t, ht⟩, hp⟩ := hv x hx
      have hpre : pre = List.replicate pre.length .go := List.eq_replicate_iff.2 ⟨rfl, fun e he => (List.mem_replicate.1 (ht ▸ List.mem_append_left _ he)).2⟩
      rw [hp, contentAfter_append, hpre, contentAfter_gos, hfs' x hx]
      show _ = if q = x then some b else content fs0 x
      rw [h0 x hx]
    intro fs fs' a p o hex hex' ho hn
    -- one after the other
    have chain : ∀ l : List Path, (∀ x ∈ l, x ∈ files) → method (fun x => if x ∈ l then fs' x else fs x) a p = .ok o := by
      intro l
      induction l with
      | nil =>
        intro _
        have : (fun x => if x ∈ ([] : List Path) then fs' x else fs x) = fs := by funext x; simp
        rw [this, ho]
      | cons q l ih =>
        intro hl
        have ih := ih (fun x hx => hl x (List.mem_cons_of_mem _ hx))
        obtain ⟨g, hg⟩ := hex' q (hl q (List.mem_cons_self ..))
        refine one _ a p o q g.bytes (fun x hx => ?_) (hl q (List.mem_cons_self ..)) ih hn _ (fun x hx => ?_)
        · by_cases hxl : x ∈ l
          · simp only [hxl, if_true]; exact hex' x hx
          · simp only [hxl, if_false]; exact hex x hx
        · unfold content
          by_cases hxq : q = x
          · subst hxq
            simp [hg]
          · have : (x ∈ q :: l) ↔ x ∈ l := ⟨fun h => (List.mem_cons.1 h).resolve_left (fun h => hxq h.symm), List.mem_cons_of_mem _⟩
            simp only [this, hxq, if_false]
    rw [hm.files fs' _ a p, chain files (fun _ h => h)]
    intro x hx
    unfold content
    simp only [hx, if_true]
  · intro hcon w hw before a p during hidle hok r hr
    obtain ⟨ho1, ho2⟩ := (always_append _ _ _).1 hok
    have hi := const_run hP hm hfile hcon hpick before w ⟨hw.exist, fun f hf => by rw [hw.none] at hf; cases hf⟩ (Or.inl hw.idle) ho1
    obtain ⟨h1, h2, h3, h4⟩ := const_begin hi hidle a p
    unfold callEnd at hr
    rw [h1] at hr
    obtain ⟨v, hv, hres⟩ := const_callEnd hP hm hfile hcon hpick a p during _ _ h3 h4 (by intro q c h; rw [h2] at h; exact h) ho2.2 r hr
    refine ⟨v, fun q hq => ?_, hres⟩
    have hq' : q ≠ file := fun h => hfile (h ▸ hq)
    rcases hv q hq with h | ⟨pre, hp, h⟩
    · refine ⟨[], List.nil_prefix, ?_⟩
      rw [List.append_nil, ← content_run method file files w before hq', h]
    · refine ⟨pre, hp, ?_⟩
      rw [contentAfter_append, ← content_run method file files w before hq', ← h, content_run method file files _ pre hq', h2]

/-! ## A case -/

theorem countBytes_ofFiles : Spec.OfFiles unary countBytes [u!"data"] where
  files := by
    intro fs fs' a p h
    have := h u!"data" (List.mem_cons_self ..)
    unfold content at this
    unfold countBytes
    cases h1 : fs u!"data" <;> cases h2 : fs' u!"data" <;> simp_all
  args := countBytes_determined.args

/-- The empty data file, at time 0. -/
def freshEdits : EditWorld unary := ⟨freshDisk.fs, 0, .idle⟩

theorem freshEdits_start : Spec.Start u!"cache" [u!"data"] freshEdits where
  idle := rfl
  none := by decide
  exist := by
    intro q hq
    simp only [List.mem_singleton] at hq
    subst hq
    exact ⟨_, rfl⟩
  past := by
    intro q f hf
    simp only [freshEdits, freshDisk] at hf
    split at hf
    · cases hf; exact Nat.le_refl _
    · cases hf

/-- The hypotheses of the theorems hold for a history in which the file changes between the check and the reading of the cache file; the call gets the result for the content it had at
the check. -/
example : let before : List (EditEv unary) := [.begin (5 : Nat) (1 : Nat), .go, .go, .wait 1]
    let during : List (EditEv unary) := [.go, .edit u!"data" [7, 7], .go, .go]
    Spec.Always countBytes u!"cache" [u!"data"] (fun w e => Spec.ClockOk u!"cache" [u!"data"] w e ∧ Spec.Undisturbed [u!"data"] w e) freshEdits
      (before ++ .begin (5 : Nat) (1 : Nat) :: during) ∧
    (editRun countBytes u!"cache" [u!"data"] freshEdits before).phase = .idle ∧
    callEnd countBytes u!"cache" [u!"data"] (editRun countBytes u!"cache" [u!"data"] freshEdits before) (.begin (5 : Nat) (1 : Nat) :: during) = some (.ok (6 : Nat), false) ∧
    countBytes (editRun countBytes u!"cache" [u!"data"] freshEdits (before ++ .begin (5 : Nat) (1 : Nat) :: during)).fs (5 : Nat) (1 : Nat) = .ok (8 : Nat) := by
  refine ⟨⟨⟨trivial, trivial⟩, ⟨trivial, trivial⟩, ⟨trivial, trivial⟩, ⟨trivial, trivial⟩, ⟨trivial, trivial⟩, ⟨trivial, trivial⟩, ⟨⟨by decide, ?_⟩, fun _ => trivial⟩,
    ⟨trivial, trivial⟩, ⟨trivial, trivial⟩, trivial⟩, rfl, rfl, rfl⟩
  intro _ f hf
  have : (some ⟨[1,1,1,1,1,0,1,0,1,1,1,1,1,1,0], 0⟩ : Option File) = some f := hf
  cases this
  exact Nat.zero_lt_one

/-- A method to which the exact condition applies, and for which it fails. -/
example : PickleSpec unary ∧ (∀ a, unary.eq a a = .ok true) ∧ (∀ fs a p o, countBytes fs a p = .ok o → (storedBytes unary o a p).2 = none) ∧
    ¬ ∀ (fs fs' : FS) a p o, (∀ q ∈ [u!"data"], ∃ f, fs q = some f) → (∀ q ∈ [u!"data"], ∃ f, fs' q = some f) → countBytes fs a p = .ok o → unary.isNone o = false →
      countBytes fs' a p = .ok o := by
  refine ⟨unary_spec, fun (a : Nat) => by show Except.ok (a == a) = _; simp, fun _ _ _ _ _ => rfl, fun H => ?_⟩
  have h : countBytes (freshDisk.fs.write u!"data" [7] 0) (5 : Nat) (1 : Nat) = .ok (6 : Nat) :=
    H freshDisk.fs (freshDisk.fs.write u!"data" [7] 0) (5 : Nat) (1 : Nat) (6 : Nat) freshEdits_start.exist (by
    intro q hq
    simp only [List.mem_singleton] at hq
    subst hq
    exact ⟨_, rfl⟩) rfl rfl
  cases h

end Cjk
