import Verif.Props.CacheEdits
/-!
# C149: how the calls of a disk cache end

Without any condition on methods, files and other programs.
-/

namespace Cjk
open Py

variable {P : PickleObjects}

/-- The method ran and this came of it: its exception, or its result, or the exception of storing its result. -/
def Spec.RanWith (method : DiskMethod P) (view : FS) (a p : P.Obj) (r : Except PyErr P.Obj) : Prop :=
  (∃ e, method view a p = .error e ∧ r = .error e) ∨
  ∃ o, method view a p = .ok o ∧ (((storedBytes P o a p).2 = none ∧ r = .ok o) ∨ ∃ e, (storedBytes P o a p).2 = some e ∧ r = .error e)

/-- The state of a call; `M` holds of a path and a file if the path had this file at some moment of the call. -/
def Underway (method : DiskMethod P) (files : List Path) (M : Path → Option File → Prop) (a p : P.Obj) : EditPhase P → Prop
  | .idle => False
  | .checking a' p' _ todo => a' = a ∧ p' = p ∧ ∀ q ∈ todo, q ∈ files
  | .loading a' p' => a' = a ∧ p' = p
  | .running a' p' seen => a' = a ∧ p' = p ∧ ∀ q, M q (seen q)
  | .storing a' p' o => a' = a ∧ p' = p ∧ ∃ view : FS, (∀ q, M q (view q)) ∧ method view a p = .ok o

/-- How the call ends. -/
def Spec.EndsSo (method : DiskMethod P) (file : Path) (files : List Path) (M : Path → Option File → Prop) (a p : P.Obj) (r : CallEnd P) : Prop :=
  (r.2 = true ∧ ∃ view : FS, (∀ q, M q (view q)) ∧ Spec.RanWith method view a p r.1) ∨
  (r.2 = false ∧ ((∃ f o, M file (some f) ∧ loadCached P f.bytes a p = some o ∧ r.1 = .ok o) ∨ ∃ q ∈ files, M q none ∧ r.1 = .error .osError))

theorem Underway.mono {method : DiskMethod P} {files : List Path} {M M' : Path → Option File → Prop} {a p : P.Obj} {ph : EditPhase P}
    (h : Underway method files M a p ph) (hM : ∀ q f, M q f → M' q f) : Underway method files M' a p ph := by
  cases ph with
  | idle => exact h
  | checking _ _ _ _ => exact h
  | loading _ _ => exact h
  | running _ _ _ => exact ⟨h.1, h.2.1, fun q => hM _ _ (h.2.2 q)⟩
  | storing _ _ _ =>
    obtain ⟨h1, h2, v, hv, ho⟩ := h
    exact ⟨h1, h2, v, fun q => hM _ _ (hv q), ho⟩

theorem underway_step (method : DiskMethod P) (file : Path) (files : List Path) (M : Path → Option File → Prop) (a p : P.Obj) (w : EditWorld P) (e : EditEv P)
    (h : Underway method files M a p w.phase) (hM : ∀ q, M q (w.fs q)) :
    match (editStep method file files w e).2 with
    | none => Underway method files (fun q f => M q f ∨ (editStep method file files w e).1.fs q = f) a p (editStep method file files w e).1.phase
    | some r => Spec.EndsSo method file files M a p r := by
  obtain ⟨fs, now, ph⟩ := w
  simp only at h hM
  cases e with
  | wait n => exact h.mono (fun _ _ => Or.inl)
  | edit q b => exact h.mono (fun _ _ => Or.inl)
  | begin a' p' =>
    cases ph with
    | idle => exact h.elim
    | checking _ _ _ _ => exact h
    | loading _ _ => exact h
    | running _ _ _ => exact h.mono (fun _ _ => Or.inl)
    | storing _ _ _ => exact h.mono (fun _ _ => Or.inl)
  | read q =>
    cases ph with
    | idle => exact h.elim
    | checking _ _ _ _ => exact h
    | loading _ _ => exact h
    | storing _ _ _ => exact h.mono (fun _ _ => Or.inl)
    | running a' p' seen =>
      refine ⟨h.1, h.2.1, fun x => ?_⟩
      simp only
      by_cases hx : x = q
      · rw [if_pos hx]; exact Or.inr rfl
      · rw [if_neg hx]; exact Or.inl (h.2.2 x)
  | go =>
    cases ph with
    | idle => exact h.elim
    | checking a' p' t todo =>
      obtain ⟨rfl, rfl, ht⟩ := h
      cases todo with
      | nil => exact ⟨rfl, rfl⟩
      | cons q todo =>
        simp only [editStep, EditWorld.go]
        cases hg : getmtime fs q with
        | error x =>
          have hq : fs q = none ∧ x = .osError := by
            unfold getmtime at hg
            cases hf : fs q with
            | none => rw [hf] at hg; cases hg; exact ⟨rfl, rfl⟩
            | some f => rw [hf] at hg; cases hg
          exact Or.inr ⟨rfl, Or.inr ⟨q, ht q (by simp), hq.1 ▸ hM q, by rw [hq.2]⟩⟩
        | ok m =>
          simp only
          by_cases hm : m > t
          · rw [if_pos hm]; exact ⟨rfl, rfl, fun q => Or.inl (hM q)⟩
          · rw [if_neg hm]; exact ⟨rfl, rfl, fun q hq => ht q (by simp [hq])⟩
    | loading a' p' =>
      obtain ⟨rfl, rfl⟩ := h
      simp only [editStep, EditWorld.go]
      cases hf : fs file with
      | none => exact ⟨rfl, rfl, fun q => Or.inl (hM q)⟩
      | some f =>
        simp only
        cases hl : loadCached P f.bytes a' p' with
        | none => exact ⟨rfl, rfl, fun q => Or.inl (hM q)⟩
        | some o => exact Or.inr ⟨rfl, Or.inl ⟨f, o, hf ▸ hM file, hl, rfl⟩⟩
    | running a' p' seen =>
      obtain ⟨rfl, rfl, hs⟩ := h
      simp only [editStep, EditWorld.go]
      cases hr : method seen a' p' with
      | error x => exact Or.inl ⟨rfl, seen, hs, Or.inl ⟨x, hr, rfl⟩⟩
      | ok o => exact ⟨rfl, rfl, seen, fun q => Or.inl (hs q), hr⟩
    | storing a' p' o =>
      obtain ⟨rfl, rfl, v, hv, ho⟩ := h
      simp only [editStep, EditWorld.go]
      cases hb : storedBytes P o a' p' with
      | mk b x =>
        cases x with
        | none => exact Or.inl ⟨rfl, v, hv, Or.inr ⟨o, ho, Or.inl ⟨by rw [hb], rfl⟩⟩⟩
        | some x => exact Or.inl ⟨rfl, v, hv, Or.inr ⟨o, ho, Or.inr ⟨x, by rw [hb], rfl⟩⟩⟩

theorem endsSo_mono {method : DiskMethod P} {file : Path} {files : List Path} {M M' : Path → Option File → Prop} {a p : P.Obj} {r : CallEnd P}
    (h : Spec.EndsSo method file files M a p r) (hM : ∀ q f, M q f → M' q f) : Spec.EndsSo method file files M' a p r := by
  rcases h with ⟨h1, v, h2, h3⟩ | ⟨h1, ⟨f, o, h2, h3⟩ | ⟨q, hq, h2, h3⟩⟩
  · exact Or.inl ⟨h1, v, fun q => hM _ _ (h2 q), h3⟩
  · exact Or.inr ⟨h1, Or.inl ⟨f, o, hM _ _ h2, h3⟩⟩
  · exact Or.inr ⟨h1, Or.inr ⟨q, hq, hM _ _ h2, h3⟩⟩

theorem underway_end (method : DiskMethod P) (file : Path) (files : List Path) (a p : P.Obj) (evs : List (EditEv P)) (M : Path → Option File → Prop) (w : EditWorld P)
    (h : Underway method files M a p w.phase) (hM : ∀ q, M q (w.fs q)) (r : CallEnd P) (hr : callEnd method file files w evs = some r) :
    Spec.EndsSo method file files (fun q f => M q f ∨ ∃ pre, pre <+: evs ∧ (editRun method file files w pre).fs q = f) a p r := by
  induction evs generalizing w M with
  | nil => cases hr
  | cons e evs ih =>
    have hs := underway_step method file files M a p w e h hM
    unfold callEnd at hr
    cases hc : (editStep method file files w e).2 with
    | some r' =>
      rw [hc] at hr hs
      cases hr
      exact endsSo_mono hs (fun _ _ => Or.inl)
    | none =>
      rw [hc] at hr hs
      refine endsSo_mono (ih _ _ hs (fun q => Or.inr rfl) hr) (fun q f hq => ?_)
      rcases hq with (hq | hq) | ⟨pre, hp, hq⟩
      · exact Or.inl hq
      · exact Or.inr ⟨[e], ⟨evs, rfl⟩, hq⟩
      · exact Or.inr ⟨e :: pre, List.cons_prefix_cons.2 ⟨rfl, hp⟩, hq⟩

/-- C149: how a call ends, whatever the method and whatever other programs do (also with the cache file).  If the method ran, the call ends as the method does for files which were there
at moments of this call, except that an exception of pickling the result is raised; nothing else is ever raised or hidden.  If the method did not run, the call returns what the cache file of some moment of this
call has for these arguments, or raises OSError because a dependency was missing. -/
theorem C149_ends (method : DiskMethod P) (file : Path) (files : List Path) (w : EditWorld P) (hw : w.phase = .idle) (a p : P.Obj) (during : List (EditEv P))
    (r : CallEnd P) (hr : callEnd method file files w (.begin a p :: during) = some r) :
    Spec.EndsSo method file files (fun q f => ∃ pre, pre <+: during ∧ (editRun method file files w (.begin a p :: pre)).fs q = f) a p r := by
  have hb : (editStep method file files w (.begin a p)).2 = none ∧ (editStep method file files w (.begin a p)).1.fs = w.fs ∧
      Underway method files (fun q f => w.fs q = f) a p (editStep method file files w (.begin a p)).1.phase := by
    obtain ⟨fs, now, ph⟩ := w
    simp only at hw
    subst hw
    simp only [editStep]
    cases hf : fs file with
    | none => exact ⟨rfl, rfl, rfl, rfl, fun q => rfl⟩
    | some f => exact ⟨rfl, rfl, rfl, rfl, fun q hq => hq⟩
  unfold callEnd at hr
  rw [hb.1] at hr
  refine endsSo_mono (underway_end method file files a p during _ _ hb.2.2 (fun q => by rw [hb.2.1]) r hr) (fun q f hq => ?_)
  rcases hq with hq | ⟨pre, hp, hq⟩
  · exact ⟨[], List.nil_prefix, by rw [← hq, ← hb.2.1]; rfl⟩
  · exact ⟨pre, hp, hq⟩

/-- A call that ends while another program writes the dependency. -/
example : freshEdits.phase = .idle ∧
    callEnd countBytes u!"cache" [u!"data"] freshEdits (.begin (5 : Nat) (1 : Nat) :: [.edit u!"data" [7, 7], .read u!"data", .go, .wait 1, .go]) = some (.ok (8 : Nat), true) :=
  ⟨rfl, rfl⟩

end Cjk
