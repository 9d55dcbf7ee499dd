import Verif.Props.CacheObjects
import Verif.Spec.DiskRec

/-!
# C143: disk caches around methods that call each other
-/

namespace Cjk
open Py
open Spec (NestEnds NestGives NestCalls NestStart NestStorable NestAgree)

variable {M : Type} {P : PickleObjects}

/-! ### Depth -/

theorem nestRun_mono {f g : M → P.Obj → P.Obj → Disk → Option (NestResult M P)} (h : ∀ m a p d x, f m a p d = some x → g m a p d = some x) :
    ∀ (q : DiskProg M P) (d : Disk) (x : NestResult M P), q.run f d = some x → q.run g d = some x := by
  intro q
  induction q with
  | ret r => intro d x hx; exact hx
  | wait n next ih => intro d x hx; exact ih _ x hx
  | call m a p next ih =>
    intro d x hx
    simp only [DiskProg.run] at hx ⊢
    cases e : f m a p d with
    | none => rw [e] at hx; cases hx
    | some y =>
      obtain ⟨r, d', l⟩ := y
      rw [e] at hx
      rw [h _ _ _ _ _ e]
      simp only at hx ⊢
      cases e2 : (next r).run f d' with
      | none => rw [e2] at hx; cases hx
      | some z => rw [e2] at hx; rw [ih r d' z e2]; exact hx

theorem nest_step (S : Wrapped M P) (order : List Path → List Path) : ∀ (n : Nat) (m : M) (a p : P.Obj) (d : Disk) (x : NestResult M P),
    proxyNest S order n m a p d = some x → proxyNest S order (n + 1) m a p d = some x := by
  intro n
  induction n with
  | zero => intro m a p d x h; cases h
  | succ n ih =>
    intro m a p d x h
    rw [proxyNest] at h ⊢
    cases e : tryCache P order d.fs (S.file m) a p (S.deps m) with
    | error e' => rw [e] at h; exact h
    | ok c =>
      rw [e] at h
      cases c with
      | some o => exact h
      | none =>
        simp only at h ⊢
        cases e2 : (S.body m a p).run (proxyNest S order n) d with
        | none => rw [e2] at h; cases h
        | some y => rw [nestRun_mono (fun m a p d x => ih m a p d x) _ _ _ e2]; rw [e2] at h; exact h

theorem nest_mono (S : Wrapped M P) (order : List Path → List Path) {n n' : Nat} (hn : n ≤ n') {m : M} {a p : P.Obj} {d : Disk} {x : NestResult M P}
    (h : proxyNest S order n m a p d = some x) : proxyNest S order n' m a p d = some x := by
  induction hn with
  | refl => exact h
  | step _ ih => exact nest_step S order _ m a p d x ih

/-! ### What calls leave alone -/

/-- The disk is the one of the beginning except for later cache files. -/
structure NestFrame (S : Wrapped M P) (d0 d : Disk) : Prop where
  others : ∀ q, (∀ m, q ≠ S.file m) → d.fs q = d0.fs q
  later : d0.now ≤ d.now
  files : ∀ m f, d.fs (S.file m) = some f → d0.now ≤ f.mtime

theorem nestFrame_start {S : Wrapped M P} {d0 : Disk} (h : NestStart S d0) : NestFrame S d0 d0 :=
  ⟨fun _ _ => rfl, Nat.le_refl _, by intro m f hf; rw [(h m).1] at hf; cases hf⟩

theorem nestFrame_wait {S : Wrapped M P} {d0 d : Disk} (h : NestFrame S d0 d) (n : Nat) : NestFrame S d0 { d with now := d.now + n } :=
  ⟨h.others, Nat.le_trans h.later (Nat.le_add_right _ _), h.files⟩

theorem nestFrame_write {S : Wrapped M P} {d0 d : Disk} (h : NestFrame S d0 d) (m : M) (b : List Nat) :
    NestFrame S d0 { d with fs := d.fs.write (S.file m) b d.now } := by
  refine ⟨?_, h.later, ?_⟩
  · intro q hq
    show (if q = S.file m then _ else _) = _
    rw [if_neg (hq m)]
    exact h.others q hq
  · intro m' f hf
    change (if S.file m' = S.file m then _ else _) = _ at hf
    split at hf
    · cases hf; exact h.later
    · exact h.files m' f hf

theorem nestFrame_run {S : Wrapped M P} {d0 : Disk} {f : M → P.Obj → P.Obj → Disk → Option (NestResult M P)}
    (hf : ∀ m a p d r d' l, NestFrame S d0 d → f m a p d = some (r, d', l) → NestFrame S d0 d') :
    ∀ (q : DiskProg M P) (d : Disk) (r : Except PyErr P.Obj) (d' : Disk) (l : List (M × P.Obj × P.Obj)), NestFrame S d0 d →
      q.run f d = some (r, d', l) → NestFrame S d0 d' := by
  intro q
  induction q with
  | ret r => intro d r' d' l h hx; simp only [DiskProg.run, Option.some.injEq, Prod.mk.injEq] at hx; obtain ⟨_, rfl, _⟩ := hx; exact h
  | wait n next ih => intro d r d' l h hx; exact ih _ r d' l (nestFrame_wait h n) hx
  | call m a p next ih =>
    intro d r d' l h hx
    simp only [DiskProg.run] at hx
    cases e : f m a p d with
    | none => rw [e] at hx; cases hx
    | some y =>
      obtain ⟨r1, d1, l1⟩ := y
      rw [e] at hx
      simp only at hx
      cases e2 : (next r1).run f d1 with
      | none => rw [e2] at hx; cases hx
      | some z =>
        obtain ⟨r2, d2, l2⟩ := z
        rw [e2] at hx
        simp only [Option.some.injEq, Prod.mk.injEq] at hx
        obtain ⟨_, rfl, _⟩ := hx
        exact ih r1 d1 r2 d2 l2 (hf _ _ _ _ _ _ _ h e) e2

theorem nestFrame_proxy {S : Wrapped M P} {order : List Path → List Path} {d0 : Disk} : ∀ (n : Nat) (m : M) (a p : P.Obj) (d : Disk)
    (r : Except PyErr P.Obj) (d' : Disk) (l : List (M × P.Obj × P.Obj)), NestFrame S d0 d → proxyNest S order n m a p d = some (r, d', l) →
    NestFrame S d0 d' := by
  intro n
  induction n with
  | zero => intro m a p d r d' l _ h; cases h
  | succ n ih =>
    intro m a p d r d' l hd h
    rw [proxyNest] at h
    cases e : tryCache P order d.fs (S.file m) a p (S.deps m) with
    | error e' => rw [e] at h; simp only [Option.some.injEq, Prod.mk.injEq] at h; obtain ⟨_, rfl, _⟩ := h; exact hd
    | ok c =>
      rw [e] at h
      cases c with
      | some o => simp only [Option.some.injEq, Prod.mk.injEq] at h; obtain ⟨_, rfl, _⟩ := h; exact hd
      | none =>
        simp only at h
        cases e2 : (S.body m a p).run (proxyNest S order n) d with
        | none => rw [e2] at h; cases h
        | some y =>
          obtain ⟨r1, d1, l1⟩ := y
          have h1 := nestFrame_run (fun m a p d r d' l => ih m a p d r d' l) _ _ _ _ _ hd e2
          rw [e2] at h
          cases r1 with
          | error e' => simp only [Option.some.injEq, Prod.mk.injEq] at h; obtain ⟨_, rfl, _⟩ := h; exact h1
          | ok o =>
            simp only at h
            cases e3 : storedBytes P o a p with
            | mk b s =>
              rw [e3] at h
              cases s with
              | none => simp only [Option.some.injEq, Prod.mk.injEq] at h; obtain ⟨_, rfl, _⟩ := h; exact nestFrame_write h1 m b
              | some e' => simp only [Option.some.injEq, Prod.mk.injEq] at h; obtain ⟨_, rfl, _⟩ := h; exact nestFrame_write h1 m b

theorem nestFrame_calls {S : Wrapped M P} {order : List Path → List Path} {d0 : Disk} (h0 : NestStart S d0) {hist d} (h : NestCalls S order d0 hist d) :
    NestFrame S d0 d := by
  induction h with
  | none => exact nestFrame_start h0
  | wait hist d n _ ih => exact nestFrame_wait ih n
  | more hist d d' n m a p r l _ h ih => exact nestFrame_proxy n m a p d r d' l ih h

/-- A cache file that is there can be used. -/
theorem nest_fresh {S : Wrapped M P} {order : List Path → List Path} (ho : Spec.SetOrder order) {d0 d : Disk} (h0 : NestStart S d0) (hd : NestFrame S d0 d)
    (m : M) {f : File} (hf : d.fs (S.file m) = some f) : needsUpdate order d.fs (S.file m) (S.deps m) = .ok false := by
  have hsame : ∀ dep ∈ S.deps m, ∀ q, Spec.DependsOn dep q → d.fs q = d0.fs q := by
    intro dep hdep q hq
    obtain ⟨f', hf'⟩ := (h0 m).2.1.2 dep hdep q hq
    refine hd.others q ?_
    rintro m' rfl
    rw [(h0 m').1] at hf'
    cases hf'
  have hg : Spec.GoodDeps d.fs (S.deps m) := by
    refine ⟨(h0 m).2.1.1, ?_⟩
    intro dep hdep q hq
    rw [hsame dep hdep q hq]
    exact (h0 m).2.1.2 dep hdep q hq
  obtain ⟨b, hb, hb'⟩ := C26_needs_update_exact order ho d.fs (S.file m) (S.deps m) hg
  cases b with
  | false => exact hb
  | true =>
    exfalso
    obtain ⟨dep, hdep, q, hq, g, hg1, hg2⟩ := hb'.1 rfl f hf
    rw [hsame dep hdep q hq] at hg1
    exact (h0 m).2.2 ⟨dep, hdep, q, hq, g, hg1, Nat.lt_of_le_of_lt (hd.files m f hf) hg2⟩

/-! ### All outcomes are right -/

/-- Every cache file holds the outcome of a call of a method that uses the file. -/
def NestOk (S : Wrapped M P) (d : Disk) : Prop :=
  ∀ m f, d.fs (S.file m) = some f → ∃ m0 a0 p0 o, S.file m0 = S.file m ∧ NestGives S m0 a0 p0 (.ok o) ∧ storedBytes P o a0 p0 = (f.bytes, none)

theorem nestOk_write {S : Wrapped M P} {d : Disk} (h : NestOk S d) {m : M} {a p o : P.Obj} {b : List Nat} (hg : NestGives S m a p (.ok o))
    (hb : storedBytes P o a p = (b, none)) : NestOk S { d with fs := d.fs.write (S.file m) b d.now } := by
  intro m' f hf
  change (if S.file m' = S.file m then _ else _) = _ at hf
  split at hf
  · rename_i e
    cases hf
    exact ⟨m, a, p, o, e.symm, hg, hb⟩
  · exact h m' f hf

/-- What `try_cache` finds. -/
theorem nest_try (hP : PickleSpec P) {S : Wrapped M P} {order : List Path → List Path} (ho : Spec.SetOrder order) {d0 d : Disk} (h0 : NestStart S d0)
    (hd : NestFrame S d0 d) (hok : NestOk S d) (m : M) (a p : P.Obj) :
    tryCache P order d.fs (S.file m) a p (S.deps m) = .ok none ∨
    ∃ m0 a0 p0 o, S.file m0 = S.file m ∧ NestGives S m0 a0 p0 (.ok o) ∧ P.isNone o = false ∧ P.eq a0 a = .ok true ∧ P.eq p0 p = .ok true ∧
      tryCache P order d.fs (S.file m) a p (S.deps m) = .ok (some o) := by
  cases hf : d.fs (S.file m) with
  | none => exact .inl (tryCache_missing hf a p)
  | some f =>
    obtain ⟨m0, a0, p0, o, h1, h2, h3⟩ := hok m f hf
    have ht := tryCache_fresh (P := P) (b := f.bytes) (now := f.mtime) hf (nest_fresh ho h0 hd m hf) a p
    have hl := loadCached_complete hP h3 a p
    by_cases hc : P.isNone o = false ∧ P.eq a0 a = .ok true ∧ P.eq p0 p = .ok true
    · right
      refine ⟨m0, a0, p0, o, h1, h2, hc.1, hc.2.1, hc.2.2, ?_⟩
      rw [ht, hl.1 hc]
    · left
      rw [ht, hl.2 hc]

theorem nestRun_gives {S : Wrapped M P} {d0 : Disk} {f : M → P.Obj → P.Obj → Disk → Option (NestResult M P)}
    (hf : ∀ m a p d r d' l, NestFrame S d0 d → NestOk S d → f m a p d = some (r, d', l) → NestGives S m a p r ∧ NestFrame S d0 d' ∧ NestOk S d') :
    ∀ (q : DiskProg M P) (d : Disk) (r : Except PyErr P.Obj) (d' : Disk) (l : List (M × P.Obj × P.Obj)), NestFrame S d0 d → NestOk S d →
      q.run f d = some (r, d', l) → NestEnds S q r ∧ NestFrame S d0 d' ∧ NestOk S d' := by
  intro q
  induction q with
  | ret r =>
    intro d r' d' l h hok hx
    simp only [DiskProg.run, Option.some.injEq, Prod.mk.injEq] at hx
    obtain ⟨rfl, rfl, _⟩ := hx
    exact ⟨.ret _, h, hok⟩
  | wait n next ih =>
    intro d r d' l h hok hx
    obtain ⟨h1, h2⟩ := ih { d with now := d.now + n } r d' l (nestFrame_wait h n) hok hx
    exact ⟨.wait n next r h1, h2⟩
  | call m a p next ih =>
    intro d r d' l h hok hx
    simp only [DiskProg.run] at hx
    cases e : f m a p d with
    | none => rw [e] at hx; cases hx
    | some y =>
      obtain ⟨r1, d1, l1⟩ := y
      rw [e] at hx
      simp only at hx
      cases e2 : (next r1).run f d1 with
      | none => rw [e2] at hx; cases hx
      | some z =>
        obtain ⟨r2, d2, l2⟩ := z
        rw [e2] at hx
        simp only [Option.some.injEq, Prod.mk.injEq] at hx
        obtain ⟨rfl, rfl, _⟩ := hx
        obtain ⟨g1, g2, g3⟩ := hf _ _ _ _ _ _ _ h hok e
        obtain ⟨k1, k2⟩ := ih r1 d1 r2 d2 l2 g2 g3 e2
        exact ⟨.call m a p next r1 r2 g1 k1, k2⟩

theorem nest_gives (hP : PickleSpec P) {S : Wrapped M P} {order : List Path → List Path} (ho : Spec.SetOrder order) {d0 : Disk} (h0 : NestStart S d0)
    (hs : NestStorable S) (ha : NestAgree S) : ∀ (n : Nat) (m : M) (a p : P.Obj) (d : Disk) (r : Except PyErr P.Obj) (d' : Disk)
    (l : List (M × P.Obj × P.Obj)), NestFrame S d0 d → NestOk S d → proxyNest S order n m a p d = some (r, d', l) →
    NestGives S m a p r ∧ NestFrame S d0 d' ∧ NestOk S d' := by
  intro n
  induction n with
  | zero => intro m a p d r d' l _ _ h; cases h
  | succ n ih =>
    intro m a p d r d' l hd hok h
    have hfr := nestFrame_proxy (n + 1) m a p d r d' l hd h
    rw [proxyNest] at h
    rcases nest_try hP ho h0 hd hok m a p with e | ⟨m0, a0, p0, o, h1, h2, h3, h4, h5, e⟩
    · rw [e] at h
      simp only at h
      cases e2 : (S.body m a p).run (proxyNest S order n) d with
      | none => rw [e2] at h; cases h
      | some y =>
        obtain ⟨r1, d1, l1⟩ := y
        obtain ⟨g1, g2, g3⟩ := nestRun_gives (fun m a p d r d' l => ih m a p d r d' l) _ _ _ _ _ hd hok e2
        rw [e2] at h
        cases r1 with
        | error e' =>
          simp only [Option.some.injEq, Prod.mk.injEq] at h
          obtain ⟨rfl, rfl, _⟩ := h
          exact ⟨g1, hfr, g3⟩
        | ok o =>
          simp only at h
          have hst := hs m a p o g1
          cases e3 : storedBytes P o a p with
          | mk b s =>
            rw [e3] at h hst
            simp only at hst
            subst hst
            simp only [Option.some.injEq, Prod.mk.injEq] at h
            obtain ⟨rfl, rfl, _⟩ := h
            exact ⟨g1, hfr, nestOk_write g3 g1 e3⟩
    · rw [e] at h
      simp only [Option.some.injEq, Prod.mk.injEq] at h
      obtain ⟨rfl, rfl, _⟩ := h
      exact ⟨ha m0 m a0 p0 o a p h1 h2 h3 h4 h5, hfr, hok⟩

theorem nestOk_calls (hP : PickleSpec P) {S : Wrapped M P} {order : List Path → List Path} (ho : Spec.SetOrder order) {d0 : Disk} (h0 : NestStart S d0)
    (hs : NestStorable S) (ha : NestAgree S) {hist d} (h : NestCalls S order d0 hist d) : NestOk S d := by
  induction h with
  | none => intro m f hf; rw [(h0 m).1] at hf; cases hf
  | wait hist d n _ ih => exact ih
  | more hist d d' n m a p r l hc h ih => exact (nest_gives hP ho h0 hs ha n m a p d r d' l (nestFrame_calls h0 hc) ih h).2.2

/-- A method gives at most one outcome. -/
theorem nestEnds_unique {S : Wrapped M P} {q : DiskProg M P} {r : Except PyErr P.Obj} (h : NestEnds S q r) : ∀ {r'}, NestEnds S q r' → r = r' := by
  induction h with
  | ret r => intro r' h'; cases h'; rfl
  | wait n next r _ ih => intro r' h'; cases h' with | wait _ _ _ h => exact ih h
  | call m a p next r r1 _ _ ih1 ih2 =>
    intro r' h'
    cases h' with
    | call _ _ _ _ r2 _ k1 k2 => cases ih1 k1; exact ih2 k2

/-- A body that ends without caches ends with them. -/
theorem nest_ends (hP : PickleSpec P) {S : Wrapped M P} {order : List Path → List Path} (ho : Spec.SetOrder order) {d0 : Disk} (h0 : NestStart S d0)
    (hs : NestStorable S) (ha : NestAgree S) {q : DiskProg M P} {r : Except PyErr P.Obj} (h : NestEnds S q r) :
    ∀ d, NestFrame S d0 d → NestOk S d → ∃ n d' l, q.run (proxyNest S order n) d = some (r, d', l) := by
  induction h with
  | ret r => intro d _ _; exact ⟨0, d, [], rfl⟩
  | wait k next r _ ih => intro d hd hok; exact ih _ (nestFrame_wait hd k) hok
  | call m a p next r r1 hb hn ih1 ih2 =>
    intro d hd hok
    -- the call ends
    have hcall : ∃ n d' l, proxyNest S order n m a p d = some (r, d', l) := by
      rcases nest_try hP ho h0 hd hok m a p with e | ⟨m0, a0, p0, o, h1, h2, h3, h4, h5, e⟩
      · obtain ⟨n, d1, l1, e2⟩ := ih1 d hd hok
        cases r with
        | error e' => exact ⟨n + 1, d1, (m, a, p) :: l1, by rw [proxyNest, e]; simp only [e2]⟩
        | ok o =>
          have hst := hs m a p o hb
          cases e3 : storedBytes P o a p with
          | mk b s =>
            rw [e3] at hst
            simp only at hst
            subst hst
            exact ⟨n + 1, { d1 with fs := d1.fs.write (S.file m) b d1.now }, (m, a, p) :: l1, by rw [proxyNest, e]; simp only [e2, e3]⟩
      · have := nestEnds_unique (ha m0 m a0 p0 o a p h1 h2 h3 h4 h5) hb
        subst this
        exact ⟨1, d, [], by rw [proxyNest, e]⟩
    obtain ⟨n, d1, l1, e1⟩ := hcall
    obtain ⟨_, g2, g3⟩ := nest_gives hP ho h0 hs ha n m a p d r d1 l1 hd hok e1
    obtain ⟨n2, d2, l2, e2⟩ := ih2 d1 g2 g3
    refine ⟨max n n2, d2, l1 ++ l2, ?_⟩
    simp only [DiskProg.run]
    rw [nest_mono S order (Nat.le_max_left n n2) e1]
    simp only
    rw [nestRun_mono (fun m a p d x => nest_mono S order (Nat.le_max_right n n2)) _ _ _ e2]

theorem nest_call_ends (hP : PickleSpec P) {S : Wrapped M P} {order : List Path → List Path} (ho : Spec.SetOrder order) {d0 : Disk} (h0 : NestStart S d0)
    (hs : NestStorable S) (ha : NestAgree S) {m : M} {a p : P.Obj} {r : Except PyErr P.Obj} (h : NestGives S m a p r) (d : Disk) (hd : NestFrame S d0 d)
    (hok : NestOk S d) : ∃ n d' l, proxyNest S order n m a p d = some (r, d', l) := by
  obtain ⟨n, d', l, e⟩ := nest_ends hP ho h0 hs ha (NestEnds.call m a p (fun r => .ret r) r r h (.ret r)) d hd hok
  simp only [DiskProg.run] at e
  cases e1 : proxyNest S order n m a p d with
  | none => rw [e1] at e; cases e
  | some y =>
    obtain ⟨r1, d1, l1⟩ := y
    rw [e1] at e
    simp only [Option.some.injEq, Prod.mk.injEq] at e
    obtain ⟨rfl, rfl, rfl⟩ := e
    exact ⟨n, d1, l1, e1⟩

/-- After a call whose method ran and returned, the file holds this call. -/
theorem nest_stored (hP : PickleSpec P) {S : Wrapped M P} {order : List Path → List Path} (ho : Spec.SetOrder order) {d0 : Disk} (h0 : NestStart S d0)
    {n : Nat} {m : M} {a0 p0 o : P.Obj} {d d' : Disk} {l : List (M × P.Obj × P.Obj)} (hd : NestFrame S d0 d) (hl : l ≠ [])
    (h : proxyNest S order n m a0 p0 d = some (.ok o, d', l)) (m' : M) (hm : S.file m' = S.file m) (a p : P.Obj) :
    tryCache P order d'.fs (S.file m') a p (S.deps m') =
      .ok (if P.isNone o = false ∧ P.eq a0 a = .ok true ∧ P.eq p0 p = .ok true then some o else none) := by
  have hfr := nestFrame_proxy n m a0 p0 d _ d' l hd h
  cases n with
  | zero => cases h
  | succ n =>
    rw [proxyNest] at h
    cases e : tryCache P order d.fs (S.file m) a0 p0 (S.deps m) with
    | error e' => rw [e] at h; simp only [Option.some.injEq, Prod.mk.injEq] at h; exact absurd h.2.2.symm hl
    | ok c =>
      rw [e] at h
      cases c with
      | some o => simp only [Option.some.injEq, Prod.mk.injEq] at h; exact absurd h.2.2.symm hl
      | none =>
        simp only at h
        cases e2 : (S.body m a0 p0).run (proxyNest S order n) d with
        | none => rw [e2] at h; cases h
        | some y =>
          obtain ⟨r1, d1, l1⟩ := y
          rw [e2] at h
          cases r1 with
          | error e' => simp only [Option.some.injEq, Prod.mk.injEq] at h; cases h.1
          | ok o1 =>
            simp only at h
            cases e3 : storedBytes P o1 a0 p0 with
            | mk b s =>
              rw [e3] at h
              cases s with
              | some e' => simp only [Option.some.injEq, Prod.mk.injEq] at h; cases h.1
              | none =>
                simp only [Option.some.injEq, Prod.mk.injEq, Except.ok.injEq] at h
                obtain ⟨rfl, rfl, _⟩ := h
                have hf : (d1.fs.write (S.file m) b d1.now) (S.file m') = some ⟨b, d1.now⟩ := by simp [FS.write, hm]
                have ht := tryCache_fresh (P := P) hf (nest_fresh ho h0 hfr m' hf) a p
                have hl := loadCached_complete hP e3 a p
                show tryCache P order (d1.fs.write (S.file m) b d1.now) (S.file m') a p (S.deps m') = _
                rw [ht]
                split
                · rename_i hc; rw [hl.1 hc]
                · rename_i hc; rw [hl.2 hc]

/-- The first call runs the method. -/
theorem nest_first {S : Wrapped M P} {order : List Path → List Path} {d : Disk} {n : Nat} {m : M} {a p : P.Obj} {r : Except PyErr P.Obj} {d' : Disk}
    {l : List (M × P.Obj × P.Obj)} (ht : tryCache P order d.fs (S.file m) a p (S.deps m) = .ok none)
    (h : proxyNest S order n m a p d = some (r, d', l)) : ∃ l', l = (m, a, p) :: l' := by
  cases n with
  | zero => cases h
  | succ n =>
    rw [proxyNest, ht] at h
    simp only at h
    cases e2 : (S.body m a p).run (proxyNest S order n) d with
    | none => rw [e2] at h; cases h
    | some y =>
      obtain ⟨r1, d1, l1⟩ := y
      rw [e2] at h
      cases r1 with
      | error e' => simp only [Option.some.injEq, Prod.mk.injEq] at h; exact ⟨l1, h.2.2.symm⟩
      | ok o =>
        simp only at h
        cases e3 : storedBytes P o a p with
        | mk b s =>
          rw [e3] at h
          cases s with
          | none => simp only [Option.some.injEq, Prod.mk.injEq] at h; exact ⟨l1, h.2.2.symm⟩
          | some e' => simp only [Option.some.injEq, Prod.mk.injEq] at h; exact ⟨l1, h.2.2.symm⟩

/-- C143: methods with disk caches call each other and themselves.  After every history of calls, every call ends with an outcome exactly if it ends with this outcome
without caches, if and only if methods that share a cache file (and each method itself) give equal results for equal arguments. -/
theorem C143_same_outcome_iff (hP : PickleSpec P) (order : List Path → List Path) (ho : Spec.SetOrder order) (S : Wrapped M P) (d0 : Disk) (h0 : NestStart S d0)
    (hs : NestStorable S) :
    (∀ hist d, NestCalls S order d0 hist d → ∀ m a p r, (∃ n d' l, proxyNest S order n m a p d = some (r, d', l)) ↔ NestGives S m a p r) ↔ NestAgree S := by
  constructor
  · intro h m m' a0 p0 o a p hm hg hn h1 h2
    obtain ⟨n, d1, l, e1⟩ := (h [] d0 .none m a0 p0 (.ok o)).2 hg
    obtain ⟨l', rfl⟩ := nest_first (tryCache_missing (h0 m).1 a0 p0) e1
    have ht := nest_stored hP ho h0 (nestFrame_start h0) (List.cons_ne_nil _ _) e1 m' hm.symm a p
    rw [if_pos ⟨hn, h1, h2⟩] at ht
    exact (h _ d1 (.more [] d0 d1 n m a0 p0 (.ok o) _ .none e1) m' a p (.ok o)).1 ⟨1, d1, [], by rw [proxyNest, ht]⟩
  · intro ha hist d hc m a p r
    have hd := nestFrame_calls h0 hc
    have hok := nestOk_calls hP ho h0 hs ha hc
    constructor
    · rintro ⟨n, d', l, h⟩
      exact (nest_gives hP ho h0 hs ha n m a p d r d' l hd hok h).1
    · intro h
      exact nest_call_ends hP ho h0 hs ha h d hd hok

/-- C143: with a cache file for each method and methods that do not distinguish equal arguments, all outcomes of a history are those of the methods, and every call that
ends without caches ends. -/
theorem C143_own_files (hP : PickleSpec P) (order : List Path → List Path) (ho : Spec.SetOrder order) (S : Wrapped M P) (d0 : Disk) (h0 : NestStart S d0)
    (hs : NestStorable S) (hfile : ∀ m m', S.file m = S.file m' → m = m')
    (heq : ∀ m a0 p0 a p r, P.eq a0 a = .ok true → P.eq p0 p = .ok true → NestGives S m a0 p0 r → NestGives S m a p r)
    (hist : List (M × P.Obj × P.Obj × Except PyErr P.Obj)) (d : Disk) (hc : NestCalls S order d0 hist d) :
    (∀ x ∈ hist, NestGives S x.1 x.2.1 x.2.2.1 x.2.2.2) ∧
    ∀ m a p r, NestGives S m a p r → ∃ n d' l, proxyNest S order n m a p d = some (r, d', l) := by
  have ha : NestAgree S := by
    intro m m' a0 p0 o a p hm hg _ h1 h2
    cases hfile m m' hm
    exact heq m a0 p0 a p _ h1 h2 hg
  have key := (C143_same_outcome_iff hP order ho S d0 h0 hs).2 ha
  refine ⟨?_, fun m a p r => (key hist d hc m a p r).2⟩
  clear key
  have key := (C143_same_outcome_iff hP order ho S d0 h0 hs).2 ha
  induction hc with
  | none => intro x hx; cases hx
  | wait hist d n _ ih => exact ih
  | more hist d d' n m a p r l hc h ih =>
    intro x hx
    rcases List.mem_append.1 hx with hx | hx
    · exact ih x hx
    · rw [List.mem_singleton.1 hx]
      exact (key hist d hc m a p r).1 ⟨n, d', l, h⟩

/-- C143: the file holds the outermost call that ended last: the same call is answered from it and no method runs, also for another method that uses the file; with other
arguments, and if the result was `None`, the method runs. -/
theorem C143_last_call (hP : PickleSpec P) (order : List Path → List Path) (ho : Spec.SetOrder order) (S : Wrapped M P) (d0 : Disk) (h0 : NestStart S d0)
    (hist : List (M × P.Obj × P.Obj × Except PyErr P.Obj)) (d d1 : Disk) (hc : NestCalls S order d0 hist d) (n : Nat) (m : M) (a0 p0 o : P.Obj)
    (l : List (M × P.Obj × P.Obj)) (h : proxyNest S order n m a0 p0 d = some (.ok o, d1, l)) (hl : l ≠ []) (m' : M) (hm : S.file m' = S.file m) (a p : P.Obj) :
    (P.isNone o = false ∧ P.eq a0 a = .ok true ∧ P.eq p0 p = .ok true → proxyNest S order 1 m' a p d1 = some (.ok o, d1, [])) ∧
    (¬ (P.isNone o = false ∧ P.eq a0 a = .ok true ∧ P.eq p0 p = .ok true) → ∀ k r d2 l2, proxyNest S order k m' a p d1 = some (r, d2, l2) →
      ∃ l', l2 = (m', a, p) :: l') := by
  have ht := nest_stored hP ho h0 (nestFrame_calls h0 hc) hl h m' hm a p
  constructor
  · intro hx
    rw [if_pos hx] at ht
    rw [proxyNest, ht]
  · intro hx k r d2 l2 hk
    rw [if_neg hx] at ht
    exact nest_first ht hk

/-! ### Examples -/

/-- Two methods on lists of numbers: `true` adds up a list, calling itself for the rest; `false` takes the sum of the rest and the list itself. -/
def sumBody : Bool → List Nat → DiskProg Bool listPickles
  | _, [] => .ret (.ok ([0] : List Nat))
  | true, x :: xs => .wait 1 (.call true (xs : List Nat) ([] : List Nat) (fun r =>
      .ret (match r with | .ok s => .ok ([x + List.headD s 0] : List Nat) | .error e => .error e)))
  | false, x :: xs => .call true (xs : List Nat) ([] : List Nat) (fun r =>
      .ret (match r with | .ok s => .ok (List.append s (x :: xs)) | .error e => .error e))

/-- Each with its own file. -/
def sumMethods : Wrapped Bool listPickles := ⟨fun m => if m then u!"sums" else u!"pairs", fun _ => [.file u!"data"], fun m a _ => sumBody m a⟩

/-- Both with the same file. -/
def sumShared : Wrapped Bool listPickles := { sumMethods with file := fun _ => u!"sums" }

example : NestStart sumMethods freshDisk := by
  intro m
  refine ⟨by cases m <;> rfl, ⟨?_, ?_⟩, ?_⟩
  · intro d hd; cases List.mem_singleton.1 hd; trivial
  · intro d hd p hp; cases List.mem_singleton.1 hd; cases hp; exact ⟨_, rfl⟩
  · rintro ⟨d, hd, p, hp, f, hf, h⟩
    cases List.mem_singleton.1 hd
    cases hp
    cases hf
    cases h

example : NestStorable sumMethods := fun _ _ _ _ _ => rfl

example : (∀ m m', sumMethods.file m = sumMethods.file m' → m = m') ∧
    ∀ m a0 p0 a p r, listPickles.eq a0 a = .ok true → listPickles.eq p0 p = .ok true → NestGives sumMethods m a0 p0 r → NestGives sumMethods m a p r := by
  refine ⟨by decide, ?_⟩
  intro m (a0 : List Nat) (p0 : List Nat) (a : List Nat) (p : List Nat) r h1 h2 h
  change Except.ok (a0 == a) = _ at h1
  simp only [Except.ok.injEq, beq_iff_eq] at h1
  subst h1
  exact h

/-- The sum of `[1, 2]` runs three bodies; asked again, none; the inner sum was overwritten and runs again. -/
example : (proxyNest sumMethods id 5 true ([1, 2] : List Nat) ([] : List Nat) freshDisk).map (fun x => (x.1, x.2.2)) =
      some (.ok ([3] : List Nat), [(true, ([1, 2] : List Nat), ([] : List Nat)), (true, ([2] : List Nat), ([] : List Nat)), (true, ([] : List Nat), ([] : List Nat))]) ∧
    ((proxyNest sumMethods id 5 true ([1, 2] : List Nat) ([] : List Nat) freshDisk).bind (fun x => proxyNest sumMethods id 5 true ([1, 2] : List Nat) ([] : List Nat) x.2.1)).map
      (fun x => (x.1, x.2.2)) = some (.ok ([3] : List Nat), []) ∧
    ((proxyNest sumMethods id 5 true ([1, 2] : List Nat) ([] : List Nat) freshDisk).bind (fun x => proxyNest sumMethods id 5 true ([2] : List Nat) ([] : List Nat) x.2.1)).map
      (fun x => (x.1, x.2.2)) = some (.ok ([2] : List Nat), [(true, ([2] : List Nat), ([] : List Nat)), (true, ([] : List Nat), ([] : List Nat))]) := ⟨rfl, rfl, rfl⟩

/-- C143: methods that share a cache file return each other's results: after the sum of `[1]`, the other method returns it for `[1]`, too. -/
theorem C143_shared_refuted : ∃ d1 l, proxyNest sumShared id 5 true ([1] : List Nat) ([] : List Nat) freshDisk = some (.ok ([1] : List Nat), d1, l) ∧
    proxyNest sumShared id 5 false ([1] : List Nat) ([] : List Nat) d1 = some (.ok ([1] : List Nat), d1, []) ∧
    NestGives sumShared false ([1] : List Nat) ([] : List Nat) (.ok ([0, 1] : List Nat)) := by
  refine ⟨_, _, rfl, rfl, ?_⟩
  exact .call _ _ _ _ (.ok ([0] : List Nat)) _ (.ret _) (.ret _)

end Cjk
