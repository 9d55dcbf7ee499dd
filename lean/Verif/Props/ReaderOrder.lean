import Verif.Props.ReaderThreads
/-!
# C154: the order of the files that a lookup meets

`C154_group` and `C154_details` say that a lookup with two loads may meet two files.  Here: never the older one second.  So `[]` of a links reader
may look for the group of a newer file in an older one, not the other way round, and `details` raises `TypeError` only if a plain file comes after a detailed one.
-/

namespace Cjk
open Py

/-- When attribute `a` has been stored, so has `b`. -/
def Spec.StoredNoLater {A : Type} (stores : List A) (b a : A) : Prop := ∀ done left, stores = done ++ left → a ∈ done → b ∈ done

/-- The files that the lookup met, in order, are those with these numbers in the list of files assigned; the numbers do not decrease and none is before `start`. -/
def Spec.MetInOrder (assigned : List Nat) (start : Nat) (fs : List Nat) : Prop :=
  ∃ ps : List Nat, ps.Pairwise (· ≤ ·) ∧ (∀ p ∈ ps, start ≤ p) ∧ ps.map (fun p => assigned[p]?) = fs.map some

variable {A : Type} [DecidableEq A] (stores : List A)

/-- Attribute `a` holds the dictionary of the file with number `q`. -/
def AttrAt (t0 : Nat) (hist : List Nat) (ended : Nat) (w : RThreads A) (a : A) (q : Nat) : Prop :=
  hist[q]? = some (w.attr a) ∧ (q = ended ∨ q = ended + 1 ∧ ∃ f done left, w.phase t0 = .storing f left ∧ stores = done ++ left ∧ a ∈ done)

variable {stores} {t0 : Nat} {hist : List Nat} {ended : Nat} {w : RThreads A}

omit [DecidableEq A] in
theorem attrAt_exists (h : OneAssignerInv stores t0 hist ended w) (a : A) : ∃ q, ended ≤ q ∧ AttrAt stores t0 hist ended w a q := by
  rcases h.writer with ⟨_, _, h1⟩ | ⟨_, f, done, left, h1, h2, h3, h4⟩
  · exact ⟨ended, Nat.le_refl _, h1 a, Or.inl rfl⟩
  · by_cases ha : a ∈ done
    · exact ⟨ended + 1, Nat.le_succ _, by rw [h2, (h4 a).1 ha], Or.inr ⟨rfl, f, done, left, h1, h3, ha⟩⟩
    · exact ⟨ended, Nat.le_refl _, (h4 a).2 ha, Or.inl rfl⟩

omit [DecidableEq A] in
theorem attrAt_later (h : OneAssignerInv stores t0 hist ended w) {a b : A} (hb : Spec.StoredNoLater stores b a) {q : Nat} (hq : AttrAt stores t0 hist ended w a q) :
    ∃ q', q ≤ q' ∧ AttrAt stores t0 hist ended w b q' := by
  obtain ⟨_, rfl | ⟨rfl, f, done, left, h1, h2, h3⟩⟩ := hq
  · exact attrAt_exists h b
  · refine ⟨ended + 1, Nat.le_refl _, ?_, Or.inr ⟨rfl, f, done, left, h1, h2, hb done left h2 h3⟩⟩
    rcases h.writer with ⟨_, h4, _⟩ | ⟨_, f', done', left', h4, h5, h6, h7⟩
    · exact absurd h1 (h4 f left)
    · rw [h1] at h4
      cases h4
      have : done = done' := List.append_cancel_right (h2.symm.trans h6)
      subst this
      rw [h5, (h7 b).1 (hb done left h2 h3)]

theorem attrAt_step (hall : ∀ a : A, a ∈ stores) (h : OneAssignerInv stores t0 hist ended w) (t : Nat) {a : A} {q : Nat} (hq : AttrAt stores t0 hist ended w a q) :
    ∃ q', q ≤ q' ∧ AttrAt stores t0 (hist ++ Spec.begunFiles [(t, (w.step stores t).2)]) (ended + Spec.endedCount [(t, (w.step stores t).2)]) (w.step stores t).1 a q' := by
  have hstep := h.step hall t
  rcases hq with ⟨hq1, hq2⟩
  rcases hq2 with rfl | ⟨rfl, f, done, left, h1, h2, h3⟩
  · obtain ⟨q', h4, h5⟩ := attrAt_exists hstep a
    exact ⟨q', by omega, h5⟩
  · -- the thread `t0` is storing and has stored `a`
    by_cases ht : t = t0
    · subst ht
      cases left with
      | nil =>
        have hs : w.step stores t = (w.to t .idle, .assigned f) := by simp only [RThreads.step, h1]
        rw [hs] at hstep ⊢
        obtain ⟨q', h4, h5⟩ := attrAt_exists hstep a
        exact ⟨q', by simpa [Spec.endedCount] using h4, h5⟩
      | cons b left =>
        have hs : w.step stores t = ({ w.to t (.storing f left) with attr := fun c => if c = b then f else w.attr c }, .stored b f) := by simp only [RThreads.step, h1]
        rw [hs]
        refine ⟨ended + 1, Nat.le_refl _, ?_, Or.inr ⟨rfl, f, done ++ [b], left, by simp [RThreads.to], by rw [h2]; simp, by simp [h3]⟩⟩
        simp only [Spec.begunFiles, List.append_nil]
        split
        · rcases h.writer with ⟨_, h4, _⟩ | ⟨_, f', done', left', h4, h5, h6, h7⟩
          · exact absurd h1 (h4 _ _)
          · rw [h1] at h4
            cases h4
            exact h5
        · exact hq1
    · have hk : (w.step stores t).1.phase t0 = w.phase t0 ∧ Spec.endedCount [(t, (w.step stores t).2)] = 0 ∧ (w.step stores t).1.attr = w.attr := by
        have hne : t0 ≠ t := fun h => ht h.symm
        obtain ⟨g1, g2⟩ := h.others t ht
        unfold RThreads.step
        cases hp : w.phase t with
        | idle =>
          simp only
          cases hc : w.calls t with
          | nil => exact ⟨rfl, rfl, rfl⟩
          | cons c cs => exact ⟨by simp [RThreads.to, hne], rfl, rfl⟩
        | storing j l => exact absurd hp (g2 j l)
        | asking got l => cases l <;> exact ⟨by simp [RThreads.to, hne], rfl, rfl⟩
      refine ⟨ended + 1, Nat.le_refl _, ?_, Or.inr ⟨by rw [hk.2.1], f, done, left, by rw [hk.1]; exact h1, h2, h3⟩⟩
      rw [hk.2.2]
      rw [List.getElem?_append_left]
      · exact hq1
      · apply Classical.byContradiction
        intro hlen
        rw [List.getElem?_eq_none (by omega)] at hq1
        cases hq1

variable (stores)

/-- What a lookup gets from here on comes in order. -/
theorem asking_ordered (hall : ∀ a : A, a ∈ stores) (t0 : Nat) (c0 : Nat) (w : RThreads A) (hist : List Nat) (ended : Nat) (hw : OneAssignerInv stores t0 hist ended w)
    (t : Nat) (got : List Nat) (left : List A) (hp : w.phase t = .asking got left) (hch : left.Pairwise (fun a b => Spec.StoredNoLater stores b a))
    (ps : List Nat) (hps : ps.Pairwise (· ≤ ·)) (hc : ∀ p ∈ ps, c0 ≤ p) (hgot : ps.map (fun p => hist[p]?) = got.map some)
    (m : Nat) (hm : ∀ p ∈ ps, p ≤ m) (hcm : c0 ≤ m) (hnext : ∀ a ∈ left, ∃ q, m ≤ q ∧ AttrAt stores t0 hist ended w a q)
    (ts : List Nat) (mid post : List (Nat × RSeen A)) (fs : List Nat)
    (h : w.run stores ts = mid ++ (t, .answered fs) :: post) (ha : ∀ gs, (t, RSeen.answered gs) ∉ mid) :
    Spec.MetInOrder (hist ++ Spec.begunFiles mid) c0 fs := by
  have grow : ∀ (ps got l : List Nat), ps.map (fun p => hist[p]?) = got.map some → ps.map (fun p => (hist ++ l)[p]?) = got.map some := by
    intro ps
    induction ps with
    | nil => intro got l hg; simpa using hg
    | cons p ps ih =>
      intro got l hg
      cases got with
      | nil => simp at hg
      | cons g got =>
        simp only [List.map_cons, List.cons.injEq] at hg ⊢
        refine ⟨?_, ih got l hg.2⟩
        rw [List.getElem?_append_left]
        · exact hg.1
        · apply Classical.byContradiction
          intro hlen
          rw [List.getElem?_eq_none (by omega)] at hg
          cases hg.1
  induction ts generalizing w hist ended got left mid ps m with
  | nil => simp [RThreads.run] at h
  | cons u ts ih =>
    cases mid with
    | nil =>
      simp only [RThreads.run, List.nil_append, List.cons.injEq, Prod.mk.injEq] at h
      obtain ⟨⟨rfl, h1⟩, _⟩ := h
      cases left with
      | nil =>
        simp only [RThreads.step, hp, RSeen.answered.injEq] at h1
        subst h1
        exact ⟨ps, hps, hc, by simpa [Spec.begunFiles] using hgot⟩
      | cons a left => simp [RThreads.step, hp] at h1
    | cons p mid =>
      simp only [RThreads.run, List.cons_append, List.cons.injEq] at h
      have hstep := hw.step hall u
      have hnext' : ∀ (m' : Nat), ∀ a, (∃ q, m' ≤ q ∧ AttrAt stores t0 hist ended w a q) →
          ∃ q, m' ≤ q ∧ AttrAt stores t0 (hist ++ Spec.begunFiles [(u, (w.step stores u).2)]) (ended + Spec.endedCount [(u, (w.step stores u).2)]) (w.step stores u).1 a q := by
        rintro m' a ⟨q, h1, h2⟩
        obtain ⟨q', h3, h4⟩ := attrAt_step hall hw u h2
        exact ⟨q', by omega, h4⟩
      rw [h.1] at hstep hnext'
      rw [show Spec.begunFiles (p :: mid) = Spec.begunFiles [p] ++ Spec.begunFiles mid from begunFiles_append [p] mid, ← List.append_assoc]
      have growN : ∀ (ps got l : List Nat), ps.map (fun x => (hist ++ Spec.begunFiles [p])[x]?) = got.map some →
          ps.map (fun x => ((hist ++ Spec.begunFiles [p]) ++ l)[x]?) = got.map some := by
        intro ps
        induction ps with
        | nil => intro got l hg; simpa using hg
        | cons x ps ih =>
          intro got l hg
          cases got with
          | nil => simp at hg
          | cons g got =>
            simp only [List.map_cons, List.cons.injEq] at hg ⊢
            refine ⟨?_, ih got l hg.2⟩
            rw [List.getElem?_append_left]
            · exact hg.1
            · apply Classical.byContradiction
              intro hlen
              rw [List.getElem?_eq_none (by omega)] at hg
              cases hg.1
      by_cases hu : u = t
      · subst hu
        cases left with
        | nil =>
          have hst : w.step stores u = (w.to u .idle, .answered got) := by simp only [RThreads.step, hp]
          rw [hst] at h
          exact absurd (by rw [← h.1]; simp) (ha got)
        | cons a left =>
          have hst : w.step stores u = (w.to u (.asking (got ++ [w.attr a]) left), .loaded a (w.attr a)) := by simp only [RThreads.step, hp]
          obtain ⟨q, hmq, hq⟩ := hnext a (by simp)
          refine ih _ _ _ hstep (got ++ [w.attr a]) left (by rw [hst]; simp [RThreads.to]) (List.pairwise_cons.1 hch).2 (ps ++ [q]) ?_ ?_ ?_ q ?_ (by omega) ?_ mid h.2
            (fun c hc => ha c (by simp [hc])) growN
          · rw [List.pairwise_append]
            refine ⟨hps, by simp, ?_⟩
            intro x hx y hy
            rw [List.mem_singleton] at hy
            subst hy
            exact Nat.le_trans (hm x hx) hmq
          · intro x hx
            rcases List.mem_append.1 hx with hx | hx
            · exact hc x hx
            · rw [List.mem_singleton] at hx; omega
          · apply grow
            rw [List.map_append, List.map_append, hgot]
            simp [hq.1]
          · intro x hx
            rcases List.mem_append.1 hx with hx | hx
            · exact Nat.le_trans (hm x hx) hmq
            · rw [List.mem_singleton] at hx; omega
          · intro b hb
            exact hnext' q b (attrAt_later hw ((List.pairwise_cons.1 hch).1 b hb) hq)
      · refine ih _ _ _ hstep got left ?_ hch ps hps hc (grow _ _ _ hgot) m hm hcm (fun a ha => hnext' m a (hnext a ha)) mid h.2 (fun c hc => ha c (by simp [hc])) growN
        have hne : t ≠ u := fun h => hu h.symm
        unfold RThreads.step
        cases hq : w.phase u with
        | idle =>
          simp only
          cases hc : w.calls u with
          | nil => exact hp
          | cons c cs => simp [RThreads.to, hne, hp]
        | storing j l => cases l <;> simp [RThreads.to, hne, hp]
        | asking g l => cases l <;> simp [RThreads.to, hne, hp]

/-- **C154** (order).  If one thread assigns the files and a lookup loads no attribute before one that is stored later, it never meets an older file after a newer one. -/
theorem C154_order (hall : ∀ a : A, a ∈ stores) (calls : Nat → List (RCall A)) (t0 : Nat) (h1 : Spec.OneAssigner calls t0) (ts : List Nat) (t : Nat) (loads : List A)
    (hch : loads.Pairwise (fun a b => Spec.StoredNoLater stores b a)) (pre mid : List (Nat × RSeen A)) (fs : List Nat)
    (h : Spec.Lookup ((RThreads.start calls).run stores ts) t loads pre mid fs) :
    Spec.MetInOrder (0 :: Spec.begunFiles (pre ++ mid)) (Spec.endedCount pre) fs := by
  obtain ⟨ts1, ts2, post, hpre, h2, h3, h4⟩ := lookup_begin stores calls ts t loads pre mid fs h
  have hinv := (OneAssignerInv.start stores h1).final hall (ts1 ++ [t])
  rw [h4, begunFiles_append, endedCount_append] at hinv
  simp only [Spec.begunFiles, Spec.endedCount, List.append_nil, Nat.add_zero, Nat.zero_add] at hinv
  have := asking_ordered stores hall t0 (Spec.endedCount pre) _ _ _ hinv t [] loads h2 hch [] List.Pairwise.nil (by simp) rfl (Spec.endedCount pre) (by simp) (Nat.le_refl _)
    (fun a _ => attrAt_exists hinv a) ts2 mid post fs h3 h.first
  rw [begunFiles_append]
  exact this

theorem metTwo {hist : List Nat} {c0 f g : Nat} (h : Spec.MetInOrder hist c0 [f, g]) : ∃ p q, c0 ≤ p ∧ p ≤ q ∧ hist[p]? = some f ∧ hist[q]? = some g := by
  obtain ⟨ps, h1, h2, h3⟩ := h
  match ps, congrArg List.length h3 with
  | [p, q], _ =>
    simp only [List.map_cons, List.map_nil, List.cons.injEq, and_true] at h3
    simp only [List.pairwise_cons, List.mem_singleton, forall_eq] at h1
    exact ⟨p, q, h2 p (by simp), h1.1, h3.1, h3.2⟩

/-- **C154** (order, links).  `[]` of a links reader takes the number of the group from the file that was current, or from one assigned while it ran, and looks it up in that file or in an
older one of these, never in a newer one. -/
theorem C154_group_order (files : Nat → LinkData) (calls : Nat → List (RCall LinkAttr)) (t0 : Nat) (h1 : Spec.OneAssigner calls t0) (ts : List Nat) (t : Nat) (i : Int)
    (pre mid : List (Nat × RSeen LinkAttr)) (fs : List Nat) (h : Spec.Lookup ((RThreads.start calls).run linkStores ts) t linkLoads pre mid fs) :
    ∃ p q g l, Spec.endedCount pre ≤ p ∧ p ≤ q ∧ (0 :: Spec.begunFiles (pre ++ mid))[p]? = some g ∧ (0 :: Spec.begunFiles (pre ++ mid))[q]? = some l ∧
      threadGroup files i fs = (match Dict.getItem (files l).link i with | .ok node => Dict.getItem (files g).group node | .error e => .error e) := by
  have h2 := (C154_lookup linkStores calls ts t linkLoads pre mid fs h).2
  have hch : linkLoads.Pairwise (fun a b => Spec.StoredNoLater linkStores b a) := by
    simp only [linkLoads, List.pairwise_cons, List.mem_singleton, forall_eq, List.not_mem_nil, false_implies, implies_true, List.Pairwise.nil, and_true]
    intro done left hd hg
    match done, hd with
    | [], _ => cases hg
    | x :: done, hd =>
      simp only [linkStores, List.cons_append, List.cons.injEq] at hd
      rw [← hd.1]
      simp
  have h3 := C154_order linkStores linkStores_all calls t0 h1 ts t linkLoads hch pre mid fs h
  match fs, h2 with
  | [g, l], _ =>
    obtain ⟨p, q, a1, a2, a3, a4⟩ := metTwo h3
    refine ⟨p, q, g, l, a1, a2, a3, a4, ?_⟩
    simp only [threadGroup]
    cases Dict.getItem (files l).link i <;> rfl

/-- **C154** (order, details).  `details` raises `TypeError` only if a plain file was assigned after a detailed one, and the detailed one was still current when the lookup began or assigned later. -/
theorem C154_details_order {D : Type} (files : Nat → SentData D) (calls : Nat → List (RCall SentAttr)) (t0 : Nat) (h1 : Spec.OneAssigner calls t0) (ts : List Nat) (t : Nat) (i : Int)
    (pre mid : List (Nat × RSeen SentAttr)) (fs : List Nat) (h : Spec.Lookup ((RThreads.start calls).run sentStores ts) t [.info, .info] pre mid fs)
    (he : threadDetails files i fs = .error .typeError) :
    ∃ p q f g, Spec.endedCount pre ≤ p ∧ p < q ∧ (0 :: Spec.begunFiles (pre ++ mid))[p]? = some f ∧ (0 :: Spec.begunFiles (pre ++ mid))[q]? = some g ∧
      (files f).info.isSome ∧ (files g).info = none := by
  have h2 := (C154_lookup sentStores calls ts t [.info, .info] pre mid fs h).2
  have h3 := C154_order sentStores sentStores_all calls t0 h1 ts t [.info, .info] (by simp [Spec.StoredNoLater]) pre mid fs h
  match fs, h2 with
  | [f, g], _ =>
    obtain ⟨p, q, a1, a2, a3, a4⟩ := metTwo h3
    have hfg : (files f).info.isSome ∧ (files g).info = none := by
      simp only [threadDetails] at he
      cases hf : (files f).info with
      | none => rw [hf] at he; cases he
      | some x =>
        rw [hf] at he
        cases hg : (files g).info with
        | none => exact ⟨rfl, rfl⟩
        | some info =>
          rw [hg] at he
          simp only at he
          cases hi : Dict.get? info i <;> rw [hi] at he <;> cases he
    refine ⟨p, q, f, g, a1, ?_, a3, a4, hfg⟩
    rcases Nat.lt_or_eq_of_le a2 with hlt | rfl
    · exact hlt
    · rw [a3] at a4
      cases a4
      rw [hfg.2] at hfg
      cases hfg.1

/-- The condition of `C154_order` matters: a lookup that loaded the attributes in the order in which they are stored could look for an old group in a new file. -/
example : ¬ Spec.StoredNoLater linkStores .group .link := by
  intro h
  have := h [.link] [.group] rfl (by simp)
  simp at this

end Cjk
