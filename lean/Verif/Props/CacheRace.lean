import Verif.Spec.CacheRace
import Verif.Props.SmartCache
/-!
# C95: processes that share a cache file
-/

namespace Cjk
open Py

theorem storedBytes_ok {P : PickleObjects} {o a p : P.Obj} (h : (storedBytes P o a p).2 = none) :
    (P.dump a).2 = none ∧ (P.dump p).2 = none ∧ (P.dump o).2 = none ∧
      (storedBytes P o a p).1 = (P.dump a).1 ++ (P.dump p).1 ++ (P.dump o).1 := by
  unfold storedBytes at h ⊢
  generalize P.dump a = da at h ⊢
  obtain ⟨b1, r1⟩ := da
  cases r1 with
  | some e => cases h
  | none =>
    generalize P.dump p = dp at h ⊢
    obtain ⟨b2, r2⟩ := dp
    cases r2 with
    | some e => cases h
    | none =>
      generalize P.dump o = d at h ⊢
      obtain ⟨b3, r3⟩ := d
      cases r3 with
      | some e => cases h
      | none => exact ⟨rfl, rfl, rfl, rfl⟩

/-- A complete store with anything behind it. -/
theorem loadCached_stored {P : PickleObjects} (hP : PickleSpec P) {o a p : P.Obj} (h : (storedBytes P o a p).2 = none) (junk : List Nat)
    {args params r : P.Obj} (hr : loadCached P ((storedBytes P o a p).1 ++ junk) args params = some r) :
    r = o ∧ P.eq a args = .ok true ∧ P.eq p params = .ok true := by
  obtain ⟨h1, h2, h3, hb⟩ := storedBytes_ok h
  rw [hb] at hr
  unfold loadCached at hr
  have e : (P.dump a).1 ++ (P.dump p).1 ++ (P.dump o).1 ++ junk = (P.dump a).1 ++ ((P.dump p).1 ++ ((P.dump o).1 ++ junk)) := by simp
  rw [e, hP.load_dump a _ h1] at hr
  simp only [bind, Except.bind] at hr
  rw [hP.load_dump p _ h2] at hr
  simp only at hr
  cases hea : P.eq a args with
  | error x => rw [hea] at hr; cases hr
  | ok b =>
    rw [hea] at hr
    cases b with
    | false => cases hr
    | true =>
      simp only [if_true] at hr
      cases hep : P.eq p params with
      | error x => rw [hep] at hr; cases hr
      | ok b =>
        rw [hep] at hr
        cases b with
        | false => cases hr
        | true =>
          simp only [if_true] at hr
          rw [hP.load_dump o _ h3] at hr
          simp only at hr
          split at hr
          · cases hr
          · cases hr
            exact ⟨rfl, rfl, rfl⟩

/-- Nothing is found in an empty file. -/
theorem loadCached_nil {P : PickleObjects} (hP : PickleSpec P) (hne : ∀ o, (P.dump o).2 = none → (P.dump o).1 ≠ []) (args params : P.Obj) :
    loadCached P [] args params = none := by
  have : ∃ e, P.load [] = .error e := by
    by_cases h : (P.dump args).2 = none
    · exact hP.load_prefix args [] h List.nil_prefix (fun h => hne args ‹_› h.symm)
    · exact hP.load_failed args [] h List.nil_prefix
  obtain ⟨e, he⟩ := this
  unfold loadCached
  rw [he]
  rfl

/-- Nothing, or a complete store with anything behind it. -/
def WholeBytes {P : PickleObjects} (method : P.Obj → P.Obj → Except PyErr P.Obj) (f : List Nat) : Prop :=
  f = [] ∨ ∃ a p o junk, method a p = .ok o ∧ f = (storedBytes P o a p).1 ++ junk

/-- The invariant for whole reads and writes. -/
structure WholeInv {P : PickleObjects} (method : P.Obj → P.Obj → Except PyErr P.Obj) (w : Race P) : Prop where
  file : ∀ f, w.file = some f → WholeBytes method f
  reading : ∀ i args params got, w.procs i = .reading args params got → WholeBytes method got
  writing : ∀ i args params o todo pos, w.procs i = .writing args params o todo pos →
    method args params = .ok o ∧ (todo = [] ∨ (todo = (storedBytes P o args params).1 ∧ pos = 0))
  right : Spec.AllRight method w

theorem to_procs {P : PickleObjects} {w : Race P} {i j : Nat} {ph q : Phase P} (h : (w.to i ph).procs j = q) : (j = i ∧ ph = q) ∨ (j ≠ i ∧ w.procs j = q) := by
  unfold Race.to at h
  simp only at h
  split at h
  · exact Or.inl ⟨‹_›, h⟩
  · exact Or.inr ⟨‹_›, h⟩

/-- A process moves to another phase. -/
theorem WholeInv.move {P : PickleObjects} {method : P.Obj → P.Obj → Except PyErr P.Obj} {w : Race P} (h : WholeInv method w) (i : Nat) (ph : Phase P)
    (h1 : ∀ args params got, ph = .reading args params got → WholeBytes method got)
    (h2 : ∀ args params o todo pos, ph = .writing args params o todo pos →
      method args params = .ok o ∧ (todo = [] ∨ (todo = (storedBytes P o args params).1 ∧ pos = 0)))
    (h3 : ∀ args params o, ph = .returned args params o →
      method args params = .ok o ∨ ∃ a p, P.eq a args = .ok true ∧ P.eq p params = .ok true ∧ method a p = .ok o) :
    WholeInv method (w.to i ph) := by
  refine ⟨fun f hf => h.file f hf, ?_, ?_, ?_⟩
  · intro j a p got hj
    rcases to_procs hj with ⟨_, hj⟩ | ⟨_, hj⟩
    · exact h1 a p got hj
    · exact h.reading j a p got hj
  · intro j a p o todo pos hj
    rcases to_procs hj with ⟨_, hj⟩ | ⟨_, hj⟩
    · exact h2 a p o todo pos hj
    · exact h.writing j a p o todo pos hj
  · intro j a p o hj
    rcases to_procs hj with ⟨_, hj⟩ | ⟨_, hj⟩
    · exact h3 a p o hj
    · exact h.right j a p o hj

theorem WholeInv.setFile {P : PickleObjects} {method : P.Obj → P.Obj → Except PyErr P.Obj} {w : Race P} (h : WholeInv method w) (f : List Nat)
    (hf : WholeBytes method f) : WholeInv method ({ w with file := some f } : Race P) :=
  ⟨fun g hg => by cases hg; exact hf, h.reading, h.writing, h.right⟩

theorem wholeInv_step {P : PickleObjects} (hP : PickleSpec P) (method : P.Obj → P.Obj → Except PyErr P.Obj)
    (hne : ∀ o, (P.dump o).2 = none → (P.dump o).1 ≠ []) (hdump : ∀ a p o, method a p = .ok o → (storedBytes P o a p).2 = none) (w : Race P) (h : WholeInv method w) (e : RaceEv P)
    (hw : Spec.WholeWrite w e) (hr : Spec.WholeRead w e) : WholeInv method (raceStep P method w e) := by
  have nothing : WholeBytes method ([] : List Nat) := Or.inl rfl
  cases e with
  | call i args params =>
    simp only [raceStep]
    split
    · split
      · exact h.move i _ (by intros; contradiction) (by intros; contradiction) (by intros; contradiction)
      · exact h.move i _ (by intro _ _ _ hh; cases hh; exact nothing) (by intros; contradiction) (by intros; contradiction)
    · split
      · exact h.move i _ (by intros; contradiction) (by intros; contradiction) (by intros; contradiction)
      · exact h.move i _ (by intro _ _ _ hh; cases hh; exact nothing) (by intros; contradiction) (by intros; contradiction)
    · exact h
  | read i n =>
    simp only [raceStep]
    split
    · rename_i args params got f hp hf
      obtain ⟨rfl, hn⟩ := hr args params got f hp hf
      refine h.move i _ ?_ (by intros; contradiction) (by intros; contradiction)
      intro _ _ _ hh
      cases hh
      simp only [List.nil_append, List.length_nil, List.drop_zero]
      rw [List.take_of_length_le hn]
      exact h.file f hf
    · exact h
  | decide i =>
    simp only [raceStep]
    split
    · rename_i args params got hp
      split
      · rename_i o ho
        refine h.move i _ (by intros; contradiction) (by intros; contradiction) ?_
        intro _ _ _ hh
        cases hh
        rcases h.reading i args params got hp with rfl | ⟨a, p, o', junk, hm, rfl⟩
        · rw [loadCached_nil hP hne] at ho
          cases ho
        · obtain ⟨rfl, h1, h2⟩ := loadCached_stored hP (hdump a p o' hm) junk ho
          exact Or.inr ⟨a, p, h1, h2, hm⟩
      · exact h.move i _ (by intros; contradiction) (by intros; contradiction) (by intros; contradiction)
    · exact h
  | openWrite i =>
    simp only [raceStep]
    split
    · rename_i args params hp
      split
      · exact h.move i _ (by intros; contradiction) (by intros; contradiction) (by intros; contradiction)
      · rename_i o ho
        refine (h.setFile [] nothing).move i _ (by intros; contradiction) ?_ (by intros; contradiction)
        intro _ _ _ _ _ hh
        cases hh
        exact ⟨ho, Or.inr ⟨rfl, rfl⟩⟩
    · exact h
  | write i n =>
    simp only [raceStep]
    split
    · rename_i args params o todo pos f hp hf
      have hn := hw args params o todo pos hp
      obtain ⟨hm, htodo⟩ := h.writing i args params o todo pos hp
      have hbytes : WholeBytes method (writeAt f pos (todo.take n)) := by
        rw [List.take_of_length_le hn]
        rcases htodo with rfl | ⟨rfl, rfl⟩
        · simp only [writeAt, if_true]
          exact h.file f hf
        · right
          refine ⟨args, params, o, f.drop (storedBytes P o args params).1.length, hm, ?_⟩
          simp only [writeAt, List.take_zero, Nat.zero_sub, List.replicate_zero, List.nil_append, Nat.zero_add]
          split
          · rename_i h0
            rw [h0]; simp
          · rfl
      refine (h.setFile _ hbytes).move i _ (by intros; contradiction) ?_ (by intros; contradiction)
      intro _ _ _ _ _ hh
      cases hh
      refine ⟨hm, Or.inl ?_⟩
      exact List.drop_of_length_le hn
    · exact h
  | close i =>
    simp only [raceStep]
    split
    · rename_i args params o pos hp
      have hm := (h.writing i args params o [] pos hp).1
      split
      · refine h.move i _ (by intros; contradiction) (by intros; contradiction) ?_
        intro _ _ _ hh
        cases hh
        exact Or.inl hm
      · exact h.move i _ (by intros; contradiction) (by intros; contradiction) (by intros; contradiction)
    · exact h

theorem wholeInv_quiet {P : PickleObjects} (method : P.Obj → P.Obj → Except PyErr P.Obj) : WholeInv method (Spec.quiet P) :=
  ⟨(by intro f h; cases h), (by intro _ _ _ _ h; cases h), (by intro _ _ _ _ _ _ h; cases h), (by intro _ _ _ _ h; cases h)⟩

theorem wholeInv_run {P : PickleObjects} (hP : PickleSpec P) (method : P.Obj → P.Obj → Except PyErr P.Obj)
    (hne : ∀ o, (P.dump o).2 = none → (P.dump o).1 ≠ []) (hdump : ∀ a p o, method a p = .ok o → (storedBytes P o a p).2 = none) (evs : List (RaceEv P)) :
    ∀ w, WholeInv method w → Spec.Throughout method (fun w e => Spec.WholeWrite w e ∧ Spec.WholeRead w e) w evs →
      WholeInv method (raceRun P method w evs) := by
  induction evs with
  | nil => intro w h _; exact h
  | cons e evs ih =>
    intro w h ht
    exact ih _ (wholeInv_step hP method hne hdump w h e ht.1.1 ht.1.2) ht.2

/-- C95 for values so small that each is written and read with one system call: any number of processes, any calls, any order of their steps. -/
theorem C95_small_values_partial {P : PickleObjects} (hP : PickleSpec P) (method : P.Obj → P.Obj → Except PyErr P.Obj)
    (hne : ∀ o, (P.dump o).2 = none → (P.dump o).1 ≠ []) (hdump : ∀ a p o, method a p = .ok o → (storedBytes P o a p).2 = none) (evs : List (RaceEv P))
    (hw : Spec.Throughout method (fun w e => Spec.WholeWrite w e ∧ Spec.WholeRead w e) (Spec.quiet P) evs) :
    Spec.AllRight method (raceRun P method (Spec.quiet P) evs) :=
  (wholeInv_run hP method hne hdump evs _ (wholeInv_quiet method) hw).right

/-- The invariant when all calls are the same: the file is empty or complete, and what a reader has seen is a beginning of it. -/
structure SameInv {P : PickleObjects} (method : P.Obj → P.Obj → Except PyErr P.Obj) (a p : P.Obj) (w : Race P) : Prop where
  file : ∀ f, w.file = some f → ∃ o, method a p = .ok o ∧ (f = [] ∨ f = (storedBytes P o a p).1)
  reading : ∀ i args params got, w.procs i = .reading args params got →
    args = a ∧ params = p ∧ ∃ o, method a p = .ok o ∧ got <+: (storedBytes P o a p).1
  missed : ∀ i args params, w.procs i = .missed args params → args = a ∧ params = p
  writing : ∀ i args params o todo pos, w.procs i = .writing args params o todo pos → args = a ∧ params = p ∧
    method a p = .ok o ∧ (todo = [] ∨ (todo = (storedBytes P o a p).1 ∧ pos = 0))
  right : ∀ i args params o, w.procs i = .returned args params o → method args params = .ok o

theorem SameInv.move {P : PickleObjects} {method : P.Obj → P.Obj → Except PyErr P.Obj} {a p : P.Obj} {w : Race P} (h : SameInv method a p w)
    (i : Nat) (ph : Phase P)
    (h1 : ∀ args params got, ph = .reading args params got →
      args = a ∧ params = p ∧ ∃ o, method a p = .ok o ∧ got <+: (storedBytes P o a p).1)
    (h0 : ∀ args params, ph = .missed args params → args = a ∧ params = p)
    (h2 : ∀ args params o todo pos, ph = .writing args params o todo pos → args = a ∧ params = p ∧
      method a p = .ok o ∧ (todo = [] ∨ (todo = (storedBytes P o a p).1 ∧ pos = 0)))
    (h3 : ∀ args params o, ph = .returned args params o → method args params = .ok o) :
    SameInv method a p (w.to i ph) := by
  refine ⟨fun f hf => h.file f hf, ?_, ?_, ?_, ?_⟩
  · intro j _ _ _ hj
    rcases to_procs hj with ⟨_, hj⟩ | ⟨_, hj⟩
    · exact h1 _ _ _ hj
    · exact h.reading j _ _ _ hj
  · intro j _ _ hj
    rcases to_procs hj with ⟨_, hj⟩ | ⟨_, hj⟩
    · exact h0 _ _ hj
    · exact h.missed j _ _ hj
  · intro j _ _ _ _ _ hj
    rcases to_procs hj with ⟨_, hj⟩ | ⟨_, hj⟩
    · exact h2 _ _ _ _ _ hj
    · exact h.writing j _ _ _ _ _ hj
  · intro j _ _ _ hj
    rcases to_procs hj with ⟨_, hj⟩ | ⟨_, hj⟩
    · exact h3 _ _ _ hj
    · exact h.right j _ _ _ hj

theorem sameInv_step {P : PickleObjects} (hP : PickleSpec P) (method : P.Obj → P.Obj → Except PyErr P.Obj) (a p : P.Obj) (w : Race P)
    (h : SameInv method a p w) (e : RaceEv P) (hw : Spec.WholeWrite w e) (hc : Spec.OnlyCall a p e) :
    SameInv method a p (raceStep P method w e) := by
  cases e with
  | call i args params =>
    obtain ⟨rfl, rfl⟩ := hc
    simp only [raceStep]
    split
    all_goals first
      | exact h
      | (split
         · exact h.move i _ (by intros; contradiction) (by intro _ _ hh; cases hh; exact ⟨rfl, rfl⟩) (by intros; contradiction) (by intros; contradiction)
         · rename_i f hf
           obtain ⟨o, ho, _⟩ := h.file f hf
           exact h.move i _ (by intro _ _ _ hh; cases hh; exact ⟨rfl, rfl, o, ho, List.nil_prefix⟩) (by intros; contradiction)
             (by intros; contradiction) (by intros; contradiction))
  | read i n =>
    simp only [raceStep]
    split
    · rename_i args params got f hp hf
      obtain ⟨ha, hp', o, ho, hg⟩ := h.reading i _ _ _ hp
      refine h.move i _ ?_ (by intros; contradiction) (by intros; contradiction) (by intros; contradiction)
      intro _ _ _ hh
      cases hh
      refine ⟨ha, hp', o, ho, ?_⟩
      obtain ⟨o', ho', hf'⟩ := h.file f hf
      rw [ho] at ho'
      cases ho'
      rcases hf' with rfl | rfl
      · simpa using hg
      · obtain ⟨t, ht⟩ := hg
        rw [← ht, List.drop_left]
        exact (List.prefix_append_right_inj _).2 (List.take_prefix _ _)
    · exact h
  | decide i =>
    simp only [raceStep]
    split
    · rename_i args params got hp
      obtain ⟨rfl, rfl, o, ho, hg⟩ := h.reading i _ _ _ hp
      split
      · rename_i r hr
        refine h.move i _ (by intros; contradiction) (by intros; contradiction) (by intros; contradiction) ?_
        intro _ _ _ hh
        cases hh
        obtain ⟨rfl, _⟩ := loadCached_prefix hP o args params got hg args params r hr
        exact ho
      · exact h.move i _ (by intros; contradiction) (by intro _ _ hh; cases hh; exact ⟨rfl, rfl⟩) (by intros; contradiction) (by intros; contradiction)
    · exact h
  | openWrite i =>
    simp only [raceStep]
    split
    · rename_i args params hp
      obtain ⟨rfl, rfl⟩ := h.missed i _ _ hp
      split
      · exact h.move i _ (by intros; contradiction) (by intros; contradiction) (by intros; contradiction) (by intros; contradiction)
      · rename_i o ho
        have h' : SameInv method args params ({ w with file := some [] } : Race P) :=
          ⟨fun g hg => by cases hg; exact ⟨o, ho, Or.inl rfl⟩, h.reading, h.missed, h.writing, h.right⟩
        refine h'.move i _ (by intros; contradiction) (by intros; contradiction) ?_ (by intros; contradiction)
        intro _ _ _ _ _ hh
        cases hh
        exact ⟨rfl, rfl, ho, Or.inr ⟨rfl, rfl⟩⟩
    · exact h
  | write i n =>
    simp only [raceStep]
    split
    · rename_i args params o todo pos f hp hf
      have hn := hw args params o todo pos hp
      obtain ⟨rfl, rfl, hm, htodo⟩ := h.writing i args params o todo pos hp
      obtain ⟨o', ho', hf'⟩ := h.file f hf
      rw [hm] at ho'
      cases ho'
      have hbytes : ∃ o, method args params = .ok o ∧
          (writeAt f pos (todo.take n) = [] ∨ writeAt f pos (todo.take n) = (storedBytes P o args params).1) := by
        refine ⟨o, hm, ?_⟩
        rw [List.take_of_length_le hn]
        rcases htodo with rfl | ⟨rfl, rfl⟩
        · simp only [writeAt, if_true]
          exact hf'
        · simp only [writeAt, List.take_zero, Nat.zero_sub, List.replicate_zero, List.nil_append, Nat.zero_add]
          split
          · exact hf'
          · right
            rcases hf' with rfl | rfl
            · simp
            · simp
      have h' : SameInv method args params ({ w with file := some (writeAt f pos (todo.take n)) } : Race P) :=
        ⟨fun g hg => by cases hg; exact hbytes, h.reading, h.missed, h.writing, h.right⟩
      refine h'.move i _ (by intros; contradiction) (by intros; contradiction) ?_ (by intros; contradiction)
      intro _ _ _ _ _ hh
      cases hh
      exact ⟨rfl, rfl, hm, Or.inl (List.drop_of_length_le hn)⟩
    · exact h
  | close i =>
    simp only [raceStep]
    split
    · rename_i args params o pos hp
      obtain ⟨rfl, rfl, hm, _⟩ := h.writing i args params o [] pos hp
      split
      · refine h.move i _ (by intros; contradiction) (by intros; contradiction) (by intros; contradiction) ?_
        intro _ _ _ hh
        cases hh
        exact hm
      · exact h.move i _ (by intros; contradiction) (by intros; contradiction) (by intros; contradiction) (by intros; contradiction)
    · exact h

/-- C95 when all processes make the same call and each value is written with one system call; reading may take any number of system calls. -/
theorem C95_same_call_partial {P : PickleObjects} (hP : PickleSpec P) (method : P.Obj → P.Obj → Except PyErr P.Obj) (a p : P.Obj)
    (evs : List (RaceEv P)) (hw : Spec.Throughout method (fun w e => Spec.WholeWrite w e ∧ Spec.OnlyCall a p e) (Spec.quiet P) evs) :
    ∀ i args params o, (raceRun P method (Spec.quiet P) evs).procs i = .returned args params o → method args params = .ok o := by
  suffices H : ∀ w, SameInv method a p w → Spec.Throughout method (fun w e => Spec.WholeWrite w e ∧ Spec.OnlyCall a p e) w evs →
      SameInv method a p (raceRun P method w evs) from
    (H _ ⟨(by intro f h; cases h), (by intro _ _ _ _ h; cases h), (by intro _ _ _ h; cases h), (by intro _ _ _ _ _ _ h; cases h),
      (by intro _ _ _ _ h; cases h)⟩ hw).right
  clear hw
  induction evs with
  | nil => intro w h _; exact h
  | cons e evs ih =>
    intro w h ht
    exact ih _ (sameInv_step hP method a p w h e ht.1.1 ht.1.2) ht.2

/-! ## A value that no call computed -/

/-- Lists of numbers, written as their length and their elements. -/
def listPickles : PickleObjects where
  Obj := List Nat
  dump o := (o.length :: o, none)
  load bytes :=
    match bytes with
    | [] => .error .unpicklingError
    | n :: rest => if rest.length < n then .error .unpicklingError else .ok (rest.take n, rest.drop n)
  eq a b := .ok (a == b)
  isNone _ := false

theorem listPickles_spec : PickleSpec listPickles where
  load_dump := by
    intro (o : List Nat) rest _
    change (if (o ++ rest).length < o.length then (Except.error PyErr.unpicklingError : Except PyErr (List Nat × List Nat))
      else .ok ((o ++ rest).take o.length, (o ++ rest).drop o.length)) = .ok (o, rest)
    rw [if_neg (by simp)]
    simp
  load_prefix := by
    intro (o : List Nat) pre _ hpre hne
    change pre <+: o.length :: o at hpre
    change pre ≠ o.length :: o at hne
    cases pre with
    | nil => exact ⟨_, rfl⟩
    | cons n rest =>
      obtain ⟨t, ht⟩ := hpre
      change n :: (rest ++ t) = o.length :: o at ht
      rw [List.cons.injEq] at ht
      obtain ⟨rfl, ht⟩ := ht
      have hlt : rest.length < o.length := by
        rcases t with _ | ⟨x, t⟩
        · simp only [List.append_nil] at ht
          subst ht
          exact absurd rfl hne
        · rw [← ht]; simp
      exact ⟨_, if_pos hlt⟩
  load_failed := by
    intro o pre h
    exact absurd rfl h

/-- A history in which three processes make the same call and two of them write at the same time with two system calls each. -/
def tornHistory : List (RaceEv listPickles) :=
  [.call 0 ([] : List Nat) ([] : List Nat), .call 1 ([] : List Nat) ([] : List Nat), .openWrite 0, .write 0 4, .openWrite 1, .write 0 1, .close 0,
    .write 1 3, .call 2 ([] : List Nat) ([] : List Nat), .read 2 5, .decide 2]

/-- C95 does not hold in general: a third process gets `[0, 7]` although the method gives `[7, 7]` for all arguments. -/
theorem C95_torn_refuted : ¬ ∀ (P : PickleObjects) (method : P.Obj → P.Obj → Except PyErr P.Obj), PickleSpec P →
    (∀ o, (P.dump o).2 = none → (P.dump o).1 ≠ []) → (∀ a p o, method a p = .ok o → (storedBytes P o a p).2 = none) →
    ∀ (a p : P.Obj) (evs : List (RaceEv P)), Spec.Throughout method (fun _ e => Spec.OnlyCall a p e) (Spec.quiet P) evs →
      Spec.AllRight method (raceRun P method (Spec.quiet P) evs) := by
  intro H
  have h := H listPickles (fun _ _ => .ok ([7, 7] : List Nat)) listPickles_spec (by intro o _ h; cases h) (by intros; rfl)
    ([] : List Nat) ([] : List Nat) tornHistory (by
      simp only [Spec.Throughout, tornHistory, Spec.OnlyCall, and_self]
      exact ⟨rfl, rfl, trivial, trivial, trivial, trivial, trivial, trivial, rfl, trivial⟩)
    2 ([] : List Nat) ([] : List Nat) ([0, 7] : List Nat) rfl
  rcases h with h | ⟨a, p, _, _, h⟩
  · revert h
    change ¬ ((Except.ok [7, 7] : Except PyErr (List Nat)) = .ok [0, 7])
    intro h
    cases h
  · revert h
    change ¬ ((Except.ok [7, 7] : Except PyErr (List Nat)) = .ok [0, 7])
    intro h
    cases h

/-- The hypotheses of both theorems hold in a history in which process 1 gets the value that process 0 stored. -/
def calmHistory : List (RaceEv listPickles) :=
  [.call 0 ([] : List Nat) ([] : List Nat), .openWrite 0, .write 0 5, .close 0, .call 1 ([] : List Nat) ([] : List Nat), .read 1 5, .decide 1]

example : Spec.Throughout (fun _ _ => .ok ([7, 7] : List Nat)) (fun w e => Spec.WholeWrite w e ∧ Spec.WholeRead w e ∧
      Spec.OnlyCall ([] : List Nat) ([] : List Nat) e) (Spec.quiet listPickles) calmHistory ∧
    (raceRun listPickles (fun _ _ => .ok ([7, 7] : List Nat)) (Spec.quiet listPickles) calmHistory).procs 1 =
      .returned ([] : List Nat) ([] : List Nat) ([7, 7] : List Nat) := by
  refine ⟨?_, rfl⟩
  simp only [Spec.Throughout, calmHistory, Spec.OnlyCall, Spec.WholeWrite, Spec.WholeRead, and_self, and_true, true_and]
  refine ⟨rfl, ?_, rfl, ?_⟩
  · intro _ _ _ _ _ h
    cases h
    decide
  · intro _ _ _ _ h h'
    cases h
    cases h'
    exact ⟨rfl, by decide⟩

end Cjk
