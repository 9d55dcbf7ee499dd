import Verif.Props.CacheRace
/-!
# C95 when values are stored one after the other

Values of any size, written with any number of system calls, while other processes read.  What can go wrong is only that two processes
store at the same time, or that a process reads a part of one value and a part of the next.
-/

namespace Cjk
open Py

/-- A beginning of what some call in `K` stores. -/
def Begun {P : PickleObjects} (method : P.Obj → P.Obj → Except PyErr P.Obj) (K : P.Obj → P.Obj → Prop) (f : List Nat) : Prop :=
  ∃ a p o, K a p ∧ method a p = .ok o ∧ f <+: (storedBytes P o a p).1

/-- The invariant: at most one process stores; the file and what it has still to write make up its value; readers have seen a beginning of
some value, and of the file as it is now if `S`. -/
structure OneInv {P : PickleObjects} (method : P.Obj → P.Obj → Except PyErr P.Obj) (K : P.Obj → P.Obj → Prop) (S : Prop) (w : Race P) : Prop where
  file : ∀ f, w.file = some f → Begun method K f
  reading : ∀ i args params got, w.procs i = .reading args params got → K args params ∧ Begun method K got
  sync : S → ∀ i args params got, w.procs i = .reading args params got → ∃ f, w.file = some f ∧ got <+: f
  missed : ∀ i args params, w.procs i = .missed args params → K args params
  writing : ∀ i args params o todo pos, w.procs i = .writing args params o todo pos → K args params ∧
    method args params = .ok o ∧ ∃ f, w.file = some f ∧ pos = f.length ∧ f ++ todo = (storedBytes P o args params).1
  one : ∀ i j, Spec.Storing w i → Spec.Storing w j → i = j
  right : ∀ i args params o, w.procs i = .returned args params o →
    method args params = .ok o ∨ ∃ a p, K a p ∧ P.eq a args = .ok true ∧ P.eq p params = .ok true ∧ method a p = .ok o

/-- A process moves to a phase in which it does not store. -/
theorem OneInv.move {P : PickleObjects} {method : P.Obj → P.Obj → Except PyErr P.Obj} {K : P.Obj → P.Obj → Prop} {S : Prop} {w : Race P}
    (h : OneInv method K S w) (i : Nat) (ph : Phase P)
    (h1 : ∀ args params got, ph = .reading args params got → K args params ∧ Begun method K got ∧ (S → ∃ f, w.file = some f ∧ got <+: f))
    (h0 : ∀ args params, ph = .missed args params → K args params)
    (h2 : ∀ args params o todo pos, ph ≠ .writing args params o todo pos)
    (h3 : ∀ args params o, ph = .returned args params o →
      method args params = .ok o ∨ ∃ a p, K a p ∧ P.eq a args = .ok true ∧ P.eq p params = .ok true ∧ method a p = .ok o) :
    OneInv method K S (w.to i ph) := by
  have hst : ∀ j, Spec.Storing (w.to i ph) j → Spec.Storing w j := by
    rintro j ⟨a, p, o, t, q, hj⟩
    rcases to_procs hj with ⟨_, hj⟩ | ⟨_, hj⟩
    · exact absurd hj (h2 _ _ _ _ _)
    · exact ⟨_, _, _, _, _, hj⟩
  refine ⟨fun f hf => h.file f hf, ?_, ?_, ?_, ?_, ?_, ?_⟩
  · intro j _ _ _ hj
    rcases to_procs hj with ⟨_, hj⟩ | ⟨_, hj⟩
    · exact ⟨(h1 _ _ _ hj).1, (h1 _ _ _ hj).2.1⟩
    · exact h.reading j _ _ _ hj
  · intro s j _ _ _ hj
    rcases to_procs hj with ⟨_, hj⟩ | ⟨_, hj⟩
    · exact (h1 _ _ _ hj).2.2 s
    · exact h.sync s j _ _ _ hj
  · intro j _ _ hj
    rcases to_procs hj with ⟨_, hj⟩ | ⟨_, hj⟩
    · exact h0 _ _ hj
    · exact h.missed j _ _ hj
  · intro j _ _ _ _ _ hj
    rcases to_procs hj with ⟨_, hj⟩ | ⟨_, hj⟩
    · exact absurd hj (h2 _ _ _ _ _)
    · exact h.writing j _ _ _ _ _ hj
  · intro j k hj hk
    exact h.one j k (hst j hj) (hst k hk)
  · intro j _ _ _ hj
    rcases to_procs hj with ⟨_, hj⟩ | ⟨_, hj⟩
    · exact h3 _ _ _ hj
    · exact h.right j _ _ _ hj

/-- The process that stores changes the file. -/
theorem OneInv.store {P : PickleObjects} {method : P.Obj → P.Obj → Except PyErr P.Obj} {K : P.Obj → P.Obj → Prop} {S : Prop} {w : Race P}
    (h : OneInv method K S w) (i : Nat) (hi : ∀ j, Spec.Storing w j → j = i) (args params o : P.Obj) (f todo : List Nat)
    (hK : K args params) (hm : method args params = .ok o) (hf : f ++ todo = (storedBytes P o args params).1)
    (hs : S → ∀ j a p got, j ≠ i → w.procs j = .reading a p got → got <+: f) :
    OneInv method K S (({ w with file := some f } : Race P).to i (.writing args params o todo f.length)) := by
  have hst : ∀ j, Spec.Storing (({ w with file := some f } : Race P).to i (.writing args params o todo f.length)) j → j = i := by
    rintro j ⟨_, _, _, _, _, hj⟩
    rcases to_procs hj with ⟨hji, _⟩ | ⟨_, hj⟩
    · exact hji
    · exact hi j ⟨_, _, _, _, _, hj⟩
  refine ⟨?_, ?_, ?_, ?_, ?_, ?_, ?_⟩
  · intro g hg
    cases hg
    exact ⟨args, params, o, hK, hm, ⟨todo, hf⟩⟩
  · intro j _ _ _ hj
    rcases to_procs hj with ⟨_, hj⟩ | ⟨_, hj⟩
    · cases hj
    · exact h.reading j _ _ _ hj
  · intro s j _ _ _ hj
    rcases to_procs hj with ⟨_, hj⟩ | ⟨hne, hj⟩
    · cases hj
    · exact ⟨f, rfl, hs s j _ _ _ hne hj⟩
  · intro j _ _ hj
    rcases to_procs hj with ⟨_, hj⟩ | ⟨_, hj⟩
    · cases hj
    · exact h.missed j _ _ hj
  · intro j _ _ _ _ _ hj
    rcases to_procs hj with ⟨_, hj⟩ | ⟨hne, hj⟩
    · cases hj
      exact ⟨hK, hm, f, rfl, rfl, hf⟩
    · exact absurd (hi j ⟨_, _, _, _, _, hj⟩) hne
  · intro j k hj hk
    rw [hst j hj, hst k hk]
  · intro j _ _ _ hj
    rcases to_procs hj with ⟨_, hj⟩ | ⟨_, hj⟩
    · cases hj
    · exact h.right j _ _ _ hj

theorem writeAt_end (f bytes : List Nat) : writeAt f f.length bytes = f ++ bytes := by
  unfold writeAt
  split
  · rename_i h
    rw [h, List.append_nil]
  · rw [List.take_length, Nat.sub_self, List.replicate_zero, List.append_nil, List.drop_of_length_le (by omega), List.append_nil]

theorem oneInv_step {P : PickleObjects} (hP : PickleSpec P) (method : P.Obj → P.Obj → Except PyErr P.Obj) (K : P.Obj → P.Obj → Prop) (S : Prop)
    (w : Race P) (h : OneInv method K S w) (e : RaceEv P) (ho : Spec.OneWriter w e)
    (hc : ∀ i args params, e = .call i args params → K args params)
    (hs : S → Spec.NotWhileRead w e)
    (hr : ∀ i n args params got f, e = .read i n → w.procs i = .reading args params got → w.file = some f → Begun method K got → Begun method K f →
      (S → got <+: f) → Begun method K (got ++ (f.drop got.length).take n)) :
    OneInv method K S (raceStep P method w e) := by
  cases e with
  | call i args params =>
    have hK := hc i args params rfl
    simp only [raceStep]
    split
    all_goals first
      | exact h
      | (split
         · exact h.move i _ (by intros; contradiction) (by intro _ _ hh; cases hh; exact hK) (by intros; simp) (by intros; contradiction)
         · rename_i f hf
           obtain ⟨a, p, o, h1, h2, _⟩ := h.file f hf
           exact h.move i _ (by intro _ _ _ hh; cases hh; exact ⟨hK, ⟨a, p, o, h1, h2, List.nil_prefix⟩, fun _ => ⟨f, hf, List.nil_prefix⟩⟩)
             (by intros; contradiction) (by intros; simp) (by intros; contradiction))
  | read i n =>
    simp only [raceStep]
    split
    · rename_i args params got f hp hf
      obtain ⟨hK, hg⟩ := h.reading i _ _ _ hp
      have hsync : S → got <+: f := by
        intro s
        obtain ⟨f', hf', hpre⟩ := h.sync s i _ _ _ hp
        rw [hf] at hf'
        cases hf'
        exact hpre
      refine h.move i _ ?_ (by intros; contradiction) (by intros; simp) (by intros; contradiction)
      intro _ _ _ hh
      cases hh
      refine ⟨hK, hr i n args params got f rfl hp hf hg (h.file f hf) hsync, fun s => ⟨f, hf, ?_⟩⟩
      obtain ⟨t, ht⟩ := hsync s
      rw [← ht, List.drop_left]
      exact (List.prefix_append_right_inj _).2 (List.take_prefix _ _)
    · exact h
  | decide i =>
    simp only [raceStep]
    split
    · rename_i args params got hp
      obtain ⟨hK, a, p, o, hKa, ho', hg⟩ := h.reading i _ _ _ hp
      split
      · rename_i r hr'
        refine h.move i _ (by intros; contradiction) (by intros; contradiction) (by intros; simp) ?_
        intro _ _ _ hh
        cases hh
        obtain ⟨rfl, _, e1, e2, _⟩ := loadCached_prefix hP o a p got hg args params r hr'
        exact Or.inr ⟨a, p, hKa, e1, e2, ho'⟩
      · exact h.move i _ (by intros; contradiction) (by intro _ _ hh; cases hh; exact hK) (by intros; simp) (by intros; contradiction)
    · exact h
  | openWrite i =>
    simp only [raceStep]
    split
    · rename_i args params hp
      have hK := h.missed i _ _ hp
      split
      · exact h.move i _ (by intros; contradiction) (by intros; contradiction) (by intros; simp) (by intros; contradiction)
      · rename_i o hm
        refine h.store i (fun j hj => absurd hj (ho j)) args params o [] _ hK hm (List.nil_append _) ?_
        intro s j a p got _ hj
        by_cases hg : got = []
        · rw [hg]
          exact List.nil_prefix
        · exact absurd ⟨a, p, got, hj, hg⟩ (hs s j)
    · exact h
  | write i n =>
    simp only [raceStep]
    split
    · rename_i args params o todo pos f hp hf
      obtain ⟨hK, hm, f', hf', hpos, hft⟩ := h.writing i args params o todo pos hp
      rw [hf] at hf'
      cases hf'
      subst hpos
      rw [writeAt_end]
      have e1 : f.length + (todo.take n).length = (f ++ todo.take n).length := by rw [List.length_append]
      rw [e1]
      refine h.store i (fun j hj => h.one j i hj ⟨_, _, _, _, _, hp⟩) args params o _ _ hK hm ?_ ?_
      · rw [List.append_assoc, List.take_append_drop, hft]
      · intro s j a p got _ hj
        obtain ⟨f', hf', hpre⟩ := h.sync s j _ _ _ hj
        rw [hf] at hf'
        cases hf'
        exact hpre.trans (List.prefix_append _ _)
    · exact h
  | close i =>
    simp only [raceStep]
    split
    · rename_i args params o pos hp
      obtain ⟨hK, hm, _⟩ := h.writing i args params o [] pos hp
      split
      · refine h.move i _ (by intros; contradiction) (by intros; contradiction) (by intros; simp) ?_
        intro _ _ _ hh
        cases hh
        exact Or.inl hm
      · exact h.move i _ (by intros; contradiction) (by intros; contradiction) (by intros; simp) (by intros; contradiction)
    · exact h

theorem oneInv_quiet {P : PickleObjects} (method : P.Obj → P.Obj → Except PyErr P.Obj) (K : P.Obj → P.Obj → Prop) (S : Prop) :
    OneInv method K S (Spec.quiet P) :=
  ⟨(by intro f h; cases h), (by intro _ _ _ _ h; cases h), (by intro _ _ _ _ _ h; cases h), (by intro _ _ _ h; cases h),
    (by intro _ _ _ _ _ _ h; cases h), (by rintro _ _ ⟨_, _, _, _, _, h⟩; cases h), (by intro _ _ _ _ h; cases h)⟩

theorem throughout_run {P : PickleObjects} {method : P.Obj → P.Obj → Except PyErr P.Obj} {I : Race P → Prop} {ok : Race P → RaceEv P → Prop}
    (hstep : ∀ w e, I w → ok w e → I (raceStep P method w e)) (evs : List (RaceEv P)) :
    ∀ w, I w → Spec.Throughout method ok w evs → I (raceRun P method w evs) := by
  induction evs with
  | nil => intro w h _; exact h
  | cons e evs ih =>
    intro w h ht
    exact ih _ (hstep w e h ht.1) ht.2

/-- C95 for values of any size, written and read with any number of system calls of any sizes, and any calls, when the cache file is opened for
writing only while no process stores a value and no process has read a part of the file. -/
theorem C95_one_writer_partial {P : PickleObjects} (hP : PickleSpec P) (method : P.Obj → P.Obj → Except PyErr P.Obj) (evs : List (RaceEv P))
    (hw : Spec.Throughout method (fun w e => Spec.OneWriter w e ∧ Spec.NotWhileRead w e) (Spec.quiet P) evs) :
    Spec.AllRight method (raceRun P method (Spec.quiet P) evs) := by
  have h := throughout_run (I := OneInv method (fun _ _ => True) True) (fun w e hi hok =>
    oneInv_step hP method _ _ w hi e hok.1 (by intros; trivial) (fun _ => hok.2) (by
      rintro i n args params got f _ _ _ _ ⟨a, p, o, hK, hm, hf⟩ hsync
      refine ⟨a, p, o, hK, hm, List.IsPrefix.trans ?_ hf⟩
      obtain ⟨t, ht⟩ := hsync trivial
      rw [← ht, List.drop_left]
      exact (List.prefix_append_right_inj _).2 (List.take_prefix _ _))) evs _ (oneInv_quiet method _ _) hw
  intro i args params o hi
  rcases h.right i args params o hi with h | ⟨a, p, _, h1, h2, h3⟩
  · exact Or.inl h
  · exact Or.inr ⟨a, p, h1, h2, h3⟩

/-- C95 for values of any size, any calls and any number of system calls for writing, when at most one process stores at a time and readers
read the file with one system call: it does not matter that they read while a value is being written. -/
theorem C95_whole_reads_partial {P : PickleObjects} (hP : PickleSpec P) (method : P.Obj → P.Obj → Except PyErr P.Obj) (evs : List (RaceEv P))
    (hw : Spec.Throughout method (fun w e => Spec.OneWriter w e ∧ Spec.WholeRead w e) (Spec.quiet P) evs) :
    Spec.AllRight method (raceRun P method (Spec.quiet P) evs) := by
  have h := throughout_run (I := OneInv method (fun _ _ => True) False) (fun w e hi hok =>
    oneInv_step hP method _ _ w hi e hok.1 (by intros; trivial) (fun s => s.elim) (by
      rintro i n args params got f rfl hp hf _ ⟨a, p, o, hK, hm, hpre⟩ _
      obtain ⟨rfl, _⟩ := hok.2 args params got f hp hf
      refine ⟨a, p, o, hK, hm, List.IsPrefix.trans ?_ hpre⟩
      rw [List.nil_append]
      exact List.take_prefix _ _)) evs _ (oneInv_quiet method _ _) hw
  intro i args params o hi
  rcases h.right i args params o hi with h | ⟨a, p, _, h1, h2, h3⟩
  · exact Or.inl h
  · exact Or.inr ⟨a, p, h1, h2, h3⟩

theorem prefix_join {g f s : List Nat} (n : Nat) (hg : g <+: s) (hf : f <+: s) : g ++ (f.drop g.length).take n <+: s := by
  by_cases hl : g.length ≤ f.length
  · obtain ⟨t, ht⟩ := List.prefix_of_prefix_length_le hg hf hl
    refine List.IsPrefix.trans ?_ hf
    rw [← ht, List.drop_left]
    exact (List.prefix_append_right_inj _).2 (List.take_prefix _ _)
  · rw [List.drop_of_length_le (by omega), List.take_nil, List.append_nil]
    exact hg

/-- C95 when all processes make the same call: values of any size, any number of system calls for reading and writing, at most one process
storing at a time; the file may be opened for writing while others read it. -/
theorem C95_same_call_one_writer_partial {P : PickleObjects} (hP : PickleSpec P) (method : P.Obj → P.Obj → Except PyErr P.Obj) (a p : P.Obj)
    (evs : List (RaceEv P)) (hw : Spec.Throughout method (fun w e => Spec.OneWriter w e ∧ Spec.OnlyCall a p e) (Spec.quiet P) evs) :
    ∀ i args params o, (raceRun P method (Spec.quiet P) evs).procs i = .returned args params o → method a p = .ok o := by
  have h := throughout_run (I := fun w => OneInv method (fun x y => x = a ∧ y = p) False w ∧
      ∀ i args params o, w.procs i = .returned args params o → args = a ∧ params = p) (ok := fun w e => Spec.OneWriter w e ∧ Spec.OnlyCall a p e)
    (method := method) (fun w e hi hok => ⟨oneInv_step hP method _ _ w hi.1 e hok.1 (by
        rintro i args params rfl
        exact hok.2) (fun s => s.elim) (by
      rintro i n args params got f _ _ _ ⟨_, _, o, ⟨rfl, rfl⟩, hm, hg⟩ ⟨_, _, o', ⟨rfl, rfl⟩, hm', hf⟩ _
      rw [hm] at hm'
      cases hm'
      exact ⟨_, _, o, ⟨rfl, rfl⟩, hm, prefix_join n hg hf⟩), by
      obtain ⟨hi, hret⟩ := hi
      cases e with
      | call j x y =>
        simp only [raceStep]
        repeat' split
        all_goals first
          | exact hret
          | (intro i args params o hh
             rcases to_procs hh with ⟨_, hh⟩ | ⟨_, hh⟩
             · cases hh
             · exact hret _ _ _ _ hh)
      | read j n =>
        simp only [raceStep]
        split
        · intro i args params o hh
          rcases to_procs hh with ⟨_, hh⟩ | ⟨_, hh⟩
          · cases hh
          · exact hret _ _ _ _ hh
        · exact hret
      | decide j =>
        simp only [raceStep]
        split
        · rename_i args' params' got hp
          split
          · intro i args params o hh
            rcases to_procs hh with ⟨_, hh⟩ | ⟨_, hh⟩
            · cases hh
              exact (hi.reading j _ _ _ hp).1
            · exact hret _ _ _ _ hh
          · intro i args params o hh
            rcases to_procs hh with ⟨_, hh⟩ | ⟨_, hh⟩
            · cases hh
            · exact hret _ _ _ _ hh
        · exact hret
      | openWrite j =>
        simp only [raceStep]
        repeat' split
        all_goals first
          | exact hret
          | (intro i args params o hh
             rcases to_procs hh with ⟨_, hh⟩ | ⟨_, hh⟩
             · cases hh
             · exact hret _ _ _ _ hh)
      | write j n =>
        simp only [raceStep]
        split
        · intro i args params o hh
          rcases to_procs hh with ⟨_, hh⟩ | ⟨_, hh⟩
          · cases hh
          · exact hret _ _ _ _ hh
        · exact hret
      | close j =>
        simp only [raceStep]
        split
        · rename_i args' params' o' pos hp
          split
          · intro i args params o hh
            rcases to_procs hh with ⟨_, hh⟩ | ⟨_, hh⟩
            · cases hh
              exact (hi.writing j _ _ _ _ _ hp).1
            · exact hret _ _ _ _ hh
          · intro i args params o hh
            rcases to_procs hh with ⟨_, hh⟩ | ⟨_, hh⟩
            · cases hh
            · exact hret _ _ _ _ hh
        · exact hret⟩) evs _ ⟨oneInv_quiet method _ _, (by intro _ _ _ _ h; cases h)⟩ hw
  intro i args params o hi
  obtain ⟨rfl, rfl⟩ := h.2 i args params o hi
  rcases h.1.right i args params o hi with h | ⟨_, _, ⟨rfl, rfl⟩, _, _, h3⟩
  · exact h
  · exact h3

/-! ## The hypotheses hold in histories with several system calls, and cannot be dropped -/

/-- Process 0 writes with three system calls; process 1 reads in between and computes itself; process 2 reads with two system calls what process 1
has stored. -/
def slowHistory : List (RaceEv listPickles) :=
  [.call 0 ([] : List Nat) ([] : List Nat), .openWrite 0, .write 0 2, .call 1 ([] : List Nat) ([] : List Nat), .read 1 9, .decide 1,
    .write 0 1, .write 0 9, .close 0, .openWrite 1, .write 1 9, .close 1, .call 2 ([] : List Nat) ([] : List Nat), .read 2 3, .read 2 9, .decide 2]

/-- No process in the list stores, and the others have not begun. -/
theorem not_storing {P : PickleObjects} {w : Race P} (k : Nat) (h1 : ∀ j, j < k → ¬ Spec.Storing w j) (h2 : ∀ j, k ≤ j → w.procs j = .idle) (j : Nat) :
    ¬ Spec.Storing w j := by
  by_cases h : j < k
  · exact h1 j h
  · rintro ⟨_, _, _, _, _, hj⟩
    rw [h2 j (by omega)] at hj
    cases hj

theorem not_halfRead {P : PickleObjects} {w : Race P} (k : Nat) (h1 : ∀ j, j < k → ¬ Spec.HalfRead w j) (h2 : ∀ j, k ≤ j → w.procs j = .idle) (j : Nat) :
    ¬ Spec.HalfRead w j := by
  by_cases h : j < k
  · exact h1 j h
  · rintro ⟨_, _, _, hj, _⟩
    rw [h2 j (by omega)] at hj
    cases hj

example : Spec.Throughout (fun _ _ => .ok ([7, 7] : List Nat)) (fun w e => Spec.OneWriter w e ∧ Spec.NotWhileRead w e ∧ Spec.OnlyCall ([] : List Nat) ([] : List Nat) e)
      (Spec.quiet listPickles) slowHistory ∧
    (raceRun listPickles (fun _ _ => .ok ([7, 7] : List Nat)) (Spec.quiet listPickles) slowHistory).procs 2 =
      .returned ([] : List Nat) ([] : List Nat) ([7, 7] : List Nat) := by
  refine ⟨?_, rfl⟩
  simp only [Spec.Throughout, slowHistory, Spec.OnlyCall, Spec.OneWriter, Spec.NotWhileRead, and_self, and_true, true_and]
  refine ⟨rfl, ⟨not_storing 1 ?_ ?_, not_halfRead 1 ?_ ?_⟩, rfl, ⟨not_storing 2 ?_ ?_, not_halfRead 2 ?_ ?_⟩, rfl⟩
  all_goals intro j hj
  · rintro ⟨_, _, _, _, _, h⟩
    rcases j with _ | j
    · cases h
    · omega
  · rcases j with _ | j
    · omega
    · rfl
  · rintro ⟨_, _, _, h, _⟩
    rcases j with _ | j
    · cases h
    · omega
  · rcases j with _ | j
    · omega
    · rfl
  · rintro ⟨_, _, _, _, _, h⟩
    rcases j with _ | _ | j
    · cases h
    · cases h
    · omega
  · rcases j with _ | _ | j
    · omega
    · omega
    · rfl
  · rintro ⟨_, _, _, h, _⟩
    rcases j with _ | _ | j
    · cases h
    · cases h
    · omega
  · rcases j with _ | _ | j
    · omega
    · omega
    · rfl

/-- Process 1 reads a part of the value stored for `[1]` and the rest after process 2 has stored the value for `[2]`. -/
def mixedHistory : List (RaceEv listPickles) :=
  [.call 0 ([1] : List Nat) ([] : List Nat), .openWrite 0, .write 0 9, .close 0, .call 1 ([1] : List Nat) ([] : List Nat), .read 1 5,
    .call 2 ([2] : List Nat) ([] : List Nat), .read 2 9, .decide 2, .openWrite 2, .write 2 9, .close 2, .read 1 9, .decide 1]

def mixedMethod (a _p : List Nat) : Except PyErr (List Nat) := .ok (if a = [1] then [8, 8] else [9, 9])

theorem mixed_one_writer : Spec.Throughout mixedMethod (fun w e => Spec.OneWriter w e ∧ Spec.WholeWrite w e) (Spec.quiet listPickles) mixedHistory := by
  simp only [Spec.Throughout, mixedHistory, Spec.OneWriter, Spec.WholeWrite, and_self, and_true, true_and]
  refine ⟨not_storing 1 ?_ ?_, ?_, not_storing 3 ?_ ?_, ?_⟩
  · rintro j hj ⟨_, _, _, _, _, h⟩
    rcases j with _ | j
    · cases h
    · omega
  · intro j hj
    rcases j with _ | j
    · omega
    · rfl
  · intro _ _ _ _ _ h
    cases h
    decide
  · rintro j hj ⟨_, _, _, _, _, h⟩
    rcases j with _ | _ | _ | j
    · cases h
    · cases h
    · cases h
    · omega
  · intro j hj
    rcases j with _ | _ | _ | j
    · omega
    · omega
    · omega
    · rfl
  · intro _ _ _ _ _ h
    cases h
    decide

/-- One process storing at a time and each value written with one system call are not enough when calls differ and reading takes two system
calls: a process gets `[8, 9]`, which no call computes. -/
theorem C95_mixed_refuted : ¬ ∀ (P : PickleObjects) (method : P.Obj → P.Obj → Except PyErr P.Obj), PickleSpec P →
    (∀ o, (P.dump o).2 = none → (P.dump o).1 ≠ []) → (∀ a p o, method a p = .ok o → (storedBytes P o a p).2 = none) →
    ∀ (evs : List (RaceEv P)), Spec.Throughout method (fun w e => Spec.OneWriter w e ∧ Spec.WholeWrite w e) (Spec.quiet P) evs →
      Spec.AllRight method (raceRun P method (Spec.quiet P) evs) := by
  intro H
  have h := H listPickles mixedMethod listPickles_spec (by intro o _ h; cases h) (by intros; rfl) mixedHistory mixed_one_writer
    1 ([1] : List Nat) ([] : List Nat) ([8, 9] : List Nat) rfl
  have hno : ∀ a p : List Nat, mixedMethod a p ≠ .ok [8, 9] := by
    intro a p h
    unfold mixedMethod at h
    split at h <;> cases h
  rcases h with h | ⟨a, p, _, _, h⟩
  · exact hno _ _ h
  · exact hno _ _ h

end Cjk
