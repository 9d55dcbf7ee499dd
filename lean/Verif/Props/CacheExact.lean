import Verif.Props.CacheRace
/-!
# When exactly a shared cache file is safe (C95)
-/

namespace Cjk
open Py

namespace Spec

/-- The bytes that some call among `K` stores. -/
def StoredBy {P : PickleObjects} (method : P.Obj → P.Obj → Except PyErr P.Obj) (K : P.Obj → P.Obj → Prop) (b : List Nat) : Prop :=
  ∃ a p o, K a p ∧ method a p = .ok o ∧ b = (storedBytes P o a p).1

/-- A mixture: every byte stands at its place in something stored, or is a zero before the last place of something stored (from a gap that the system filled). -/
def Mixture {P : PickleObjects} (method : P.Obj → P.Obj → Except PyErr P.Obj) (K : P.Obj → P.Obj → Prop) (m : List Nat) : Prop :=
  ∀ (i : Nat) (c : Nat), m[i]? = some c → (∃ b, StoredBy method K b ∧ b[i]? = some c) ∨ (c = 0 ∧ ∃ b, StoredBy method K b ∧ i + 1 < b.length)

/-- All calls are among `K`. -/
def CallsAmong {P : PickleObjects} (K : P.Obj → P.Obj → Prop) (evs : List (RaceEv P)) : Prop :=
  ∀ e ∈ evs, ∀ i args params, e = .call i args params → K args params

end Spec

section
variable {P : PickleObjects} {method : P.Obj → P.Obj → Except PyErr P.Obj} {K : P.Obj → P.Obj → Prop}

theorem mixture_nil : Spec.Mixture method K [] := by intro i c h; cases h

/-- The invariant of all histories. -/
structure MixInv (method : P.Obj → P.Obj → Except PyErr P.Obj) (K : P.Obj → P.Obj → Prop) (w : Race P) : Prop where
  file : ∀ f, w.file = some f → Spec.Mixture method K f
  reading : ∀ i args params got, w.procs i = .reading args params got → K args params ∧ Spec.Mixture method K got
  missed : ∀ i args params, w.procs i = .missed args params → K args params
  writing : ∀ i args params o todo pos, w.procs i = .writing args params o todo pos → K args params ∧ method args params = .ok o ∧
    ∃ done, done ++ todo = (storedBytes P o args params).1 ∧ done.length = pos
  right : Spec.AllRight method w

theorem MixInv.move {w : Race P} (h : MixInv method K w) (i : Nat) (ph : Phase P)
    (h1 : ∀ args params got, ph = .reading args params got → K args params ∧ Spec.Mixture method K got)
    (h0 : ∀ args params, ph = .missed args params → K args params)
    (h2 : ∀ args params o todo pos, ph = .writing args params o todo pos → K args params ∧ method args params = .ok o ∧
      ∃ done, done ++ todo = (storedBytes P o args params).1 ∧ done.length = pos)
    (h3 : ∀ args params o, ph = .returned args params o →
      method args params = .ok o ∨ ∃ a p, P.eq a args = .ok true ∧ P.eq p params = .ok true ∧ method a p = .ok o) :
    MixInv method K (w.to i ph) := by
  refine ⟨fun f hf => h.file f hf, ?_, ?_, ?_, ?_⟩
  · intro j a p got hj
    rcases to_procs hj with ⟨_, hj⟩ | ⟨_, hj⟩
    · exact h1 _ _ _ hj
    · exact h.reading _ _ _ _ hj
  · intro j a p hj
    rcases to_procs hj with ⟨_, hj⟩ | ⟨_, hj⟩
    · exact h0 _ _ hj
    · exact h.missed _ _ _ hj
  · intro j a p o t q hj
    rcases to_procs hj with ⟨_, hj⟩ | ⟨_, hj⟩
    · exact h2 _ _ _ _ _ hj
    · exact h.writing _ _ _ _ _ _ hj
  · intro j a p o hj
    rcases to_procs hj with ⟨_, hj⟩ | ⟨_, hj⟩
    · exact h3 _ _ _ hj
    · exact h.right _ _ _ _ hj

theorem MixInv.setFile {w : Race P} (h : MixInv method K w) (f : List Nat) (hf : Spec.Mixture method K f) :
    MixInv method K ({ w with file := some f } : Race P) :=
  ⟨fun g hg => by cases hg; exact hf, h.reading, h.missed, h.writing, h.right⟩

/-- Reading on in a mixture gives a mixture. -/
theorem mixture_read {got f : List Nat} (h1 : Spec.Mixture method K got) (h2 : Spec.Mixture method K f) (n : Nat) :
    Spec.Mixture method K (got ++ (f.drop got.length).take n) := by
  intro i c hi
  by_cases hlt : i < got.length
  · rw [List.getElem?_append_left hlt] at hi
    exact h1 i c hi
  · rw [List.getElem?_append_right (by omega), List.getElem?_take] at hi
    split at hi
    · rw [List.getElem?_drop] at hi
      exact h2 i c (by rw [show i = got.length + (i - got.length) by omega]; exact hi)
    · cases hi

/-- So does a write. -/
theorem mixture_write {f done bytes rest : List Nat} (hf : Spec.Mixture method K f) (hb : Spec.StoredBy method K (done ++ (bytes ++ rest))) :
    Spec.Mixture method K (writeAt f done.length bytes) := by
  unfold writeAt
  split
  · exact hf
  rename_i hne
  have hpos : 0 < bytes.length := List.length_pos_iff.2 hne
  intro i c hi
  by_cases h1 : i < done.length
  · by_cases h2 : i < f.length
    · have e : (f.take done.length ++ List.replicate (done.length - f.length) 0 ++ bytes ++ f.drop (done.length + bytes.length))[i]? = f[i]? := by
        rw [List.append_assoc, List.append_assoc, List.getElem?_append_left (by rw [List.length_take]; omega), List.getElem?_take, if_pos h1]
      rw [e] at hi
      exact hf i c hi
    · have e : (f.take done.length ++ List.replicate (done.length - f.length) 0 ++ bytes ++ f.drop (done.length + bytes.length))[i]? = some 0 := by
        rw [List.append_assoc, List.getElem?_append_left (by simp only [List.length_append, List.length_take, List.length_replicate]; omega),
          List.getElem?_append_right (by rw [List.length_take]; omega), List.getElem?_replicate, if_pos (by rw [List.length_take]; omega)]
      rw [e] at hi
      cases hi
      exact .inr ⟨rfl, _, hb, by simp only [List.length_append]; omega⟩
  · have hlen : (f.take done.length ++ List.replicate (done.length - f.length) 0).length = done.length := by
      simp only [List.length_append, List.length_take, List.length_replicate]; omega
    by_cases h2 : i < done.length + bytes.length
    · have e : (f.take done.length ++ List.replicate (done.length - f.length) 0 ++ bytes ++ f.drop (done.length + bytes.length))[i]? =
          (done ++ (bytes ++ rest))[i]? := by
        rw [List.append_assoc, List.getElem?_append_right (by rw [hlen]; omega), hlen, List.getElem?_append_left (by omega),
          List.getElem?_append_right (by omega), List.getElem?_append_left (by omega)]
      rw [e] at hi
      exact .inl ⟨_, hb, hi⟩
    · have e : (f.take done.length ++ List.replicate (done.length - f.length) 0 ++ bytes ++ f.drop (done.length + bytes.length))[i]? = f[i]? := by
        rw [List.getElem?_append_right (by rw [List.length_append, hlen]; omega), List.length_append, hlen, List.getElem?_drop]
        congr 1; omega
      rw [e] at hi
      exact hf i c hi

theorem mixInv_step (hsafe : ∀ m, Spec.Mixture method K m → ∀ a p o, K a p → loadCached P m a p = some o →
      method a p = .ok o ∨ ∃ a' p', P.eq a' a = .ok true ∧ P.eq p' p = .ok true ∧ method a' p' = .ok o)
    (w : Race P) (h : MixInv method K w) (e : RaceEv P) (hc : ∀ i args params, e = .call i args params → K args params) :
    MixInv method K (raceStep P method w e) := by
  cases e with
  | call i args params =>
    have hK := hc i args params rfl
    have go : MixInv method K (match w.file with
        | none => w.to i (.missed args params)
        | some _ => w.to i (.reading args params [])) := by
      split
      · exact h.move i _ (by intros; contradiction) (by intro a p e; cases e; exact hK) (by intros; contradiction) (by intros; contradiction)
      · exact h.move i _ (by intro a p g e; cases e; exact ⟨hK, mixture_nil⟩) (by intros; contradiction) (by intros; contradiction) (by intros; contradiction)
    simp only [raceStep]
    split
    · exact go
    · exact go
    · exact h
  | read i n =>
    simp only [raceStep]
    split
    · rename_i args params got f hp hf
      obtain ⟨hK, hg⟩ := h.reading _ _ _ _ hp
      exact h.move i _ (by intro a p g e; cases e; exact ⟨hK, mixture_read hg (h.file _ hf) n⟩) (by intros; contradiction) (by intros; contradiction)
        (by intros; contradiction)
    · exact h
  | decide i =>
    simp only [raceStep]
    split
    · rename_i args params got hp
      obtain ⟨hK, hg⟩ := h.reading _ _ _ _ hp
      split
      · rename_i o ho
        exact h.move i _ (by intros; contradiction) (by intros; contradiction) (by intros; contradiction)
          (by intro a p o' e; cases e; exact hsafe got hg _ _ _ hK ho)
      · exact h.move i _ (by intros; contradiction) (by intro a p e; cases e; exact hK) (by intros; contradiction) (by intros; contradiction)
    · exact h
  | openWrite i =>
    simp only [raceStep]
    split
    · rename_i args params hp
      have hK := h.missed _ _ _ hp
      split
      · exact h.move i _ (by intros; contradiction) (by intros; contradiction) (by intros; contradiction) (by intros; contradiction)
      · rename_i o ho
        exact (h.setFile [] mixture_nil).move i _ (by intros; contradiction) (by intros; contradiction)
          (by intro a p o' t q e; cases e; exact ⟨hK, ho, [], rfl, rfl⟩) (by intros; contradiction)
    · exact h
  | write i n =>
    simp only [raceStep]
    split
    · rename_i args params o todo pos f hp hf
      obtain ⟨hK, ho, done, hd, rfl⟩ := h.writing _ _ _ _ _ _ hp
      refine (h.setFile _ ?_).move i _ (by intros; contradiction) (by intros; contradiction)
          (by
            intro a p o' t q e
            cases e
            exact ⟨hK, ho, done ++ todo.take n, by rw [List.append_assoc, List.take_append_drop]; exact hd, by rw [List.length_append]⟩)
          (by intros; contradiction)
      exact mixture_write (rest := todo.drop n) (h.file _ hf) ⟨_, _, _, hK, ho, by rw [List.take_append_drop]; exact hd⟩
    · exact h
  | close i =>
    simp only [raceStep]
    split
    · rename_i args params o pos hp
      obtain ⟨hK, ho, _⟩ := h.writing _ _ _ _ _ _ hp
      split
      · exact h.move i _ (by intros; contradiction) (by intros; contradiction) (by intros; contradiction)
          (by intro a p o' e; cases e; exact .inl ho)
      · exact h.move i _ (by intros; contradiction) (by intros; contradiction) (by intros; contradiction) (by intros; contradiction)
    · exact h

theorem mixInv_run (hsafe : ∀ m, Spec.Mixture method K m → ∀ a p o, K a p → loadCached P m a p = some o →
      method a p = .ok o ∨ ∃ a' p', P.eq a' a = .ok true ∧ P.eq p' p = .ok true ∧ method a' p' = .ok o)
    (evs : List (RaceEv P)) : ∀ w, MixInv method K w → Spec.CallsAmong K evs → MixInv method K (raceRun P method w evs) := by
  induction evs with
  | nil => intro w h _; exact h
  | cons e evs ih =>
    intro w h hc
    exact ih _ (mixInv_step hsafe w h e (hc e (by simp))) (fun x hx => hc x (by simp [hx]))

/-! ### Every mixture can be read -/

theorem raceRun_append (w : Race P) (es fs : List (RaceEv P)) : raceRun P method w (es ++ fs) = raceRun P method (raceRun P method w es) fs := by
  unfold raceRun; rw [List.foldl_append]

theorem callsAmong_append {es fs : List (RaceEv P)} (h1 : Spec.CallsAmong K es) (h2 : Spec.CallsAmong K fs) : Spec.CallsAmong K (es ++ fs) := by
  intro e he
  rcases List.mem_append.1 he with he | he
  · exact h1 e he
  · exact h2 e he

theorem to_same (w : Race P) (i : Nat) (ph : Phase P) : (w.to i ph).procs i = ph := by unfold Race.to; simp

theorem to_other (w : Race P) {i j : Nat} (ph : Phase P) (h : j ≠ i) : (w.to i ph).procs j = w.procs j := by unfold Race.to; simp [h]

theorem to_file (w : Race P) (i : Nat) (ph : Phase P) : (w.to i ph).file = w.file := rfl

/-- Process `n` calls, misses the cache and opens the file. -/
theorem spawn (hP : PickleSpec P) (hne : ∀ o, (P.dump o).2 = none → (P.dump o).1 ≠ []) (w : Race P) (n : Nat) (hn : w.procs n = .idle) {a p o : P.Obj}
    (hm : method a p = .ok o) :
    (raceRun P method w [.call n a p, .decide n, .openWrite n]).file = some [] ∧
    (raceRun P method w [.call n a p, .decide n, .openWrite n]).procs n = .writing a p o (storedBytes P o a p).1 0 ∧
    ∀ j, j ≠ n → (raceRun P method w [.call n a p, .decide n, .openWrite n]).procs j = w.procs j := by
  have key : ∀ w' : Race P, w'.procs n = .missed a p → (∀ j, j ≠ n → w'.procs j = w.procs j) →
      (raceStep P method w' (.openWrite n)).file = some [] ∧
      (raceStep P method w' (.openWrite n)).procs n = .writing a p o (storedBytes P o a p).1 0 ∧
      ∀ j, j ≠ n → (raceStep P method w' (.openWrite n)).procs j = w.procs j := by
    intro w' h1 h2
    simp only [raceStep, h1, hm]
    exact ⟨rfl, to_same _ _ _, fun j hj => (to_other _ _ hj).trans (h2 j hj)⟩
  show (raceStep P method (raceStep P method (raceStep P method w (.call n a p)) (.decide n)) (.openWrite n)).file = _ ∧ _
  cases hf : w.file with
  | none =>
    have h1 : raceStep P method w (.call n a p) = w.to n (.missed a p) := by simp only [raceStep, hn, hf]
    have h2 : raceStep P method (w.to n (.missed a p)) (.decide n) = w.to n (.missed a p) := by
      simp only [raceStep, to_same]
    have e : raceRun P method w [.call n a p, .decide n, .openWrite n] = raceStep P method (w.to n (.missed a p)) (.openWrite n) := by
      show raceStep P method (raceStep P method (raceStep P method w (.call n a p)) (.decide n)) (.openWrite n) = _
      rw [h1, h2]
    rw [e, h1, h2]
    exact key _ (to_same _ _ _) (fun j hj => to_other _ _ hj)
  | some f =>
    have h1 : raceStep P method w (.call n a p) = w.to n (.reading a p []) := by simp only [raceStep, hn, hf]
    have h2 : raceStep P method (w.to n (.reading a p [])) (.decide n) = (w.to n (.reading a p [])).to n (.missed a p) := by
      simp only [raceStep, to_same, loadCached_nil hP hne]
    have e : raceRun P method w [.call n a p, .decide n, .openWrite n] =
        raceStep P method ((w.to n (.reading a p [])).to n (.missed a p)) (.openWrite n) := by
      show raceStep P method (raceStep P method (raceStep P method w (.call n a p)) (.decide n)) (.openWrite n) = _
      rw [h1, h2]
    rw [e, h1, h2]
    exact key _ (to_same _ _ _) (fun j hj => (to_other _ _ hj).trans (to_other _ _ hj))

theorem spawn_calls {a p : P.Obj} (n : Nat) (h : K a p) : Spec.CallsAmong K [.call n a p, .decide n, .openWrite n] := by
  intro e he i x y hxy
  subst hxy
  simp only [List.mem_cons, RaceEv.call.injEq, reduceCtorEq, List.not_mem_nil, or_false] at he
  obtain ⟨_, rfl, rfl⟩ := he
  exact h

theorem quiet_calls (es : List (RaceEv P)) (h : ∀ e ∈ es, ∀ i x y, e ≠ .call i x y) : Spec.CallsAmong K es :=
  fun e he i x y hxy => absurd hxy (h e he i x y)

/-- A byte of a mixture can be made to stand in the file at its place. -/
theorem reach_byte (hP : PickleSpec P) (hne : ∀ o, (P.dump o).2 = none → (P.dump o).1 ≠ []) (w : Race P) (N : Nat) (hidle : ∀ j, N ≤ j → w.procs j = .idle)
    (i c : Nat) (hc : (∃ b, Spec.StoredBy method K b ∧ b[i]? = some c) ∨ (c = 0 ∧ ∃ b, Spec.StoredBy method K b ∧ i + 1 < b.length)) :
    ∃ evs, Spec.CallsAmong K evs ∧ (∀ j, j < N → (raceRun P method w evs).procs j = w.procs j) ∧
      (∀ j, N + 2 ≤ j → (raceRun P method w evs).procs j = .idle) ∧ ∃ f, (raceRun P method w evs).file = some f ∧ f[i]? = some c := by
  rcases hc with ⟨b, ⟨a, p, o, hK, hm, rfl⟩, hb⟩ | ⟨rfl, b, ⟨a, p, o, hK, hm, rfl⟩, hb⟩
  · obtain ⟨s1, s2, s3⟩ := spawn hP hne w N (hidle N (Nat.le_refl _)) hm
    generalize hw1 : raceRun P method w [.call N a p, .decide N, .openWrite N] = w1 at s1 s2 s3
    have hstep : raceStep P method w1 (.write N (storedBytes P o a p).1.length) =
        ({ w1 with file := some (writeAt [] 0 (storedBytes P o a p).1) } : Race P).to N
          (.writing a p o ((storedBytes P o a p).1.drop (storedBytes P o a p).1.length) (0 + ((storedBytes P o a p).1.take (storedBytes P o a p).1.length).length)) := by
      simp only [raceStep, s2, s1, List.take_length]
    refine ⟨[.call N a p, .decide N, .openWrite N] ++ [.write N (storedBytes P o a p).1.length],
      callsAmong_append (spawn_calls N hK) (quiet_calls _ (by simp)), ?_⟩
    rw [raceRun_append, hw1]
    rw [show raceRun P method w1 [.write N (storedBytes P o a p).1.length] = raceStep P method w1 (.write N (storedBytes P o a p).1.length) from rfl, hstep]
    refine ⟨?_, ?_, _, rfl, ?_⟩
    · intro j hj
      exact (to_other _ _ (by omega)).trans (s3 j (by omega))
    · intro j hj
      exact (to_other _ _ (by omega)).trans ((s3 j (by omega)).trans (hidle j (by omega)))
    · have : writeAt [] 0 (storedBytes P o a p).1 = (storedBytes P o a p).1 := by
        unfold writeAt
        split
        · rename_i h; exact h.symm
        · simp
      rw [this]; exact hb
  · -- one process writes `i + 1` bytes, another empties the file, the first writes one more
    obtain ⟨s1, s2, s3⟩ := spawn hP hne w N (hidle N (Nat.le_refl _)) hm
    generalize hw1 : raceRun P method w [.call N a p, .decide N, .openWrite N] = w1 at s1 s2 s3
    generalize hbb : (storedBytes P o a p).1 = b at hb s2
    obtain ⟨w2, hw2, f2, hf2, hp2, ho2⟩ : ∃ w2, raceStep P method w1 (.write N (i + 1)) = w2 ∧ ∃ f2, w2.file = some f2 ∧
        w2.procs N = .writing a p o (b.drop (i + 1)) (i + 1) ∧ ∀ j, j ≠ N → w2.procs j = w1.procs j := by
      refine ⟨_, rfl, ?_⟩
      simp only [raceStep, s2, s1]
      refine ⟨_, rfl, ?_, fun j hj => to_other _ _ hj⟩
      rw [to_same, List.length_take, Nat.zero_add, Nat.min_eq_left (by omega)]
    obtain ⟨t1, t2, t3⟩ := spawn hP hne w2 (N + 1) (by rw [ho2 _ (by omega), s3 _ (by omega)]; exact hidle _ (by omega)) hm
    generalize hw3 : raceRun P method w2 [.call (N + 1) a p, .decide (N + 1), .openWrite (N + 1)] = w3 at t1 t2 t3
    have hp3 : w3.procs N = .writing a p o (b.drop (i + 1)) (i + 1) := (t3 N (by omega)).trans hp2
    refine ⟨([.call N a p, .decide N, .openWrite N] ++ [.write N (i + 1)]) ++ ([.call (N + 1) a p, .decide (N + 1), .openWrite (N + 1)] ++ [.write N 1]),
      callsAmong_append (callsAmong_append (spawn_calls N hK) (quiet_calls _ (by simp)))
        (callsAmong_append (spawn_calls _ hK) (quiet_calls _ (by simp))), ?_⟩
    have hrun : raceRun P method w (([.call N a p, .decide N, .openWrite N] ++ [.write N (i + 1)]) ++
        ([.call (N + 1) a p, .decide (N + 1), .openWrite (N + 1)] ++ [.write N 1])) = raceStep P method w3 (.write N 1) := by
      rw [raceRun_append, raceRun_append, raceRun_append, hw1, show raceRun P method w1 [.write N (i + 1)] = w2 from hw2, hw3]
      rfl
    rw [hrun]
    simp only [raceStep, hp3, t1]
    refine ⟨?_, ?_, _, rfl, ?_⟩
    · intro j hj
      rw [to_other _ _ (by omega)]
      show w3.procs j = _
      rw [t3 j (by omega), ho2 j (by omega), s3 j (by omega)]
    · intro j hj
      rw [to_other _ _ (by omega)]
      show w3.procs j = _
      rw [t3 j (by omega), ho2 j (by omega), s3 j (by omega)]
      exact hidle j (by omega)
    · unfold writeAt
      rw [if_neg]
      · simp only [List.take_nil, List.nil_append, List.length_nil, Nat.sub_zero]
        rw [List.append_assoc, List.getElem?_append_left (by rw [List.length_replicate]; omega), List.getElem?_replicate, if_pos (by omega)]
      · intro h
        have := congrArg List.length h
        simp only [List.length_take, List.length_drop, List.length_nil] at this
        omega

theorem take_one_of_getElem? {f : List Nat} {i c : Nat} (h : f[i]? = some c) : (f.drop i).take 1 = [c] := by
  obtain ⟨hi, rfl⟩ := List.getElem?_eq_some_iff.1 h
  rw [List.drop_eq_getElem_cons hi]
  rfl

/-- A reader can be made to read any mixture. -/
theorem reach_mixture (hP : PickleSpec P) (hne : ∀ o, (P.dump o).2 = none → (P.dump o).1 ≠ []) (a p : P.Obj) (rest : List Nat) :
    ∀ (got : List Nat) (w : Race P) (N : Nat), 0 < N → (∀ j, N ≤ j → w.procs j = .idle) → w.procs 0 = .reading a p got →
      Spec.Mixture method K (got ++ rest) →
      ∃ evs, Spec.CallsAmong K evs ∧ (raceRun P method w evs).procs 0 = .reading a p (got ++ rest) := by
  induction rest with
  | nil =>
    intro got w N _ _ h0 _
    exact ⟨[], (by intro e he; cases he), by rw [List.append_nil]; exact h0⟩
  | cons c rest ih =>
    intro got w N hN hidle h0 hmix
    obtain ⟨evs, e1, e2, e3, f, e4, e5⟩ := reach_byte hP hne w N hidle got.length c (hmix got.length c (by simp))
    generalize hw1 : raceRun P method w evs = w1 at e2 e3 e4
    have hstep : raceStep P method w1 (.read 0 1) = w1.to 0 (.reading a p (got ++ [c])) := by
      have h01 : w1.procs 0 = .reading a p got := (e2 0 hN).trans h0
      simp only [raceStep, h01, e4, take_one_of_getElem? e5]
    obtain ⟨evs', g1, g2⟩ := ih (got ++ [c]) (w1.to 0 (.reading a p (got ++ [c]))) (N + 2) (by omega)
      (fun j hj => (to_other _ _ (by omega)).trans (e3 j hj)) (to_same _ _ _) (by rw [List.append_assoc]; exact hmix)
    refine ⟨(evs ++ [.read 0 1]) ++ evs', callsAmong_append (callsAmong_append e1 (quiet_calls _ (by simp))) g1, ?_⟩
    rw [raceRun_append, raceRun_append, hw1]
    show (raceRun P method (raceStep P method w1 (.read 0 1)) evs').procs 0 = _
    rw [hstep, g2, List.append_assoc]
    rfl

/-- C95, the exact condition: processes that make calls among `K` and share a cache file never get a wrong value, in any history, if and only if no mixture of
the bytes that these calls store can be taken for the stored result of a call with another result. -/
theorem C95_exact_condition (hP : PickleSpec P) (hne : ∀ o, (P.dump o).2 = none → (P.dump o).1 ≠ []) :
    (∀ evs : List (RaceEv P), Spec.CallsAmong K evs → Spec.AllRight method (raceRun P method (Spec.quiet P) evs)) ↔
    ∀ m, Spec.Mixture method K m → ∀ a p o, K a p → loadCached P m a p = some o →
      method a p = .ok o ∨ ∃ a' p', P.eq a' a = .ok true ∧ P.eq p' p = .ok true ∧ method a' p' = .ok o := by
  constructor
  · intro h m hm a p o hK hl
    have hne' : m ≠ [] := by
      rintro rfl
      rw [loadCached_nil hP hne] at hl
      cases hl
    obtain ⟨a0, p0, o0, hK0, hm0⟩ : ∃ a p o, K a p ∧ method a p = .ok o := by
      cases m with
      | nil => exact absurd rfl hne'
      | cons c m =>
        rcases hm 0 c rfl with ⟨_, ⟨a, p, o, h1, h2, _⟩, _⟩ | ⟨_, _, ⟨a, p, o, h1, h2, _⟩, _⟩
        · exact ⟨a, p, o, h1, h2⟩
        · exact ⟨a, p, o, h1, h2⟩
    -- process 1 makes the file, process 0 begins to read
    obtain ⟨s1, s2, s3⟩ := spawn hP hne (Spec.quiet P) 1 rfl hm0
    generalize hw1 : raceRun P method (Spec.quiet P) [.call 1 a0 p0, .decide 1, .openWrite 1] = w1 at s1 s2 s3
    have hcall : raceStep P method w1 (.call 0 a p) = w1.to 0 (.reading a p []) := by
      have h01 : w1.procs 0 = .idle := s3 0 (by omega)
      simp only [raceStep, h01, s1]
    obtain ⟨evs, e1, e2⟩ := reach_mixture (K := K) (method := method) hP hne a p m [] (w1.to 0 (.reading a p [])) 2 (by omega)
      (fun j hj => (to_other _ _ (by omega)).trans (s3 j (by omega))) (to_same _ _ _) hm
    have hfin : (raceRun P method (Spec.quiet P)
        (([.call 1 a0 p0, .decide 1, .openWrite 1] ++ [.call 0 a p]) ++ (evs ++ [.decide 0]))).procs 0 = .returned a p o := by
      rw [raceRun_append, raceRun_append, raceRun_append, hw1]
      show (raceStep P method (raceRun P method (raceStep P method w1 (.call 0 a p)) evs) (.decide 0)).procs 0 = _
      rw [hcall]
      generalize hw2 : raceRun P method (w1.to 0 (.reading a p [])) evs = w2 at e2
      simp only [raceStep, e2, List.nil_append, hl, to_same]
    refine h _ ?_ 0 a p o hfin
    refine callsAmong_append (callsAmong_append (spawn_calls 1 hK0) ?_) (callsAmong_append e1 (quiet_calls _ (by simp)))
    intro e he i x y hxy
    subst hxy
    simp only [List.mem_cons, RaceEv.call.injEq, List.not_mem_nil, or_false] at he
    obtain ⟨_, rfl, rfl⟩ := he
    exact hK
  · intro h evs hc
    exact (mixInv_run h evs (Spec.quiet P)
      ⟨(by intro f h; cases h), (by intro _ _ _ _ h; cases h), (by intro _ _ _ h; cases h), (by intro _ _ _ _ _ _ h; cases h), (by intro _ _ _ _ h; cases h)⟩ hc).right

end

/-- The condition already fails for one call made by several processes, if it gives `[7, 7]`: the mixture with a zero for the first 7 is read as `[0, 7]`. -/
example : ¬ ∀ m, Spec.Mixture (P := listPickles) (fun _ _ => .ok ([7, 7] : List Nat)) (fun a p => a = ([] : List Nat) ∧ p = ([] : List Nat)) m →
    ∀ a p o, (a = ([] : List Nat) ∧ p = ([] : List Nat)) → loadCached listPickles m a p = some o →
      (Except.ok ([7, 7] : List Nat) : Except PyErr (List Nat)) = .ok o ∨ ∃ a' p', listPickles.eq a' a = .ok true ∧ listPickles.eq p' p = .ok true ∧
        (Except.ok ([7, 7] : List Nat) : Except PyErr (List Nat)) = .ok o := by
  intro h
  have := h [0, 0, 2, 0, 7] (by
    intro i c hi
    have hs : Spec.StoredBy (P := listPickles) (fun _ _ => .ok ([7, 7] : List Nat)) (fun a p => a = ([] : List Nat) ∧ p = ([] : List Nat)) [0, 0, 2, 7, 7] :=
      ⟨([] : List Nat), ([] : List Nat), ([7, 7] : List Nat), ⟨rfl, rfl⟩, rfl, rfl⟩
    match i, hi with
    | 0, hi => cases hi; exact .inl ⟨_, hs, rfl⟩
    | 1, hi => cases hi; exact .inl ⟨_, hs, rfl⟩
    | 2, hi => cases hi; exact .inl ⟨_, hs, rfl⟩
    | 3, hi => cases hi; exact .inr ⟨rfl, _, hs, by decide⟩
    | 4, hi => cases hi; exact .inl ⟨_, hs, rfl⟩
    | n + 5, hi => cases hi) ([] : List Nat) ([] : List Nat) ([0, 7] : List Nat) ⟨rfl, rfl⟩ rfl
  rcases this with h | ⟨_, _, _, _, h⟩ <;> cases h

/-- It holds for one call that gives the empty list, made by any number of processes. -/
example : ∀ m, Spec.Mixture (P := listPickles) (fun _ _ => .ok ([] : List Nat)) (fun a p => a = ([] : List Nat) ∧ p = ([] : List Nat)) m →
    ∀ a p o, (a = ([] : List Nat) ∧ p = ([] : List Nat)) → loadCached listPickles m a p = some o →
      (Except.ok ([] : List Nat) : Except PyErr (List Nat)) = .ok o := by
  intro m hm a p o hap hl
  have hs : ∀ b, Spec.StoredBy (P := listPickles) (fun _ _ => .ok ([] : List Nat)) (fun a p => a = ([] : List Nat) ∧ p = ([] : List Nat)) b → b = [0, 0, 0] := by
    rintro b ⟨a, p, o, ⟨rfl, rfl⟩, ho, rfl⟩
    cases ho
    rfl
  have hz : ∀ (i c : Nat), m[i]? = some c → c = 0 ∧ i < 3 := by
    intro i c hi
    rcases hm i c hi with ⟨b, hb, hc⟩ | ⟨rfl, b, hb, hc⟩
    · rw [hs b hb] at hc
      match i, hc with
      | 0, hc => cases hc; exact ⟨rfl, by omega⟩
      | 1, hc => cases hc; exact ⟨rfl, by omega⟩
      | 2, hc => cases hc; exact ⟨rfl, by omega⟩
      | n + 3, hc => cases hc
    · rw [hs b hb] at hc
      exact ⟨rfl, by simp only [List.length_cons, List.length_nil] at hc; omega⟩
  obtain ⟨rfl, rfl⟩ := hap
  match m, hz, hl with
  | [], _, hl => cases hl
  | [x], hz, hl => rw [(hz 0 x rfl).1] at hl; cases hl
  | [x, y], hz, hl => rw [(hz 0 x rfl).1, (hz 1 y rfl).1] at hl; cases hl
  | [x, y, z], hz, hl => rw [(hz 0 x rfl).1, (hz 1 y rfl).1, (hz 2 z rfl).1] at hl; cases hl; rfl
  | x :: y :: z :: t :: r, hz, hl => exact absurd (hz 3 t rfl).2 (by omega)

end Cjk
