import Verif.Model.KanaObjects
/-!
# C129: what is done to a table from `get_table` shows nowhere else
-/

namespace Cjk
open Py

/-- What the program may rely on: the number of `KanaTable` objects, and tables of its own. -/
structure Spec.KanaBook where
  objs : Nat
  own : List (Dict Str Str)

/-- Every `KanaTable` answers as a new one does, every call of `get_table` gives the table of the source, and a change touches one table. -/
def Spec.KanaBook.step (b : Spec.KanaBook) : KanaStep → Spec.KanaBook × KanaSeen
  | .new => (⟨b.objs + 1, b.own⟩, .nothing)
  | .getTable i => if i < b.objs then (⟨b.objs, b.own ++ [kanaRows]⟩, .nothing) else (b, .nothing)
  | .ask i q => if i < b.objs then (b, .answer (kanaTable.answer q)) else (b, .nothing)
  | .look n =>
    match b.own[n]? with
    | none => (b, .nothing)
    | some d => (b, .items d)
  | .put n k v => (⟨b.objs, b.own.modify n (fun d => d.set k v)⟩, .nothing)
  | .del n k => (⟨b.objs, b.own.modify n (fun d => d.del k)⟩, .nothing)
  | .clear n => (⟨b.objs, b.own.modify n (fun _ => [])⟩, .nothing)

def Spec.KanaBook.run : Spec.KanaBook → List KanaStep → List KanaSeen
  | _, [] => []
  | b, s :: ss => (b.step s).2 :: Spec.KanaBook.run (b.step s).1 ss

structure KanaSim (w : KanaWorld) (b : Spec.KanaBook) : Prop where
  count : w.objs.length = b.objs
  objs : ∀ o ∈ w.objs, o.table < w.dicts.length ∧ o.table ∉ w.held ∧ w.view o = kanaTable
  nodup : w.held.Nodup
  len : w.held.length = b.own.length
  held : ∀ (n r : Nat), w.held[n]? = some r → r < w.dicts.length ∧ b.own[n]? = some (w.dicts.getD r [])

theorem kanaSim_change {w : KanaWorld} {b : Spec.KanaBook} (s : KanaSim w b) (n : Nat) (f : Dict Str Str → Dict Str Str) :
    KanaSim (w.change n f) ⟨b.objs, b.own.modify n f⟩ := by
  unfold KanaWorld.change
  cases hn : w.held[n]? with
  | none =>
    have hlen : b.own.length ≤ n := by rw [← s.len]; exact List.getElem?_eq_none_iff.1 hn
    have : b.own.modify n f = b.own := List.modify_eq_self hlen
    rw [this]; exact s
  | some r =>
    obtain ⟨hr, hown⟩ := s.held n r hn
    refine ⟨s.count, fun o ho => ?_, s.nodup, by simpa using s.len, fun m q hm => ?_⟩
    · obtain ⟨h1, h2, h3⟩ := s.objs o ho
      have hne : r ≠ o.table := fun e => h2 (e ▸ List.mem_of_getElem? hn)
      refine ⟨by simpa using h1, h2, ?_⟩
      rw [← h3]
      simp [KanaWorld.view, List.getD, hne]
    · obtain ⟨h1, h2⟩ := s.held m q hm
      refine ⟨by simpa using h1, ?_⟩
      by_cases e : n = m
      · subst e
        rw [hn] at hm
        cases hm
        simp [hown, List.getD, hr]
      · have hne : r ≠ q := fun e' => e (by
          subst e'
          exact (List.getElem?_inj (List.getElem?_eq_some_iff.1 hn).1 s.nodup).1 (hn.trans hm.symm))
        simp [h2, e, hne, List.getD]

theorem kanaSim_step {w : KanaWorld} {b : Spec.KanaBook} (s : KanaSim w b) (x : KanaStep) :
    (w.step x).2 = (b.step x).2 ∧ KanaSim (w.step x).1 (b.step x).1 := by
  have hobj : ∀ i, (w.objs[i]? = none ↔ ¬ i < b.objs) := by
    intro i; rw [List.getElem?_eq_none_iff, s.count]; omega
  have hkeep : ∀ {r : Nat} (d : Dict Str Str), r < w.dicts.length → (w.dicts ++ [d]).getD r [] = w.dicts.getD r [] := by
    intro r d hr; simp [List.getD, List.getElem?_append_left hr]
  cases x with
  | new =>
    refine ⟨rfl, ?_⟩
    refine ⟨?_, fun o ho => ?_, s.nodup, s.len, fun n r hn => ?_⟩
    · simp [KanaWorld.step, KanaWorld.new, Spec.KanaBook.step, s.count]
    · rcases List.mem_append.1 ho with h | h
      · obtain ⟨h1, h2, h3⟩ := s.objs o h
        refine ⟨by simp [KanaWorld.step, KanaWorld.new]; omega, h2, ?_⟩
        rw [← h3]
        simp only [KanaWorld.view, KanaWorld.step, KanaWorld.new]
        rw [hkeep _ h1]
      · obtain rfl := List.mem_singleton.1 h
        refine ⟨by simp [KanaWorld.step, KanaWorld.new], fun hm => ?_, by simp [KanaWorld.view, KanaWorld.step, KanaWorld.new, List.getD]⟩
        obtain ⟨n, hn⟩ := List.getElem?_of_mem hm
        exact absurd (s.held n _ hn).1 (by simp)
    · obtain ⟨h1, h2⟩ := s.held n r hn
      refine ⟨by simp [KanaWorld.step, KanaWorld.new]; omega, ?_⟩
      simp only [KanaWorld.step, KanaWorld.new]
      rw [hkeep _ h1]; exact h2
  | getTable i =>
    cases ho : w.objs[i]? with
    | none =>
      have := (hobj i).1 ho
      simp only [KanaWorld.step, Spec.KanaBook.step, ho, if_neg this]
      exact ⟨trivial, s⟩
    | some o =>
      have hi : i < b.objs := by
        rcases Nat.lt_or_ge i b.objs with h | h
        · exact h
        · rw [(hobj i).2 (by omega)] at ho; cases ho
      obtain ⟨g1, _, g3⟩ := s.objs o (List.mem_of_getElem? ho)
      simp only [KanaWorld.step, Spec.KanaBook.step, ho, if_pos hi, KanaWorld.getTable, deepCopyTable]
      have hfresh : ∀ r ∈ w.held, r < w.dicts.length := fun r hr => by
        obtain ⟨n, hn⟩ := List.getElem?_of_mem hr
        exact (s.held n r hn).1
      refine ⟨trivial, s.count, fun o' ho' => ?_, ?_, by simp [s.len], fun n r hn => ?_⟩
      · obtain ⟨h1, h2, h3⟩ := s.objs o' ho'
        refine ⟨by simp; omega, fun hm => ?_, ?_⟩
        · rcases List.mem_append.1 hm with h | h
          · exact h2 h
          · have := List.mem_singleton.1 h; omega
        · rw [← h3]
          simp only [KanaWorld.view]
          rw [hkeep _ h1]
      · rw [List.nodup_append]
        refine ⟨s.nodup, by simp, fun a ha c hc => ?_⟩
        have := hfresh a ha
        have := List.mem_singleton.1 hc
        omega
      · rcases Nat.lt_or_ge n w.held.length with h | h
        · rw [List.getElem?_append_left h] at hn
          obtain ⟨h1, h2⟩ := s.held n r hn
          refine ⟨by simp; omega, ?_⟩
          rw [List.getElem?_append_left (by rw [← s.len]; exact h)]
          simp only [hkeep _ h1, h2]
        · rw [List.getElem?_append_right h] at hn
          have hn0 : n - w.held.length = 0 := by
            rcases Nat.eq_zero_or_pos (n - w.held.length) with h' | h'
            · exact h'
            · rw [List.getElem?_eq_none (by simp; omega)] at hn; cases hn
          rw [hn0] at hn
          obtain rfl : w.dicts.length = r := by simpa using hn
          refine ⟨by simp, ?_⟩
          rw [List.getElem?_append_right (by rw [← s.len]; exact h), ← s.len, hn0]
          have : w.dicts.getD o.table [] = kanaRows := by
            have := congrArg KanaTable.table g3
            exact this
          simp [List.getD] at this ⊢
          exact this.symm
  | ask i q =>
    cases ho : w.objs[i]? with
    | none =>
      have := (hobj i).1 ho
      simp only [KanaWorld.step, Spec.KanaBook.step, ho, if_neg this]
      exact ⟨trivial, s⟩
    | some o =>
      have hi : i < b.objs := by
        rcases Nat.lt_or_ge i b.objs with h | h
        · exact h
        · rw [(hobj i).2 (by omega)] at ho; cases ho
      obtain ⟨_, _, g3⟩ := s.objs o (List.mem_of_getElem? ho)
      simp only [KanaWorld.step, Spec.KanaBook.step, ho, if_pos hi, g3]
      exact ⟨trivial, s⟩
  | look n =>
    cases hn : w.held[n]? with
    | none =>
      have : b.own[n]? = none := by
        rw [List.getElem?_eq_none_iff, ← s.len]; exact List.getElem?_eq_none_iff.1 hn
      simp only [KanaWorld.step, Spec.KanaBook.step, hn, this]
      exact ⟨trivial, s⟩
    | some r =>
      simp only [KanaWorld.step, Spec.KanaBook.step, hn, (s.held n r hn).2]
      exact ⟨trivial, s⟩
  | put n k v => exact ⟨rfl, kanaSim_change s n _⟩
  | del n k => exact ⟨rfl, kanaSim_change s n _⟩
  | clear n => exact ⟨rfl, kanaSim_change s n _⟩

/-- C129: whatever a program does with the tables that it got, it sees what it would see if every `KanaTable` were constant and every table a value of its
own. -/
theorem C129_tables_independent (p : List KanaStep) : KanaWorld.run ⟨[], [], []⟩ p = Spec.KanaBook.run ⟨0, []⟩ p := by
  have key : ∀ (p : List KanaStep) (w : KanaWorld) (b : Spec.KanaBook), KanaSim w b → w.run p = b.run p := by
    intro p
    induction p with
    | nil => intros; rfl
    | cons x p ih =>
      intro w b s
      obtain ⟨h1, h2⟩ := kanaSim_step s x
      rw [KanaWorld.run, Spec.KanaBook.run, h1, ih _ _ h2]
  exact key p _ _ ⟨rfl, by simp, by simp, rfl, by simp⟩

/-- C129: in particular, a question to a `KanaTable` is answered as by a new one, whatever was done before. -/
theorem C129_answers (p : List KanaStep) (i : Nat) (q : KanaQuery) (hi : i < p.countP (fun s => match s with | .new => true | _ => false)) :
    (KanaWorld.run ⟨[], [], []⟩ (p ++ [.ask i q])).getLast? = some (.answer (kanaTable.answer q)) := by
  rw [C129_tables_independent]
  have key : ∀ (p : List KanaStep) (b : Spec.KanaBook), i < b.objs + p.countP (fun s => match s with | .new => true | _ => false) →
      (b.run (p ++ [.ask i q])).getLast? = some (.answer (kanaTable.answer q)) := by
    intro p
    induction p with
    | nil => intro b hb; simp [Spec.KanaBook.run, Spec.KanaBook.step] at hb ⊢; simp [hb]
    | cons x p ih =>
      intro b hb
      rw [List.cons_append, Spec.KanaBook.run, List.getLast?_cons]
      have : (Spec.KanaBook.run (b.step x).1 (p ++ [.ask i q])).getLast? = some (.answer (kanaTable.answer q)) := by
        apply ih
        cases x <;> simp [Spec.KanaBook.step] at hb ⊢ <;> (try split) <;> (try simp) <;> omega
      rw [this]; rfl
  exact key p ⟨0, []⟩ (by simpa using hi)

/-! Two tables of one object: one is changed and emptied, the other and the object are as before. -/

example : KanaWorld.run ⟨[], [], []⟩
    [.new, .getTable 0, .getTable 0, .put 0 u!"か" u!"x", .del 0 u!"あ", .look 1, .ask 0 (.fromCoords u!"か" u!"い"), .clear 0, .look 0] =
    [.nothing, .nothing, .nothing, .nothing, .nothing, .items kanaRows, .answer (.ok [some u!"き"]), .nothing, .items []] := by
  rw [C129_tables_independent]; decide +kernel

end Cjk
