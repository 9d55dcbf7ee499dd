import Verif.Props.TatoebaSentences
/-!
# C162: the basic and the detailed export of the same sentences
-/

namespace Cjk
open Py

/-- The basic export of the rows of a detailed one: the first three columns. -/
def Spec.basicRows (rows : List (List Str)) : List (List Str) := rows.map (List.take 3)

section
variable {D : Type} {strptime : Str → Except PyErr D} {languages : Option (List Str)}

theorem rowLang_take (r : List Str) : Spec.rowLang (r.take 3) = Spec.rowLang r := by
  match r with
  | [] => rfl
  | [_] => rfl
  | [_, _] => rfl
  | _ :: _ :: _ :: _ => rfl

theorem rowId_take (r : List Str) : Spec.rowId (r.take 3) = Spec.rowId r := by
  match r with
  | [] => rfl
  | [_] => rfl
  | [_, _] => rfl
  | _ :: _ :: _ :: _ => rfl

/-- One row: what the detailed file enters, the basic file enters too. -/
theorem sentRow_basic {a a' : SentData D} {r : List Str} (h : sentRow strptime languages a r = .ok a') :
    sentRow strptime languages ⟨a.lang, a.sent, none⟩ (r.take 3) = .ok ⟨a'.lang, a'.sent, none⟩ := by
  unfold sentRow at h ⊢
  rw [List.take_take, Nat.min_self]
  split at h
  · rename_i x y z e
    rw [e]
    simp only at h ⊢
    by_cases hl : langOk languages y = false
    · rw [if_pos hl] at h ⊢
      cases h; rfl
    · rw [if_neg hl] at h ⊢
      cases hi : pyInt 10 x with
      | error e => rw [hi] at h; cases h
      | ok i =>
        rw [hi] at h
        simp only [sentDetails] at h ⊢
        cases hf : a.info with
        | none => rw [hf] at h; simp only [Except.ok.injEq] at h; subst h; rfl
        | some f =>
          rw [hf] at h
          simp only at h
          cases hd : parseDetails strptime r with
          | error e => rw [hd] at h; cases h
          | ok d => rw [hd] at h; simp only [Except.ok.injEq] at h; subst h; rfl
  · cases h

theorem sentRows_basic : ∀ {rows : List (List Str)} {a a' : SentData D}, sentRows strptime languages a rows = .ok a' →
    sentRows strptime languages ⟨a.lang, a.sent, none⟩ (Spec.basicRows rows) = .ok ⟨a'.lang, a'.sent, none⟩
  | [], a, a', h => by cases h; rfl
  | r :: rows, a, a', h => by
    unfold sentRows at h
    cases h1 : sentRow strptime languages a r with
    | error e => rw [h1] at h; cases h
    | ok a1 =>
      rw [h1] at h
      simp only [Spec.basicRows, List.map_cons, sentRows, sentRow_basic h1]
      exact sentRows_basic h

/-- C162: if a detailed file loads, the basic file with the same sentences loads, with the same sentences, the same languages and the same ids in the same order;
it has no details. -/
theorem C162_basic {rows : List (List Str)} {a : SentData D} (h6 : (rows.headD []).length = 6) (h : sentLoad strptime languages (rows, none) = .ok a) :
    ∃ b, sentLoad strptime languages (Spec.basicRows rows, none) = .ok b ∧
      (∀ i, b.sentence i = a.sentence i ∧ b.language i = a.language i ∧ b.details i = .error .missingDataError) ∧ b.ids = a.ids := by
  obtain ⟨_, first, rest, h2, _, h4⟩ := sentLoad_eq_ok h
  simp only at h2
  subst h2
  have h5 := sentRows_basic h4
  have hl : (first.take 3).length = 3 := by
    simp only [List.headD_cons] at h6
    rw [List.length_take]
    omega
  refine ⟨⟨a.lang, a.sent, none⟩, ?_, fun i => ⟨rfl, rfl, rfl⟩, rfl⟩
  simp only [Spec.basicRows, List.map_cons] at h5
  simp only [Spec.basicRows, List.map_cons, sentLoad, hl, true_or, if_true]
  simp only [show ¬ (3 = 6) by omega, if_false, h5]

/-- C162: a detailed file loads exactly if the basic file with the same sentences does and every row in a wanted language has the three further columns, with dates that can be read. -/
theorem C162_load_iff {rows : List (List Str)} (h6 : (rows.headD []).length = 6) :
    (∃ a, sentLoad strptime languages (rows, none) = .ok a) ↔
      (∃ b, sentLoad strptime languages (Spec.basicRows rows, none) = .ok b) ∧
        ∀ r ∈ Spec.accepted languages rows, 6 ≤ r.length ∧ Spec.DateOk strptime (r.getD 4 []) ∧ Spec.DateOk strptime (r.getD 5 []) := by
  cases rows with
  | nil => simp at h6
  | cons first rest =>
    simp only [List.headD_cons] at h6
    have hl : (first.take 3).length = 3 := by rw [List.length_take]; omega
    have hacc : ∀ r, r ∈ Spec.accepted languages (first :: rest) ↔ r ∈ first :: rest ∧ r ∈ Spec.accepted languages [r] := by
      intro r
      cases languages <;> simp [Spec.accepted]
    have htake : ∀ r : List Str, r.take 3 ∈ Spec.accepted languages [r.take 3] ↔ r ∈ Spec.accepted languages [r] := by
      intro r
      rw [mem_accepted_single, mem_accepted_single, rowLang_take]
    have hok : ∀ r : List Str, Spec.RowOk strptime languages true r ↔ Spec.RowOk strptime languages false (r.take 3) ∧
        (r ∈ Spec.accepted languages [r] → 6 ≤ r.length ∧ Spec.DateOk strptime (r.getD 4 []) ∧ Spec.DateOk strptime (r.getD 5 [])) := by
      intro r
      have h3 : 3 ≤ (r.take 3).length ↔ 3 ≤ r.length := by rw [List.length_take]; omega
      simp only [Spec.RowOk, h3, htake, rowId_take, forall_const, Bool.false_eq_true, false_imp_iff, and_true]
      constructor
      · rintro ⟨p, q⟩
        exact ⟨⟨p, fun h => (q h).1⟩, fun h => (q h).2⟩
      · rintro ⟨⟨p, q⟩, s⟩
        exact ⟨p, fun h => ⟨q h, s h⟩⟩
    rw [C54_load_iff, C54_load_iff]
    simp only [Spec.basicRows, List.map_cons, List.cons.injEq, true_and]
    constructor
    · rintro ⟨f, s, ⟨rfl, rfl⟩, _, h⟩
      simp only [h6, decide_true] at h
      refine ⟨⟨_, _, ⟨rfl, rfl⟩, Or.inl hl, ?_⟩, fun r hr => ((hok r).1 (h r ((hacc r).1 hr).1)).2 ((hacc r).1 hr).2⟩
      rw [hl]
      intro r hr
      rw [← List.map_cons, List.mem_map] at hr
      obtain ⟨x, hx, rfl⟩ := hr
      exact ((hok x).1 (h x hx)).1
    · rintro ⟨⟨f, s, ⟨rfl, rfl⟩, _, h⟩, hd⟩
      refine ⟨_, _, ⟨rfl, rfl⟩, Or.inr h6, ?_⟩
      rw [hl] at h
      simp only [h6, decide_true]
      intro r hr
      exact (hok r).2 ⟨h _ (by rw [← List.map_cons]; exact List.mem_map_of_mem hr), fun ha => hd r ((hacc r).2 ⟨hr, ha⟩)⟩

end

/-- A detailed file with a language filter, and the basic file of the same sentences. -/
example : (demoRows.1.headD []).length = 6 ∧ (∃ a, sentLoad demoStrptime (some [u!"eng"]) (demoRows.1, none) = .ok a) ∧
    ∃ b, sentLoad demoStrptime (some [u!"eng"]) (Spec.basicRows demoRows.1, none) = .ok b ∧ b.sentence 1 = .ok u!"Hello" ∧
      b.details 1 = .error .missingDataError := by
  refine ⟨by decide +kernel, ⟨_, rfl⟩, _, rfl, by decide +kernel, by decide +kernel⟩

end Cjk
