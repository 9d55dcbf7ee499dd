import Verif.Props.Handles
import Verif.Props.PinyinTones
import Verif.Props.Tanaka
import Verif.Props.TatoebaSentences
/-!
# C55, C60, C67, C84: exactly when the claims hold
-/

namespace Cjk
open Py

/-! ### C60 -/

/-- C60: writing a word with well-formed fields and reading it again gives it back exactly if its sense number is not 0. -/
theorem C60_roundtrip_iff (w : Tanaka) (h : Spec.WordOk w) : Tanaka.fromText w.toText = .ok w ↔ w.sense ≠ some 0 := by
  rw [C60_write_read w h]
  constructor
  · intro he h0
    rw [if_pos h0] at he
    have := congrArg Tanaka.sense (Except.ok.inj he)
    rw [h0] at this
    cases this
  · intro h0
    rw [if_neg h0]

/-! ### C67 -/

/-- C67: the tone can be read off the result exactly if it leaves no mark (0 and 5) or the syllable has a vowel behind its first character. -/
theorem C67_recover_iff (c : Nat) (s : Str) (hm : ∀ x ∈ c :: s, Spec.markTone x = none) (t : Int) (h0 : 0 ≤ t) (h5 : t ≤ 5) :
    (∃ r, applyTone (c :: s) t = .ok r ∧ Spec.readTone r = if t = 0 ∨ t = 5 then none else some t) ↔
      t = 0 ∨ t = 5 ∨ ∃ v ∈ s, Spec.IsVowel v := by
  constructor
  · rintro ⟨r, hr, ht⟩
    by_cases h : t = 0 ∨ t = 5
    · rcases h with h | h
      · exact Or.inl h
      · exact Or.inr (Or.inl h)
    · right; right
      rcases first_vowel s with hn | ⟨a, v, b, rfl, _, hv⟩
      · rw [(C67_exact c s t h0 h5).1 (Or.inr (Or.inr hn))] at hr
        cases hr
        rw [if_neg h] at ht
        have : Spec.readTone (c :: s) = none := List.findSome?_eq_none_iff.2 hm
        rw [this] at ht
        cases ht
      · exact ⟨v, by simp, hv⟩
  · rintro (h | h | h)
    · refine ⟨_, (C67_exact c s t h0 h5).1 (Or.inl h), ?_⟩
      rw [if_pos (Or.inl h)]
      exact List.findSome?_eq_none_iff.2 hm
    · refine ⟨_, (C67_exact c s t h0 h5).1 (Or.inr (Or.inl h)), ?_⟩
      rw [if_pos (Or.inr h)]
      exact List.findSome?_eq_none_iff.2 hm
    · exact C67_recover_partial c s h hm t h0 h5

/-! ### C55 -/

theorem find?_filter_ne {α : Type} [DecidableEq α] (l : List α) (p : α → Bool) (a : α) (h : p a = false) :
    (l.filter (· ≠ a)).find? p = l.find? p := by
  induction l with
  | nil => rfl
  | cons x l ih =>
    by_cases hx : x = a
    · subst hx
      rw [List.filter_cons, if_neg (by simp), ih, List.find?_cons, h]
    · rw [List.filter_cons, if_pos (by simpa using hx), List.find?_cons, List.find?_cons, ih]

theorem find?_dedup {α : Type} [DecidableEq α] (l : List α) (p : α → Bool) : (dedup l).find? p = l.find? p := by
  induction l with
  | nil => rfl
  | cons a l ih =>
    rw [dedup, List.find?_cons, List.find?_cons]
    cases h : p a with
    | true => rfl
    | false => simp only; rw [find?_filter_ne _ _ _ h, ih]

theorem idxOf_cons_of_ne {α : Type} [BEq α] [LawfulBEq α] {a x : α} (l : List α) (h : a ≠ x) : (a :: l).idxOf x = l.idxOf x + 1 := by
  rw [List.idxOf_cons]
  have : (a == x) = false := by simpa using h
  rw [this]; rfl

theorem find?_idxOf {α : Type} [BEq α] [LawfulBEq α] (l : List α) (p : α → Bool) (x : α) :
    l.find? p = some x ↔ x ∈ l ∧ p x = true ∧ ∀ y ∈ l, p y = true → l.idxOf x ≤ l.idxOf y := by
  induction l with
  | nil => simp
  | cons a l ih =>
    rw [List.find?_cons]
    cases h : p a with
    | true =>
      simp only [Option.some.injEq]
      constructor
      · rintro rfl
        exact ⟨by simp, h, fun y _ _ => by simp⟩
      · rintro ⟨_, _, h3⟩
        have := h3 a (by simp) h
        rw [List.idxOf_cons_self, Nat.le_zero] at this
        by_cases hx : x = a
        · exact hx.symm
        · exfalso
          rw [idxOf_cons_of_ne _ (fun e => hx e.symm)] at this
          cases this
    | false =>
      simp only
      rw [ih]
      constructor
      · rintro ⟨h1, h2, h3⟩
        refine ⟨by simp [h1], h2, ?_⟩
        intro y hy hp
        have hxa : a ≠ x := by rintro rfl; rw [h] at h2; cases h2
        have hya : a ≠ y := by rintro rfl; rw [h] at hp; cases hp
        rw [idxOf_cons_of_ne _ hxa, idxOf_cons_of_ne _ hya]
        rcases List.mem_cons.1 hy with rfl | hy
        · exact absurd rfl hya
        · exact Nat.succ_le_succ (h3 y hy hp)
      · rintro ⟨h1, h2, h3⟩
        have hxa : a ≠ x := by rintro rfl; rw [h] at h2; cases h2
        refine ⟨by rcases List.mem_cons.1 h1 with rfl | h1; exact absurd rfl hxa; exact h1, h2, ?_⟩
        intro y hy hp
        have hya : a ≠ y := by rintro rfl; rw [h] at hp; cases hp
        have := h3 y (by simp [hy]) hp
        rw [idxOf_cons_of_ne _ hxa, idxOf_cons_of_ne _ hya] at this
        exact Nat.le_of_succ_le_succ this

/-- C55: `language(i)` is the language of the row that provided `sentence(i)`, the last one with id `i`, exactly if no other row with this
id has a language that turned up earlier in the file. -/
theorem C55_language_iff {D : Type} {strptime : Str → Except PyErr D} {languages : Option (List Str)} {rows : Rows} {a : SentData D}
    (h : sentLoad strptime languages rows = .ok a) (i : Int) (r : List Str)
    (hl : Spec.lastRow (Spec.accepted languages rows.1) i = some r) :
    a.language i = .ok (Spec.rowLang r) ↔
      ∀ r' ∈ Spec.accepted languages rows.1, Spec.rowId r' = .ok i →
        ((Spec.accepted languages rows.1).map Spec.rowLang).idxOf (Spec.rowLang r) ≤
        ((Spec.accepted languages rows.1).map Spec.rowLang).idxOf (Spec.rowLang r') := by
  obtain ⟨hr, hi⟩ := lastRow_mem hl
  rw [C55_language_exact h i, find?_dedup]
  have key := find?_idxOf ((Spec.accepted languages rows.1).map Spec.rowLang) (fun l =>
    (Spec.accepted languages rows.1).any (fun r => decide (Spec.rowLang r = l ∧ Spec.rowId r = .ok i))) (Spec.rowLang r)
  constructor
  · intro he
    have hf : ((Spec.accepted languages rows.1).map Spec.rowLang).find? (fun l =>
        (Spec.accepted languages rows.1).any (fun r => decide (Spec.rowLang r = l ∧ Spec.rowId r = .ok i))) = some (Spec.rowLang r) := by
      split at he
      · rename_i l hf
        rw [hf, Except.ok.inj he]
      · cases he
    intro r' hr' hi'
    refine (key.1 hf).2.2 _ (List.mem_map_of_mem hr') ?_
    simp only [List.any_eq_true, decide_eq_true_eq]
    exact ⟨r', hr', rfl, hi'⟩
  · intro hle
    rw [key.2 ⟨List.mem_map_of_mem hr, ?_, ?_⟩]
    · simp only [List.any_eq_true, decide_eq_true_eq]
      exact ⟨r, hr, rfl, hi⟩
    · intro y _ hp
      simp only [List.any_eq_true, decide_eq_true_eq] at hp
      obtain ⟨r', hr', rfl, hi'⟩ := hp
      exact hle r' hr' hi'

/-! ### C84 -/

/-- C84: a file that can be opened is left behind open exactly if it has rows and one of them is rejected. -/
theorem C84_iff {D : Type} (lim : Nat) (os : OS) (strptime : Str → Except PyErr D) (languages : Option (List Str))
    (edict : Option (Dict Str (List Str))) (subset : Option (List Int)) (f : Str) (hf : f ≠ u!"-") (w : World)
    (ho : sopenH os f u!"r" w = (.ok w.length, w ++ [true])) :
    (Spec.Tidy w (sentencesH lim os strptime languages (.path f) w).2 ↔
      ((rowsOf lim os w.length).1 = [] ∨ ∃ a, sentLoad strptime languages ((rowsOf lim os w.length).1, none) = .ok a)) ∧
    (Spec.Tidy w (indicesH lim os edict subset (.path f) w).2 ↔
      ((rowsOf lim os w.length).1 = [] ∨ ∃ a, indexLoad edict subset ((rowsOf lim os w.length).1, none) = .ok a)) := by
  have hnot : ¬ Spec.Tidy w (w ++ [true]) := fun ht => ht.2 w.length (Nat.le_refl _) (by simp)
  constructor
  · refine ⟨fun ht => ?_, fun h => (C84_clean_partial lim os strptime languages edict subset (.path f) hf w).1 (fun _ _ => h)⟩
    by_cases hne : (rowsOf lim os w.length).1 = []
    · exact Or.inl hne
    · cases hl : sentLoad strptime languages ((rowsOf lim os w.length).1, none) with
      | ok a => exact Or.inr ⟨a, rfl⟩
      | error e =>
        rw [(C84_left_open lim os strptime languages edict subset f w ho e hne).1 hl] at ht
        exact absurd ht hnot
  · refine ⟨fun ht => ?_, fun h => (C84_clean_partial lim os strptime languages edict subset (.path f) hf w).2 (fun _ _ => h)⟩
    by_cases hne : (rowsOf lim os w.length).1 = []
    · exact Or.inl hne
    · cases hl : indexLoad edict subset ((rowsOf lim os w.length).1, none) with
      | ok a => exact Or.inr ⟨a, rfl⟩
      | error e =>
        rw [(C84_left_open lim os strptime languages edict subset f w ho e hne).2 hl] at ht
        exact absurd ht hnot

/-- A file that can be opened. -/
example : ∃ (os : OS) (w : World), sopenH os u!"sentences.csv" u!"r" w = (.ok w.length, w ++ [true]) ∧ (rowsOf 100 os w.length).1 ≠ [] :=
  ⟨⟨fun _ => none, fun _ => ([[0x31, 0x09, 0x78, 0x0a]], none)⟩, [true, true], rfl, by decide⟩

/-- A file in which an id has two languages. -/
example : ∃ a : SentData Unit, sentLoad (fun _ => .ok ()) none
    ([[u!"1", u!"eng", u!"Hi"], [u!"1", u!"fra", u!"Salut"], [u!"1", u!"eng", u!"Hello"]], none) = .ok a ∧
    Spec.lastRow (Spec.accepted none [[u!"1", u!"eng", u!"Hi"], [u!"1", u!"fra", u!"Salut"], [u!"1", u!"eng", u!"Hello"]]) 1 =
      some [u!"1", u!"eng", u!"Hello"] ∧ a.language 1 = .ok u!"eng" := by
  refine ⟨_, rfl, ?_, ?_⟩ <;> decide +kernel

end Cjk
