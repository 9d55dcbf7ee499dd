import Verif.Model.FilterArgs
import Verif.Props.FilterLoad
/-!
# C132: a filter may be given by any collection
-/

namespace Cjk
open Py

/-- The decisions of the filter on one language after the other. -/
def LangArg.decisions : LangArg → List Str → List Bool
  | _, [] => []
  | f, lang :: rest => (f.test lang).1 :: LangArg.decisions (f.test lang).2 rest

theorem sentLoadArg_agree {D : Type} (strptime : Str → Except PyErr D) (f : LangArg) (langs : Option (List Str)) (rows : List (List Str)) (e : Option PyErr)
    (h3 : ∀ r ∈ rows, 3 ≤ r.length) (hd : f.decisions (rows.map Spec.rowLang) = (rows.map Spec.rowLang).map (langOk langs)) :
    (sentLoadArg strptime f (rows, e)).1 = sentLoad strptime langs (rows, e) := by
  have key : ∀ (rows : List (List Str)) (f : LangArg) (a : SentData D), (∀ r ∈ rows, 3 ≤ r.length) →
      f.decisions (rows.map Spec.rowLang) = (rows.map Spec.rowLang).map (langOk langs) →
      (sentRowsArg strptime f a rows).1 = sentRows strptime langs a rows := by
    intro rows
    induction rows with
    | nil => intros; rfl
    | cons r rows ih =>
      intro f a h3 hd
      obtain ⟨x, y, z, e1, e2⟩ := take_three (h3 r (List.mem_cons_self ..))
      simp only [List.map_cons, LangArg.decisions, e2, List.cons.injEq] at hd
      have hrow : sentRowArg strptime f a r = (sentRow strptime langs a r, (f.test y).2) := by
        simp only [sentRowArg, sentRow, e1, hd.1]
        cases h : langOk langs y
        · simp
        · simp [langOk]
      rw [sentRowsArg, hrow, sentRows]
      cases sentRow strptime langs a r with
      | error e => rfl
      | ok a' => exact ih _ a' (fun r hr => h3 r (List.mem_cons_of_mem _ hr)) hd.2
  cases rows with
  | nil => rfl
  | cons first rest =>
    unfold sentLoadArg sentLoad
    by_cases h : first.length = 3 ∨ first.length = 6
    · simp only [if_pos h]
      rw [← key _ f _ h3 hd]
      cases sentRowsArg strptime f _ (first :: rest) with
      | mk x f' =>
        cases x with
        | error e => rfl
        | ok a => cases e <;> rfl
    · simp only [if_neg h]

/-- C132: with nothing given, or with a list, tuple, set or dictionary, the reader keeps the rows whose language is a member, and the collection is as before;
it may be used for any number of readers. -/
theorem C132_collection {D : Type} (strptime : Str → Except PyErr D) (l : List Str) (rows : Rows) :
    sentLoadArg strptime .absent rows = (sentLoad strptime none rows, .absent) ∧
    sentLoadArg strptime (.items l) rows = (sentLoad strptime (some l) rows, .items l) := by
  have key : ∀ (f : LangArg) (langs : Option (List Str)), (∀ x, f.test x = (langOk langs x, f)) → ∀ (rows : List (List Str)) (a : SentData D),
      sentRowsArg strptime f a rows = (sentRows strptime langs a rows, f) := by
    intro f langs hf rows
    induction rows with
    | nil => intro a; rfl
    | cons r rows ih =>
      intro a
      have hrow : sentRowArg strptime f a r = (sentRow strptime langs a r, f) := by
        unfold sentRowArg sentRow
        generalize hr : r.take 3 = t
        match t, hr with
        | [x, y, z], hr =>
          simp only [hf]
          cases h : langOk langs y
          · simp
          · simp [langOk]
        | [], hr | [_], hr | [_, _], hr | _ :: _ :: _ :: _ :: _, hr => rfl
      rw [sentRowsArg, hrow, sentRows]
      cases sentRow strptime langs a r with
      | error e => rfl
      | ok a' => exact ih a'
  have load : ∀ (f : LangArg) (langs : Option (List Str)), (∀ x, f.test x = (langOk langs x, f)) → sentLoadArg strptime f rows = (sentLoad strptime langs rows, f) := by
    intro f langs hf
    obtain ⟨rs, e⟩ := rows
    unfold sentLoadArg sentLoad
    cases rs with
    | nil => rfl
    | cons first rest =>
      by_cases h3 : first.length = 3 ∨ first.length = 6
      · simp only [if_pos h3, key f langs hf]
        cases sentRows strptime langs _ (first :: rest) with
        | error e => rfl
        | ok a => cases e <;> rfl
      · simp only [if_neg h3]
  exact ⟨load _ _ (fun _ => rfl), load _ _ (fun _ => rfl)⟩

theorem isInfix_iff (p s : Str) : isInfix p s = true ↔ ∃ a b, s = a ++ p ++ b := by
  induction s with
  | nil =>
    simp only [isInfix]
    constructor
    · intro h
      have : p = [] := by cases p <;> simp_all
      exact ⟨[], [], by rw [this]; rfl⟩
    · rintro ⟨a, b, h⟩
      have : p = [] := by
        have := congrArg List.length h
        simp at this
        exact List.length_eq_zero_iff.1 (by omega)
      simp [this]
  | cons c t ih =>
    rw [isInfix, Bool.or_eq_true, ih, List.isPrefixOf_iff_prefix]
    constructor
    · rintro (⟨b, h⟩ | ⟨a, b, h⟩)
      · exact ⟨[], b, by simpa using h.symm⟩
      · exact ⟨c :: a, b, by simp [h]⟩
    · rintro ⟨a, b, h⟩
      cases a with
      | nil => exact Or.inl ⟨b, by simpa using h.symm⟩
      | cons x a =>
        simp only [List.cons_append, List.cons.injEq] at h
        exact Or.inr ⟨a, b, h.2⟩

/-- C132, refuted for texts: with a text, say a single language code, the reader keeps the rows whose language is a part of it. -/
theorem C132_text_exact {D : Type} (strptime : Str → Except PyErr D) (s : Str) (rows : List (List Str)) (e : Option PyErr) (h3 : ∀ r ∈ rows, 3 ≤ r.length)
    (ls : List Str) (hls : ∀ x ∈ rows.map Spec.rowLang, x ∈ ls ↔ ∃ a b, s = a ++ x ++ b) :
    (sentLoadArg strptime (.text s) (rows, e)).1 = sentLoad strptime (some ls) (rows, e) := by
  have hdec : ∀ langs : List Str, (LangArg.text s).decisions langs = langs.map (fun x => isInfix x s) := by
    intro langs
    induction langs with
    | nil => rfl
    | cons x langs ih => rw [LangArg.decisions, List.map_cons]; simp only [LangArg.test]; rw [ih]
  apply sentLoadArg_agree strptime _ _ rows e h3
  rw [hdec]
  apply List.map_congr_left
  intro x hx
  rw [Bool.eq_iff_iff, isInfix_iff, ← hls x hx]
  simp [langOk]

theorem decisions_nil (langs : List Str) : (LangArg.iterator []).decisions langs = langs.map (fun _ => false) := by
  induction langs with
  | nil => rfl
  | cons x langs ih => rw [LangArg.decisions, List.map_cons]; simp only [LangArg.test, List.dropWhile_nil]; rw [ih]

theorem dropWhile_found {x : Str} {l : List Str} (h : x ∈ l) : ∃ pre rest, l = pre ++ x :: rest ∧ x ∉ pre ∧ l.dropWhile (fun y => y ≠ x) = x :: rest := by
  induction l with
  | nil => cases h
  | cons y l ih =>
    by_cases e : y = x
    · subst e; exact ⟨[], l, rfl, by simp, by simp⟩
    · obtain ⟨pre, rest, h1, h2, h3⟩ := ih (by rcases List.mem_cons.1 h with h | h; exacts [absurd h.symm e, h])
      refine ⟨y :: pre, rest, by rw [h1]; rfl, ?_, ?_⟩
      · simp only [List.mem_cons, not_or]; exact ⟨fun e' => e e'.symm, h2⟩
      · rw [List.dropWhile_cons, if_pos (by simpa using e), h3]

theorem dropWhile_none {x : Str} {l : List Str} (h : x ∉ l) : l.dropWhile (fun y => y ≠ x) = [] := by
  induction l with
  | nil => rfl
  | cons y l ih =>
    simp only [List.mem_cons, not_or] at h
    rw [List.dropWhile_cons, if_pos (by simpa using fun e => h.1 e.symm), ih h.2]

/-- C132, the exact condition for iterators: the rows of a file are judged as by the list of the items exactly if the languages of the rows begin with some
items of the iterator in their order and all languages after that are not among the items. -/
theorem C132_iterator_iff (l langs : List Str) :
    (LangArg.iterator l).decisions langs = langs.map (fun x => decide (x ∈ l)) ↔ ∃ p q, langs = p ++ q ∧ p.Sublist l ∧ ∀ x ∈ q, x ∉ l := by
  -- `all` are the items at the beginning, `l` those that are left
  have key : ∀ (langs all l : List Str), (∀ x ∈ l, x ∈ all) →
      ((LangArg.iterator l).decisions langs = langs.map (fun x => decide (x ∈ all)) ↔ ∃ p q, langs = p ++ q ∧ p.Sublist l ∧ ∀ x ∈ q, x ∉ all) := by
    intro langs
    induction langs with
    | nil => intro all l _; exact ⟨fun _ => ⟨[], [], rfl, List.nil_sublist _, by simp⟩, fun _ => rfl⟩
    | cons x langs ih =>
      intro all l hsub
      rw [LangArg.decisions, List.map_cons]
      by_cases hx : x ∈ l
      · obtain ⟨pre, rest, h1, h2, h3⟩ := dropWhile_found hx
        have ht : (LangArg.iterator l).test x = (true, .iterator rest) := by simp only [LangArg.test, h3]
        rw [ht]
        have hall : decide (x ∈ all) = true := by simpa using hsub x hx
        rw [hall]
        simp only [List.cons.injEq, true_and]
        rw [ih all rest (fun y hy => hsub y (by rw [h1]; simp [hy]))]
        constructor
        · rintro ⟨p, q, e, hp, hq⟩
          refine ⟨x :: p, q, by rw [e]; rfl, ?_, hq⟩
          rw [h1]
          exact (List.Sublist.cons_cons x hp).trans (List.sublist_append_right pre _)
        · rintro ⟨p, q, e, hp, hq⟩
          cases p with
          | nil =>
            simp only [List.nil_append] at e
            exact absurd (hsub x hx) (hq x (by rw [← e]; simp))
          | cons y p =>
            simp only [List.cons_append, List.cons.injEq] at e
            obtain ⟨rfl, e⟩ := e
            refine ⟨p, q, e, ?_, hq⟩
            rw [h1] at hp
            obtain ⟨l1, l2, e1, s1, s2⟩ := List.sublist_append_iff.1 hp
            cases l1 with
            | nil =>
              simp only [List.nil_append] at e1
              rw [← e1] at s2
              exact (List.cons_sublist_cons.1 s2)
            | cons z l1 =>
              simp only [List.cons_append, List.cons.injEq] at e1
              exact absurd (s1.subset (by rw [e1.1]; simp)) h2
      · have hd : l.dropWhile (fun y => y ≠ x) = [] := by
          exact dropWhile_none hx
        have ht : (LangArg.iterator l).test x = (false, .iterator []) := by simp only [LangArg.test, hd]
        rw [ht, decisions_nil]
        simp only [List.cons.injEq]
        constructor
        · rintro ⟨h1, h2⟩
          refine ⟨[], x :: langs, rfl, List.nil_sublist _, ?_⟩
          intro y hy
          rcases List.mem_cons.1 hy with rfl | hy
          · simpa using h1
          · have := List.map_inj_left.1 h2 y hy
            simpa using this
        · rintro ⟨p, q, e, hp, hq⟩
          cases p with
          | nil =>
            simp only [List.nil_append] at e
            subst e
            refine ⟨by simpa using hq x (by simp), ?_⟩
            apply List.map_congr_left
            intro y hy
            simpa using hq y (by simp [hy])
          | cons y p =>
            simp only [List.cons_append, List.cons.injEq] at e
            exact absurd (hp.subset (by rw [e.1]; simp)) hx
  exact key langs l l (fun _ h => h)

/-- C132, iterators: under this condition the reader has loaded the same as with the list. -/
theorem C132_iterator_partial {D : Type} (strptime : Str → Except PyErr D) (l : List Str) (rows : List (List Str)) (e : Option PyErr)
    (h3 : ∀ r ∈ rows, 3 ≤ r.length) (p q : List Str) (hpq : rows.map Spec.rowLang = p ++ q) (hp : p.Sublist l) (hq : ∀ x ∈ q, x ∉ l) :
    (sentLoadArg strptime (.iterator l) (rows, e)).1 = sentLoad strptime (some l) (rows, e) :=
  sentLoadArg_agree strptime _ _ rows e h3 ((C132_iterator_iff l _).2 ⟨p, q, hpq, hp, hq⟩)

/-- C132, refuted for iterators: after a row in another language no row is kept, though its language was given. -/
theorem C132_iterator_refuted {D : Type} (strptime : Str → Except PyErr D) (lang other : Str) (h : other ≠ lang) :
    ∃ a b : SentData D, (sentLoadArg strptime (.iterator [lang]) ([[u!"1", other, u!"x"], [u!"2", lang, u!"y"]], none)).1 = .ok a ∧ a.ids = [] ∧
      (sentLoadArg strptime (.items [lang]) ([[u!"1", other, u!"x"], [u!"2", lang, u!"y"]], none)).1 = .ok b ∧ b.ids = [2] := by
  have hi : pyInt 10 u!"2" = .ok 2 := by decide +kernel
  refine ⟨⟨[], [], none⟩, ⟨[(lang, [2])], [(2, u!"y")], none⟩, ?_, rfl, ?_, rfl⟩
  · simp [sentLoadArg, sentRowsArg, sentRowArg, LangArg.test, Ne.symm h]
  · simp [sentLoadArg, sentRowsArg, sentRowArg, LangArg.test, h, sentRow, langOk, hi, sentDetails, addLang, Dict.set, Dict.get?]

/-- C132: what the program does with its collections afterwards does not matter for the ids of the links and index readers, which go on looking at the members
they were given; a sentence reader looks at the collection as it is when a file is loaded (refuted for it). -/
theorem C132_later_changes {α : Type} (colls : List (List α)) (c : Nat) (hc : c < colls.length) (changes : List (Nat × List α))
    (hch : ∀ x ∈ changes, x.1 < colls.length) :
    (changes.foldl (fun k x => k.change x.1 x.2) (keepSet colls c)).current = colls.getD c [] ∧
    (changes.foldl (fun k x => k.change x.1 x.2) (keepGiven colls c)).current =
      (((changes.filter (fun x => x.1 = c)).getLast?).map Prod.snd).getD (colls.getD c []) := by
  constructor
  · have key : ∀ (changes : List (Nat × List α)) (k : KeptArg α), (∀ x ∈ changes, x.1 ≠ k.kept) →
        (changes.foldl (fun k x => k.change x.1 x.2) k).current = k.current := by
      intro changes
      induction changes with
      | nil => intros; rfl
      | cons x changes ih =>
        intro k hk
        rw [List.foldl_cons, ih (k.change x.1 x.2) (fun y hy => hk y (by simp [hy]))]
        have := hk x (by simp)
        simp [KeptArg.current, KeptArg.change, List.getD, this]
    rw [key changes _ (fun x hx => by have := hch x hx; simp only [keepSet]; omega)]
    simp [KeptArg.current, keepSet, List.getD]
  · have key : ∀ (changes : List (Nat × List α)) (k : KeptArg α), k.kept = c → c < k.colls.length →
        (changes.foldl (fun k x => k.change x.1 x.2) k).current =
          (((changes.filter (fun x => x.1 = c)).getLast?).map Prod.snd).getD (k.colls.getD c []) := by
      intro changes
      induction changes with
      | nil => intro k h1 _; simp [KeptArg.current, h1]
      | cons x changes ih =>
        intro k h1 h2
        rw [List.foldl_cons, ih (k.change x.1 x.2) h1 (by simpa [KeptArg.change] using h2), List.filter_cons]
        by_cases e : x.1 = c
        · simp only [e, decide_true, if_true, List.getLast?_cons]
          cases (changes.filter (fun x => x.1 = c)).getLast? with
          | none => simp [KeptArg.change, List.getD, h2]
          | some y => simp
        · simp only [e, decide_false, Bool.false_eq_true, if_false]
          simp [KeptArg.change, List.getD, e]
    exact key changes (keepGiven colls c) rfl hc

/-! An iterator that yields the languages in the order of the file, and a text with two codes. -/

example : (LangArg.iterator [u!"eng", u!"jpn"]).decisions [u!"eng", u!"jpn", u!"fra"] = [true, true, false] := by
  rw [(C132_iterator_iff _ [u!"eng", u!"jpn", u!"fra"]).2 ⟨[u!"eng", u!"jpn"], [u!"fra"], rfl, List.Sublist.refl _, by decide +kernel⟩]; decide +kernel

example : (LangArg.iterator [u!"eng", u!"jpn"]).decisions [u!"eng", u!"eng"] = [true, false] ∧
    (LangArg.text u!"eng jpn").decisions [u!"jpn", u!"en", u!""] = [true, true, true] := by decide +kernel

example : ∀ x ∈ [[u!"1", u!"en", u!"a"], [u!"2", u!"fra", u!"b"]].map Spec.rowLang, x ∈ [u!"en"] ↔ ∃ a b, u!"eng" = a ++ x ++ b := by
  simp only [← isInfix_iff]
  decide +kernel

end Cjk
