import Verif.Spec.Tatoeba
import Verif.Model.Tatoeba
/-!
# The sentence reader (C54, C55, C56)
-/

namespace Cjk
open Py

section
variable {D : Type} {strptime : Str → Except PyErr D} {languages : Option (List Str)}

theorem dedup_dedup_append {α : Type} [DecidableEq α] (a b : List α) : dedup (dedup a ++ b) = dedup (a ++ b) := by
  induction b generalizing a with
  | nil => simp [dedup_of_nodup (nodup_dedup a)]
  | cons x b ih =>
    have h : dedup (dedup a ++ [x]) = dedup (a ++ [x]) := by
      rw [dedup_concat, dedup_concat, dedup_of_nodup (nodup_dedup a)]
      simp
    have h1 := ih (dedup a ++ [x])
    rw [h, ih (a ++ [x])] at h1
    simpa using h1.symm

/-- Whether a row passes the language filter. -/
theorem mem_accepted_single (r : List Str) : r ∈ Spec.accepted languages [r] ↔ langOk languages (Spec.rowLang r) = true := by
  cases languages <;> simp [Spec.accepted, langOk]

theorem accepted_cons (r : List Str) (rows : List (List Str)) :
    Spec.accepted languages (r :: rows) =
      if langOk languages (Spec.rowLang r) = true then r :: Spec.accepted languages rows else Spec.accepted languages rows := by
  cases languages <;> simp [Spec.accepted, langOk, List.filter_cons]

theorem lastRow_cons (r : List Str) (rows : List (List Str)) (i : Int) :
    Spec.lastRow (r :: rows) i = (Spec.lastRow rows i).or (if Spec.rowId r = .ok i then some r else none) := by
  simp only [Spec.lastRow, List.reverse_cons, List.find?_append, List.find?_cons, List.find?_nil]
  by_cases h : Spec.rowId r = .ok i <;> simp [h]

theorem lastRow_mem {rows : List (List Str)} {i : Int} {r : List Str} (h : Spec.lastRow rows i = some r) :
    r ∈ rows ∧ Spec.rowId r = .ok i := by
  have h1 := List.mem_of_find?_eq_some h
  have h2 := List.find?_some h
  simp at h1 h2
  exact ⟨h1, h2⟩

theorem lastRow_none {rows : List (List Str)} {i : Int} :
    Spec.lastRow rows i = none ↔ ∀ r ∈ rows, Spec.rowId r ≠ .ok i := by
  simp [Spec.lastRow, List.find?_eq_none]

theorem parseDate_eq_ok {s : Str} {o : Option D} :
    parseDate strptime s = .ok o ↔ Spec.DateOk strptime s ∧ o = Spec.date strptime s := by
  unfold parseDate Spec.DateOk Spec.date
  by_cases h : s = u!"\\N" ∨ s = u!"0000-00-00 00:00:00"
  · rw [if_pos h, if_pos h]
    simp only [Except.ok.injEq]
    constructor
    · rintro rfl; exact ⟨by rcases h with h | h <;> simp [h], rfl⟩
    · rintro ⟨_, rfl⟩; rfl
  · rw [if_neg h, if_neg h]
    have h1 : s ≠ u!"\\N" := fun e => h (Or.inl e)
    have h2 : s ≠ u!"0000-00-00 00:00:00" := fun e => h (Or.inr e)
    cases hs : strptime s with
    | error e => simp [h1, h2]
    | ok d => simp [h1, h2, Except.toOption, eq_comm]

theorem parseDetails_eq_ok {r : List Str} {d : Details D} :
    parseDetails strptime r = .ok d ↔
      6 ≤ r.length ∧ Spec.DateOk strptime (r.getD 4 []) ∧ Spec.DateOk strptime (r.getD 5 []) ∧ d = Spec.rowDetails strptime r := by
  unfold parseDetails
  by_cases hl : 6 ≤ r.length
  · match r, hl with
    | a :: b :: c :: x :: y :: z :: r, _ =>
      simp only [List.drop_succ_cons, List.drop_zero, List.take_succ_cons, List.take_zero, bind_eq_ok, parseDate_eq_ok]
      simp only [List.length_cons, Spec.rowDetails, Except.ok.injEq]
      simp only [List.getD_eq_getElem?_getD, List.getElem?_cons_succ, List.getElem?_cons_zero, Option.getD_some]
      constructor
      · rintro ⟨_, ⟨h1, rfl⟩, _, ⟨h2, rfl⟩, rfl⟩
        exact ⟨by omega, h1, h2, rfl⟩
      · rintro ⟨_, h1, h2, rfl⟩
        exact ⟨_, ⟨h1, rfl⟩, _, ⟨h2, rfl⟩, rfl⟩
  · split
    · rename_i heq
      have := congrArg List.length heq
      simp at this
      omega
    · simp [hl]

/-- One row. -/
theorem sentRow_eq_ok {a a' : SentData D} {r : List Str} :
    sentRow strptime languages a r = .ok a' ↔
      Spec.RowOk strptime languages a.info.isSome r ∧
        ((langOk languages (Spec.rowLang r) = false ∧ a' = a) ∨
          (langOk languages (Spec.rowLang r) = true ∧ ∃ i, Spec.rowId r = .ok i ∧
            a' = ⟨addLang a.lang (Spec.rowLang r) i, Dict.set a.sent i (Spec.rowText3 r),
              a.info.map (fun f => Dict.set f i (Spec.rowDetails strptime r))⟩)) := by
  unfold Spec.RowOk
  rw [mem_accepted_single]
  match r with
  | [] => simp [sentRow]
  | [_] => simp [sentRow]
  | [_, _] => simp [sentRow]
  | x :: l :: t :: r =>
    have e1 : Spec.rowLang (x :: l :: t :: r) = l := rfl
    have e2 : Spec.rowId (x :: l :: t :: r) = pyInt 10 x := rfl
    have e3 : Spec.rowText3 (x :: l :: t :: r) = t := rfl
    have hlen : 3 ≤ (x :: l :: t :: r).length := by simp
    simp only [hlen, true_and, e1, e2, e3]
    unfold sentRow
    simp only [List.take_succ_cons, List.take_zero]
    cases hl : langOk languages l with
    | false => simpa using eq_comm
    | true =>
      simp only [Bool.true_eq_false, if_false, false_and, false_or, true_and, forall_const]
      cases hx : pyInt 10 x with
      | error e => simp
      | ok i =>
        unfold sentDetails
        obtain ⟨al, as, ai⟩ := a
        cases ai with
        | none => simpa using eq_comm
        | some f =>
          simp only [Option.isSome_some, forall_const, Option.map_some, Except.ok.injEq, exists_eq', exists_eq_left', true_and]
          cases hd : parseDetails strptime (x :: l :: t :: r) with
          | error e =>
            constructor
            · intro h; cases h
            · rintro ⟨⟨h1, h2, h3⟩, _⟩
              rw [parseDetails_eq_ok.2 ⟨h1, h2, h3, rfl⟩] at hd
              cases hd
          | ok d =>
            obtain ⟨h1, h2, h3, rfl⟩ := parseDetails_eq_ok.1 hd
            simp only [Except.ok.injEq]
            exact ⟨fun h => ⟨⟨h1, h2, h3⟩, h.symm⟩, fun h => h.2.symm⟩

theorem mem_addLang (d : Dict Str (List Int)) (l l' : Str) (i j : Int) :
    j ∈ (Dict.get? (addLang d l i) l').getD [] ↔ (l = l' ∧ j = i) ∨ j ∈ (Dict.get? d l').getD [] := by
  unfold addLang
  rw [Dict.get?_set]
  by_cases h : l = l'
  · subst h
    simp only [if_true, Option.getD_some, true_and]
    by_cases hi : i ∈ (Dict.get? d l).getD []
    · rw [if_pos hi]
      constructor
      · exact Or.inr
      · rintro (rfl | h)
        · exact hi
        · exact h
    · rw [if_neg hi]
      simp [or_comm]
  · simp [h]

/-- All rows. -/
theorem sentRows_eq_ok {rows : List (List Str)} : ∀ {a a' : SentData D}, sentRows strptime languages a rows = .ok a' →
    (∀ r ∈ rows, Spec.RowOk strptime languages a.info.isSome r) ∧
    (∀ i, Dict.get? a'.sent i = ((Spec.lastRow (Spec.accepted languages rows) i).map Spec.rowText3).or (Dict.get? a.sent i)) ∧
    (Dict.WF a.sent → Dict.WF a'.sent) ∧
    (a.info = none → a'.info = none) ∧
    (∀ f, a.info = some f → ∃ f', a'.info = some f' ∧ (Dict.WF f → Dict.WF f') ∧
      ∀ i, Dict.get? f' i = ((Spec.lastRow (Spec.accepted languages rows) i).map (Spec.rowDetails strptime)).or (Dict.get? f i)) ∧
    (∀ l i, i ∈ (Dict.get? a'.lang l).getD [] ↔
      (∃ r ∈ Spec.accepted languages rows, Spec.rowLang r = l ∧ Spec.rowId r = .ok i) ∨ i ∈ (Dict.get? a.lang l).getD []) ∧
    (Dict.WF a.lang → Dict.WF a'.lang ∧
      Dict.keys a'.lang = dedup (Dict.keys a.lang ++ (Spec.accepted languages rows).map Spec.rowLang)) := by
  induction rows with
  | nil =>
    intro a a' h
    simp only [sentRows, Except.ok.injEq] at h
    subst h
    refine ⟨by simp, by simp [Spec.accepted, Spec.lastRow], id, id, fun f hf => ⟨f, hf, id, by simp [Spec.accepted, Spec.lastRow]⟩,
      by simp [Spec.accepted], fun h => ⟨h, ?_⟩⟩
    simp [Spec.accepted, dedup_of_nodup h]
  | cons r rows ih =>
    intro a a' h
    simp only [sentRows] at h
    cases hr : sentRow strptime languages a r with
    | error e => rw [hr] at h; cases h
    | ok a1 =>
      rw [hr] at h
      simp only at h
      obtain ⟨i1, i2, i3, i4, i5, i6, i7⟩ := ih h
      obtain ⟨hok, hcase⟩ := sentRow_eq_ok.1 hr
      rw [accepted_cons]
      rcases hcase with ⟨hl, rfl⟩ | ⟨hl, k, hk, rfl⟩
      · rw [hl]
        simp only [Bool.false_eq_true, if_false]
        refine ⟨?_, i2, i3, i4, i5, i6, i7⟩
        intro x hx
        rcases List.mem_cons.1 hx with rfl | hx
        · exact hok
        · exact i1 x hx
      · rw [hl]
        simp only [if_true]
        have hsome : (a.info.map (fun f => Dict.set f k (Spec.rowDetails strptime r))).isSome = a.info.isSome := by simp
        simp only [hsome] at i1
        refine ⟨?_, ?_, ?_, ?_, ?_, ?_, ?_⟩
        · intro x hx
          rcases List.mem_cons.1 hx with rfl | hx
          · exact hok
          · exact i1 x hx
        · intro i
          rw [i2 i, lastRow_cons, Dict.get?_set, hk]
          by_cases hki : k = i
          · subst hki
            cases Spec.lastRow (Spec.accepted languages rows) k <;> simp
          · simp [hki]
        · intro hwf; exact i3 (Dict.WF_set hwf _ _)
        · intro hn; exact i4 (by simp [hn])
        · intro f hf
          obtain ⟨f', h1, h2, h3⟩ := i5 (Dict.set f k (Spec.rowDetails strptime r)) (by simp only [hf, Option.map_some])
          refine ⟨f', h1, fun hwf => h2 (Dict.WF_set hwf _ _), ?_⟩
          intro i
          rw [h3 i, lastRow_cons, Dict.get?_set, hk]
          by_cases hki : k = i
          · subst hki
            cases Spec.lastRow (Spec.accepted languages rows) k <;> simp
          · simp [hki]
        · intro l i
          rw [i6 l i, mem_addLang]
          simp only [List.mem_cons, exists_eq_or_imp]
          rw [hk]
          simp only [Except.ok.injEq]
          constructor
          · rintro (h | ⟨rfl, rfl⟩ | h)
            · exact Or.inl (Or.inr h)
            · exact Or.inl (Or.inl ⟨rfl, rfl⟩)
            · exact Or.inr h
          · rintro ((⟨rfl, rfl⟩ | h) | h)
            · exact Or.inr (Or.inl ⟨rfl, rfl⟩)
            · exact Or.inl h
            · exact Or.inr (Or.inr h)
        · intro hwf
          obtain ⟨j1, j2⟩ := i7 (Dict.WF_set hwf _ _)
          refine ⟨j1, ?_⟩
          rw [j2]
          have : Dict.keys (addLang a.lang (Spec.rowLang r) k) = dedup (Dict.keys a.lang ++ [Spec.rowLang r]) := by
            unfold addLang
            rw [Dict.keys_set, dedup_concat, dedup_of_nodup hwf]
          simp only [this, dedup_dedup_append]
          simp

/-- Conversely, good rows are loaded without an exception. -/
theorem sentRows_ok {rows : List (List Str)} : ∀ {a : SentData D},
    (∀ r ∈ rows, Spec.RowOk strptime languages a.info.isSome r) → ∃ a', sentRows strptime languages a rows = .ok a' := by
  induction rows with
  | nil => intro a _; exact ⟨a, rfl⟩
  | cons r rows ih =>
    intro a h
    have hr := h r (by simp)
    obtain ⟨a1, h1, hs⟩ : ∃ a1, sentRow strptime languages a r = .ok a1 ∧ a1.info.isSome = a.info.isSome := by
      cases hl : langOk languages (Spec.rowLang r) with
      | false => exact ⟨a, sentRow_eq_ok.2 ⟨hr, Or.inl ⟨hl, rfl⟩⟩, rfl⟩
      | true =>
        obtain ⟨⟨i, hi⟩, _⟩ := hr.2 ((mem_accepted_single r).2 hl)
        exact ⟨_, sentRow_eq_ok.2 ⟨hr, Or.inr ⟨hl, i, hi, rfl⟩⟩, by simp⟩
    obtain ⟨a', h2⟩ := ih (a := a1) (by intro x hx; rw [hs]; exact h x (by simp [hx]))
    exact ⟨a', by simp only [sentRows, h1, h2]⟩

theorem sentLoad_eq_ok {rows : Rows} {a : SentData D} (h : sentLoad strptime languages rows = .ok a) :
    rows.2 = none ∧ ∃ first rest, rows.1 = first :: rest ∧ (first.length = 3 ∨ first.length = 6) ∧
      sentRows strptime languages ⟨[], [], if first.length = 6 then some [] else none⟩ rows.1 = .ok a := by
  obtain ⟨rs, e⟩ := rows
  unfold sentLoad at h
  cases rs with
  | nil => cases h
  | cons first rest =>
    simp only at h
    split at h
    · rename_i hlen
      cases h1 : sentRows strptime languages ⟨[], [], if first.length = 6 then some [] else none⟩ (first :: rest) with
      | error e => rw [h1] at h; cases h
      | ok a1 =>
        rw [h1] at h
        cases e with
        | some e => cases h
        | none =>
          simp only [Except.ok.injEq] at h
          subst h
          exact ⟨rfl, first, rest, rfl, hlen, h1⟩
    · cases h

/-- Loading succeeds exactly when the file has a first row of 3 or 6 columns and every row can be loaded. -/
theorem C54_load_iff (rows : Rows) :
    (∃ a, sentLoad strptime languages rows = .ok a) ↔
      rows.2 = none ∧ ∃ first rest, rows.1 = first :: rest ∧ (first.length = 3 ∨ first.length = 6) ∧
        ∀ r ∈ rows.1, Spec.RowOk strptime languages (decide (first.length = 6)) r := by
  constructor
  · rintro ⟨a, h⟩
    obtain ⟨h1, first, rest, h2, h3, h4⟩ := sentLoad_eq_ok h
    refine ⟨h1, first, rest, h2, h3, ?_⟩
    have := (sentRows_eq_ok h4).1
    by_cases h6 : first.length = 6
    · simpa [h6] using this
    · simpa [h6] using this
  · rintro ⟨h1, first, rest, h2, h3, h4⟩
    obtain ⟨a, ha⟩ := sentRows_ok (a := (⟨[], [], if first.length = 6 then some [] else none⟩ : SentData D)) (rows := rows.1)
      (strptime := strptime) (languages := languages) (by
        by_cases h6 : first.length = 6
        · simpa [h6] using h4
        · simpa [h6] using h4)
    refine ⟨a, ?_⟩
    rw [h2] at ha
    unfold sentLoad
    rw [h2]
    simp only [h3, if_true, ha, h1]

/-- C54: after loading, `sentence(i)` is the text of the last accepted row with id `i`, and InvalidIDError is raised iff there is
no such row. -/
theorem C54_sentence {rows : Rows} {a : SentData D} (h : sentLoad strptime languages rows = .ok a) (i : Int) :
    a.sentence i = match Spec.lastRow (Spec.accepted languages rows.1) i with
      | some r => .ok (Spec.rowText3 r)
      | none => .error .invalidIDError := by
  obtain ⟨_, first, rest, _, _, h4⟩ := sentLoad_eq_ok h
  have := (sentRows_eq_ok h4).2.1 i
  unfold SentData.sentence
  rw [this]
  cases Spec.lastRow (Spec.accepted languages rows.1) i <;> simp

/-- C54: `details(i)` gives the details of the same row if the file is detailed (six columns), and raises MissingDataError if it
is not. -/
theorem C54_details {rows : Rows} {a : SentData D} (h : sentLoad strptime languages rows = .ok a) (i : Int) :
    a.details i =
      if (rows.1.headD []).length = 6 then
        match Spec.lastRow (Spec.accepted languages rows.1) i with
        | some r => .ok (Spec.rowDetails strptime r)
        | none => .error .invalidIDError
      else .error .missingDataError := by
  obtain ⟨_, first, rest, h2, _, h4⟩ := sentLoad_eq_ok h
  have key := sentRows_eq_ok h4
  have hh : rows.1.headD [] = first := by rw [h2]; rfl
  rw [hh]
  unfold SentData.details
  by_cases h6 : first.length = 6
  · obtain ⟨f', e1, _, e2⟩ := key.2.2.2.2.1 [] (by simp [h6])
    rw [if_pos h6, e1]
    simp only
    rw [e2 i]
    cases Spec.lastRow (Spec.accepted languages rows.1) i <;> simp
  · rw [if_neg h6, key.2.2.2.1 (by simp [h6])]

/-- C54: the ids of the reader (iteration, length) are those of the accepted rows, once each. -/
theorem C54_ids {rows : Rows} {a : SentData D} (h : sentLoad strptime languages rows = .ok a) :
    a.ids.Nodup ∧ ∀ i, i ∈ a.ids ↔ ∃ r ∈ Spec.accepted languages rows.1, Spec.rowId r = .ok i := by
  obtain ⟨_, first, rest, _, _, h4⟩ := sentLoad_eq_ok h
  have key := sentRows_eq_ok h4
  refine ⟨key.2.2.1 Dict.WF_nil, ?_⟩
  intro i
  unfold SentData.ids
  rw [← Dict.get?_isSome_iff, key.2.1 i]
  cases hl : Spec.lastRow (Spec.accepted languages rows.1) i with
  | none =>
    simp only [Option.map_none, Option.none_or, Dict.get?_nil, Option.isSome_none, Bool.false_eq_true, false_iff, not_exists, not_and]
    exact lastRow_none.1 hl
  | some r =>
    simp only [Option.map_some, Option.some_or, Option.isSome_some, true_iff]
    exact ⟨r, (lastRow_mem hl).1, (lastRow_mem hl).2⟩

theorem find?_lang {d : Dict Str (List Int)} (hwf : Dict.WF d) (i : Int) :
    (d.find? (fun kv => decide (i ∈ kv.2))).map Prod.fst =
      (Dict.keys d).find? (fun l => decide (i ∈ (Dict.get? d l).getD [])) := by
  have aux : ∀ e : Dict Str (List Int), (∀ kv ∈ e, Dict.get? d kv.1 = some kv.2) →
      (e.find? (fun kv => decide (i ∈ kv.2))).map Prod.fst =
        (Dict.keys e).find? (fun l => decide (i ∈ (Dict.get? d l).getD [])) := by
    intro e
    induction e with
    | nil => intro _; rfl
    | cons kv e ih =>
      intro he
      rw [Dict.keys_cons, List.find?_cons, List.find?_cons, he kv (by simp)]
      simp only [Option.getD_some]
      by_cases hi : i ∈ kv.2
      · simp [hi]
      · simpa [hi] using ih (fun x hx => he x (by simp [hx]))
  exact aux d (fun kv hkv => (Dict.get?_eq_some_iff hwf _ _).2 hkv)

/-- C55: what `language(i)` answers: the first language, in the order in which the languages first occur in accepted rows, that has
an accepted row with id `i`; InvalidIDError iff there is no accepted row with id `i`. -/
theorem C55_language_exact {rows : Rows} {a : SentData D} (h : sentLoad strptime languages rows = .ok a) (i : Int) :
    a.language i =
      match (dedup ((Spec.accepted languages rows.1).map Spec.rowLang)).find? (fun l =>
        (Spec.accepted languages rows.1).any (fun r => decide (Spec.rowLang r = l ∧ Spec.rowId r = .ok i))) with
      | some l => .ok l
      | none => .error .invalidIDError := by
  obtain ⟨_, first, rest, _, _, h4⟩ := sentLoad_eq_ok h
  obtain ⟨_, _, _, _, _, k6, k7⟩ := sentRows_eq_ok h4
  obtain ⟨hwf, hkeys⟩ := k7 Dict.WF_nil
  simp only [Dict.keys_nil, List.nil_append] at hkeys
  have hf := find?_lang hwf i
  rw [hkeys] at hf
  have hp : (fun l => decide (i ∈ (Dict.get? a.lang l).getD [])) = (fun l =>
      (Spec.accepted languages rows.1).any (fun r => decide (Spec.rowLang r = l ∧ Spec.rowId r = .ok i))) := by
    funext l
    rw [Bool.eq_iff_iff, decide_eq_true_iff, k6 l i]
    simp
  rw [hp] at hf
  rw [← hf]
  unfold SentData.language
  cases a.lang.find? (fun kv => decide (i ∈ kv.2)) <;> rfl

/-- C55 (partial): if no id occurs with two languages among the accepted rows, `language(i)` is the language of the row that
provided `sentence(i)`.  The full statement has no such hypothesis; without it, it is false (see below). -/
theorem C55_language_partial {rows : Rows} {a : SentData D} (h : sentLoad strptime languages rows = .ok a) (i : Int)
    (huniq : ∀ r ∈ Spec.accepted languages rows.1, ∀ r' ∈ Spec.accepted languages rows.1,
      Spec.rowId r = .ok i → Spec.rowId r' = .ok i → Spec.rowLang r = Spec.rowLang r') :
    a.language i = match Spec.lastRow (Spec.accepted languages rows.1) i with
      | some r => .ok (Spec.rowLang r)
      | none => .error .invalidIDError := by
  rw [C55_language_exact h i]
  cases hl : Spec.lastRow (Spec.accepted languages rows.1) i with
  | none =>
    have : (dedup ((Spec.accepted languages rows.1).map Spec.rowLang)).find? (fun l =>
        (Spec.accepted languages rows.1).any (fun r => decide (Spec.rowLang r = l ∧ Spec.rowId r = .ok i))) = none := by
      rw [List.find?_eq_none]
      intro l _ hany
      simp only [List.any_eq_true, decide_eq_true_eq] at hany
      obtain ⟨r, hr, _, hi⟩ := hany
      exact lastRow_none.1 hl r hr hi
    rw [this]
  | some r =>
    obtain ⟨hr, hi⟩ := lastRow_mem hl
    cases hf : (dedup ((Spec.accepted languages rows.1).map Spec.rowLang)).find? (fun l =>
        (Spec.accepted languages rows.1).any (fun r => decide (Spec.rowLang r = l ∧ Spec.rowId r = .ok i))) with
    | none =>
      rw [List.find?_eq_none] at hf
      exact absurd (by simp only [List.any_eq_true, decide_eq_true_eq]; exact ⟨r, hr, rfl, hi⟩)
        (hf (Spec.rowLang r) (by rw [mem_dedup]; exact List.mem_map_of_mem hr))
    | some l =>
      have := List.find?_some hf
      simp only [List.any_eq_true, decide_eq_true_eq] at this
      obtain ⟨r', hr', hl', hi'⟩ := this
      simp only [Except.ok.injEq]
      rw [← hl']
      exact (huniq r hr r' hr' hi hi').symm

/-- C55: with a filter, every language that the reader answers is in the filter, and every row in a language of the filter is found:
its id is known to the reader. -/
theorem C55_filter {ls : List Str} {rows : Rows} {a : SentData D} (h : sentLoad strptime (some ls) rows = .ok a) :
    (∀ i l, a.language i = .ok l → l ∈ ls) ∧
    (∀ i, i ∈ a.ids → ∃ r ∈ rows.1, Spec.rowLang r ∈ ls ∧ Spec.rowId r = .ok i) ∧
    (∀ r ∈ rows.1, Spec.rowLang r ∈ ls → ∃ i, Spec.rowId r = .ok i ∧ i ∈ a.ids) := by
  have hacc : ∀ r, r ∈ Spec.accepted (some ls) rows.1 ↔ r ∈ rows.1 ∧ Spec.rowLang r ∈ ls := by
    intro r; simp [Spec.accepted]
  refine ⟨?_, ?_, ?_⟩
  · intro i l hl
    rw [C55_language_exact h i] at hl
    split at hl
    · rename_i l' hf
      simp only [Except.ok.injEq] at hl
      subst hl
      have := List.mem_of_find?_eq_some hf
      rw [mem_dedup, List.mem_map] at this
      obtain ⟨r, hr, rfl⟩ := this
      exact ((hacc r).1 hr).2
    · cases hl
  · intro i hi
    obtain ⟨r, hr, hi⟩ := ((C54_ids h).2 i).1 hi
    exact ⟨r, ((hacc r).1 hr).1, ((hacc r).1 hr).2, hi⟩
  · intro r hr hl
    obtain ⟨_, first, rest, _, _, hok⟩ := (C54_load_iff rows).1 ⟨a, h⟩
    obtain ⟨⟨i, hi⟩, _⟩ := (hok r hr).2 ((mem_accepted_single r).2 (by simpa [langOk] using hl))
    exact ⟨i, hi, ((C54_ids h).2 i).2 ⟨r, (hacc r).2 ⟨hr, hl⟩, hi⟩⟩

end

/-- C55 as stated is false: an id that occurs twice, in two languages, keeps its first language although its sentence is replaced. -/
theorem C55_language_refuted :
    ∃ a : SentData Unit, sentLoad (fun _ => .ok ()) none
        ([[u!"1", u!"eng", u!"Hi"], [u!"1", u!"fra", u!"Salut"]], none) = .ok a ∧
      a.sentence 1 = .ok u!"Salut" ∧ a.language 1 = .ok u!"eng" := by
  refine ⟨_, rfl, ?_, ?_⟩ <;> decide +kernel

/-- The hypotheses of the theorems hold of a small detailed file with a filter and a repeated id. -/
def demoRows : Rows :=
  ([[u!"1", u!"eng", u!"Hi", u!"\\N", u!"\\N", u!"0000-00-00 00:00:00"], [u!"2", u!"fra", u!"x", u!"u", u!"d", u!"\\N"],
    [u!"1", u!"eng", u!"Hello", u!"bob", u!"d", u!"d"]], none)

def demoStrptime (s : Str) : Except PyErr Nat := if s = u!"d" then .ok 7 else .error .valueError

example : ∃ a, sentLoad demoStrptime (some [u!"eng"]) demoRows = .ok a ∧ a.ids = [1] ∧ a.sentence 1 = .ok u!"Hello" ∧
    a.details 1 = .ok (some u!"bob", some 7, some 7) ∧ a.language 1 = .ok u!"eng" := by
  refine ⟨_, rfl, ?_, ?_, ?_, ?_⟩ <;> decide +kernel

example : ∀ r ∈ Spec.accepted (some [u!"eng"]) demoRows.1, ∀ r' ∈ Spec.accepted (some [u!"eng"]) demoRows.1,
      Spec.rowId r = .ok 1 → Spec.rowId r' = .ok 1 → Spec.rowLang r = Spec.rowLang r' := by decide +kernel

/-! ### Failed reloads (C56) -/

/-- C56: if assigning new sentences raises, whatever the rows before the failure, every lookup answers as before. -/
theorem C56_sentences {D : Type} (strptime : Str → Except PyErr D) (r : SentReader D) (src : Str) (rows : Rows) (e : PyErr)
    (h : (r.assign strptime src rows).2 = some e) (i : Int) :
    (r.assign strptime src rows).1.data.sentence i = r.data.sentence i ∧
    (r.assign strptime src rows).1.data.language i = r.data.language i ∧
    (r.assign strptime src rows).1.data.details i = r.data.details i ∧
    (r.assign strptime src rows).1.data.ids = r.data.ids := by
  unfold SentReader.assign at *
  cases h1 : sentLoad strptime r.languages rows <;> rw [h1] at h
  · exact ⟨rfl, rfl, rfl, rfl⟩
  · cases h

theorem C56_links (r : LinkReader) (src : Str) (rows : Rows) (e : PyErr) (h : (r.assign src rows).2 = some e) (i : Int) :
    (r.assign src rows).1.data.groupOf i = r.data.groupOf i ∧ (r.assign src rows).1.data.groups = r.data.groups ∧
      (r.assign src rows).1.data.getItem i = r.data.getItem i := by
  unfold LinkReader.assign at *
  cases h1 : linkLoad r.subset r.filter rows <;> rw [h1] at h
  · exact ⟨rfl, rfl, rfl⟩
  · cases h

theorem C56_indices (r : IndexReader) (src : Str) (rows : Rows) (e : PyErr) (h : (r.assign src rows).2 = some e) (i : Int) :
    (r.assign src rows).1.data.linkOf i = r.data.linkOf i ∧ (r.assign src rows).1.data.getItem i = r.data.getItem i := by
  unfold IndexReader.assign at *
  cases h1 : indexLoad r.edict r.subset rows <;> rw [h1] at h
  · exact ⟨rfl, rfl⟩
  · cases h

/-- A failing assignment: a bad third row after two good ones. -/
example (r : SentReader Nat) (h : r.languages = none) :
    (r.assign demoStrptime u!"f" ([[u!"1", u!"eng", u!"Hi"], [u!"2", u!"fra", u!"x"], [u!"x", u!"eng", u!"y"]], none)).2 =
      some .valueError := by
  unfold SentReader.assign
  rw [h]
  rfl

end Cjk
