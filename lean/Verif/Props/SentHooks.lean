import Verif.Spec.SentHooks
import Verif.Props.TatoebaSentences
import Verif.Props.TatoebaErrors
/-!
# C151: subclasses of the sentence reader
-/

namespace Cjk
open Py
open Spec (filterCalls dateCalls callRaised letPass keptRows lastKept keptDetails rowId rowLang rowText3)

variable {D : Type}

theorem wanted_langOk (ls : Option (List Str)) (l : Str) : Spec.wanted ls l = langOk ls l := by
  cases ls <;> rfl

theorem keptRows_append (h : SentHooks D) (xs ys : List HookCall) : ∀ pre, keptRows h pre (xs ++ ys) = keptRows h pre xs ++ keptRows h (pre ++ xs) ys := by
  induction xs with
  | nil => intro pre; simp [keptRows]
  | cons x xs ih =>
    intro pre
    rw [List.cons_append, keptRows, keptRows, ih, List.append_assoc, List.append_assoc]
    rfl

/-- What one round of the loop does if it raises nothing. -/
def RoundOk (h : SentHooks D) (log : List HookCall) (a : SentData D) (row : List Str) (log' : List HookCall) (a' : SentData D) : Prop :=
  match letPass h log (.filter row) with
  | none => log' = log ++ [.filter row] ∧ a' = a
  | some r => ∃ i l0 l1 l2 l3, r = l0 :: l1 :: l2 :: l3 ∧ pyInt 10 l0 = .ok i ∧ a'.lang = addLang a.lang l1 i ∧ a'.sent = Dict.set a.sent i l2 ∧
      match a.info with
      | none => log' = log ++ [.filter row] ∧ a'.info = none
      | some info => log' = log ++ [.filter row, .date (r.getD 4 []), .date (r.getD 5 [])] ∧ 6 ≤ r.length ∧
          (∃ x, h.parseDate (log ++ [.filter row]) (r.getD 4 []) = .ok x) ∧
          (∃ y, h.parseDate (log ++ [.filter row, .date (r.getD 4 [])]) (r.getD 5 []) = .ok y) ∧
          a'.info = some (Dict.set info i (keptDetails h (log ++ [.filter row], r)))

theorem hookRow_ok (h : SentHooks D) (log : List HookCall) (a : SentData D) (row : List Str) (log' : List HookCall) (a' : SentData D)
    (e : hookRow h log a row = (log', .ok a')) : RoundOk h log a row log' a' := by
  unfold hookRow at e
  unfold RoundOk
  simp only [letPass]
  cases hf : h.filterRow log row with
  | error x => simp [hf] at e
  | ok p =>
    obtain ⟨b, r⟩ := p
    cases b with
    | true =>
      simp only [hf, Prod.mk.injEq, Except.ok.injEq] at e
      exact ⟨e.1.symm, e.2.symm⟩
    | false =>
      simp only [hf, wanted_langOk] at e ⊢
      unfold hookKept at e
      match r with
      | [] => simp at e
      | [_] => simp at e
      | [_, _] => simp at e
      | l0 :: l1 :: l2 :: l3 =>
        have hl : rowLang (l0 :: l1 :: l2 :: l3) = l1 := rfl
        have ht : (l0 :: l1 :: l2 :: l3).take 3 = [l0, l1, l2] := by simp
        simp only [ht] at e
        rw [hl]
        by_cases hw : langOk (h.languages (log ++ [.filter row])) l1 = false
        · rw [if_pos hw] at e
          simp only [Prod.mk.injEq, Except.ok.injEq] at e
          rw [hw]
          exact ⟨e.1.symm, e.2.symm⟩
        · rw [if_neg hw] at e
          simp only [Bool.not_eq_false] at hw
          rw [hw]
          simp only [if_true]
          cases hi : pyInt 10 l0 with
          | error x => simp [hi] at e
          | ok i =>
            simp only [hi] at e
            refine ⟨i, l0, l1, l2, l3, rfl, hi, ?_⟩
            cases hinf : a.info with
            | none =>
              simp only [hinf, Prod.mk.injEq, Except.ok.injEq] at e
              obtain ⟨e1, e2⟩ := e
              subst e2
              exact ⟨rfl, rfl, e1.symm, by simp [hinf]⟩
            | some info =>
              simp only [hinf] at e
              unfold hookDetails at e
              match l3 with
              | [] => simp at e
              | [_] => simp at e
              | [_, _] => simp at e
              | u :: d1 :: d2 :: l6 =>
                have hd : ((l0 :: l1 :: l2 :: u :: d1 :: d2 :: l6).drop 3).take 3 = [u, d1, d2] := by simp
                have g4 : (l0 :: l1 :: l2 :: u :: d1 :: d2 :: l6).getD 4 [] = d1 := rfl
                have g5 : (l0 :: l1 :: l2 :: u :: d1 :: d2 :: l6).getD 5 [] = d2 := rfl
                have g3 : (l0 :: l1 :: l2 :: u :: d1 :: d2 :: l6).getD 3 [] = u := rfl
                simp only [hd] at e
                simp only [keptDetails, g3, g4, g5]
                cases h1 : h.parseDate (log ++ [.filter row]) d1 with
                | error x => simp [h1] at e
                | ok x =>
                  simp only [h1] at e
                  cases h2 : h.parseDate (log ++ [.filter row] ++ [.date d1]) d2 with
                  | error y => simp only [h2] at e; cases e
                  | ok y =>
                    simp only [h2, Prod.mk.injEq, Except.ok.injEq] at e
                    obtain ⟨e1, e2⟩ := e
                    subst e2
                    refine ⟨rfl, rfl, by rw [← e1]; simp, by simp, ⟨x, rfl⟩, ⟨y, by rw [← h2]; simp⟩, ?_⟩
                    simp [Except.toOption]

/-- The part of a row that a reader of three columns needs. -/
abbrev three (r : List Str) : List Str := r.take 3

theorem sentRow_three (strptime : Str → Except PyErr D) (lang : Dict Str (List Int)) (sent : Dict Int Str) (l0 l1 l2 : Str) (l3 : List Str) (i : Int)
    (hi : pyInt 10 l0 = .ok i) :
    sentRow strptime none ⟨lang, sent, none⟩ (three (l0 :: l1 :: l2 :: l3)) = .ok ⟨addLang lang l1 i, Dict.set sent i l2, none⟩ := by
  simp [sentRow, three, langOk, hi, sentDetails]

theorem sentRows_append (strptime : Str → Except PyErr D) (ls : Option (List Str)) (xs ys : List (List Str)) : ∀ (a b : SentData D),
    sentRows strptime ls a xs = .ok b → sentRows strptime ls a (xs ++ ys) = sentRows strptime ls b ys := by
  induction xs with
  | nil => intro a b h; cases h; rfl
  | cons x xs ih =>
    intro a b h
    rw [List.cons_append, sentRows]
    rw [sentRows] at h
    cases hx : sentRow strptime ls a x with
    | error e => simp [hx] at h
    | ok a' => simp only [hx] at h ⊢; exact ih a' b h

/-- What the loop has done so far. -/
structure HookInv (h : SentHooks D) (detailed : Bool) (rows : List (List Str)) (log : List HookCall) (a : SentData D) : Prop where
  filters : filterCalls log = rows
  three : ∀ strptime, sentRows strptime none ⟨[], [], none⟩ ((keptRows h [] log).map (fun r => Cjk.three r.2)) = .ok (⟨a.lang, a.sent, none⟩ : SentData D)
  dates : dateCalls log = if detailed then (keptRows h [] log).flatMap (fun r => [r.2.getD 4 [], r.2.getD 5 []]) else []
  infoNone : detailed = false → a.info = none
  info : detailed = true → ∃ info, a.info = some info ∧ ∀ i, Dict.get? info i = (lastKept (keptRows h [] log) i).map (keptDetails h)
  shape : ∀ r ∈ keptRows h [] log, (∃ i, rowId r.2 = .ok i) ∧ 3 ≤ r.2.length ∧ (detailed = true → 6 ≤ r.2.length ∧
    (r.1 ++ [.date (r.2.getD 4 []), .date (r.2.getD 5 [])]) <+: log)

theorem keptRows_filter (h : SentHooks D) (log : List HookCall) (row : List Str) (ts : List Str) :
    keptRows h log (.filter row :: ts.map HookCall.date) = (letPass h log (.filter row)).toList.map (fun r => (log ++ [.filter row], r)) := by
  rw [keptRows]
  have : ∀ pre, keptRows h pre (ts.map HookCall.date) = [] := by
    induction ts with
    | nil => intro; rfl
    | cons t ts ih => intro pre; rw [List.map_cons, keptRows, ih]; rfl
  rw [this, List.append_nil]

theorem lastKept_append (xs : List (List HookCall × List Str)) (y : List HookCall × List Str) (i : Int) :
    lastKept (xs ++ [y]) i = if rowId y.2 = .ok i then some y else lastKept xs i := by
  unfold lastKept
  rw [List.reverse_append, List.reverse_singleton, List.singleton_append, List.find?_cons]
  by_cases hy : rowId y.2 = .ok i <;> simp [hy]

theorem hookInv_step (h : SentHooks D) (detailed : Bool) (rows : List (List Str)) (log : List HookCall) (a : SentData D) (row : List Str) (log' : List HookCall)
    (a' : SentData D) (inv : HookInv h detailed rows log a) (e : RoundOk h log a row log' a') : HookInv h detailed (rows ++ [row]) log' a' := by
  unfold RoundOk at e
  cases hp : letPass h log (.filter row) with
  | none =>
    rw [hp] at e
    obtain ⟨rfl, rfl⟩ := e
    have hk : keptRows h [] (log ++ [.filter row]) = keptRows h [] log := by
      rw [keptRows_append, List.nil_append, show [HookCall.filter row] = .filter row :: [].map HookCall.date from rfl, keptRows_filter, hp]
      simp
    refine ⟨?_, ?_, ?_, inv.infoNone, ?_, ?_⟩
    · rw [filterCalls, List.filterMap_append, ← filterCalls, inv.filters]; rfl
    · rw [hk]; exact inv.three
    · rw [hk, dateCalls, List.filterMap_append, ← dateCalls, inv.dates]; simp
    · rw [hk]; exact inv.info
    · rw [hk]
      intro r hr
      obtain ⟨h1, h2, h3⟩ := inv.shape r hr
      exact ⟨h1, h2, fun hd => ⟨(h3 hd).1, (h3 hd).2.trans (List.prefix_append _ _)⟩⟩
  | some r =>
    rw [hp] at e
    obtain ⟨i, l0, l1, l2, l3, hr, hi, e1, e2, e3⟩ := e
    have hid : rowId r = .ok i := by rw [hr]; exact hi
    have key : ∀ ts : List Str, keptRows h [] (log ++ .filter row :: ts.map HookCall.date) = keptRows h [] log ++ [(log ++ [.filter row], r)] := by
      intro ts
      rw [keptRows_append, List.nil_append, keptRows_filter, hp]
      rfl
    have th : ∀ strptime, sentRows strptime none ⟨[], [], none⟩ ((keptRows h [] log ++ [(log ++ [HookCall.filter row], r)]).map (fun r : List HookCall × List Str => Cjk.three r.2)) =
        .ok (⟨a'.lang, a'.sent, none⟩ : SentData D) := by
      intro strptime
      rw [List.map_append, sentRows_append strptime none _ _ _ _ (inv.three strptime)]
      simp only [List.map_cons, List.map_nil, sentRows, hr]
      rw [sentRow_three strptime a.lang a.sent l0 l1 l2 l3 i hi, e1, e2]
    cases detailed with
    | false =>
      rw [inv.infoNone rfl] at e3
      obtain ⟨rfl, e5⟩ := e3
      have hk := key []
      rw [List.map_nil] at hk
      refine ⟨?_, ?_, ?_, fun _ => e5, (fun h => by cases h), ?_⟩
      · rw [filterCalls, List.filterMap_append, ← filterCalls, inv.filters]; rfl
      · rw [hk]; exact th
      · rw [dateCalls, List.filterMap_append, ← dateCalls, inv.dates]; rfl
      · rw [hk]
        intro q hq
        rcases List.mem_append.1 hq with hq | hq
        · obtain ⟨h1, h2, -⟩ := inv.shape q hq
          exact ⟨h1, h2, (fun h => by cases h)⟩
        · rw [List.mem_singleton.1 hq]
          exact ⟨⟨i, hid⟩, by rw [hr]; simp, (fun h => by cases h)⟩
    | true =>
      obtain ⟨info, hinf, hget⟩ := inv.info rfl
      rw [hinf] at e3
      obtain ⟨rfl, e5, -, -, e6⟩ := e3
      have hk := key [r.getD 4 [], r.getD 5 []]
      simp only [List.map_cons, List.map_nil] at hk
      refine ⟨?_, ?_, ?_, (fun h => by cases h), ?_, ?_⟩
      · rw [filterCalls, List.filterMap_append, ← filterCalls, inv.filters]; rfl
      · rw [hk]; exact th
      · rw [hk, dateCalls, List.filterMap_append, ← dateCalls, inv.dates]
        simp
      · intro _
        refine ⟨_, e6, ?_⟩
        intro j
        rw [hk, lastKept_append, Dict.get?_set]
        by_cases hj : i = j
        · subst hj
          simp [hid]
        · have h1 : ¬ rowId (log ++ [HookCall.filter row], r).2 = .ok j := by simp only [hid, Except.ok.injEq]; exact hj
          rw [if_neg h1]
          first | rw [if_neg hj] | rw [if_neg (fun h => hj h.symm)]
          exact hget j
      · rw [hk]
        intro q hq
        rcases List.mem_append.1 hq with hq | hq
        · obtain ⟨h1, h2, h3⟩ := inv.shape q hq
          exact ⟨h1, h2, fun hd => ⟨(h3 hd).1, (h3 hd).2.trans (List.prefix_append _ _)⟩⟩
        · rw [List.mem_singleton.1 hq]
          exact ⟨⟨i, hid⟩, by rw [hr]; simp, fun _ => ⟨e5, by simp⟩⟩

theorem hookRows_inv (h : SentHooks D) (detailed : Bool) (rows : List (List Str)) : ∀ (done : List (List Str)) (log log' : List HookCall) (a a' : SentData D),
    HookInv h detailed done log a → hookRows h log a rows = (log', .ok a') → HookInv h detailed (done ++ rows) log' a' := by
  induction rows with
  | nil =>
    intro done log log' a a' inv e
    simp only [hookRows, Prod.mk.injEq, Except.ok.injEq] at e
    obtain ⟨rfl, rfl⟩ := e
    rw [List.append_nil]; exact inv
  | cons row rows ih =>
    intro done log log' a a' inv e
    rw [hookRows] at e
    match hq : hookRow h log a row with
    | (l, .error x) => simp [hq] at e
    | (l, .ok b) =>
      simp only [hq] at e
      have := ih (done ++ [row]) l log' b a' (hookInv_step h detailed done log a row l b inv (hookRow_ok h log a row l b hq)) e
      simpa using this

theorem hookLoad_inv (h : SentHooks D) (rows : Rows) (log : List HookCall) (a : SentData D) (e : hookLoad h rows = (log, .ok a)) :
    rows.2 = none ∧ rows.1 ≠ [] ∧ ((rows.1.headD []).length = 3 ∨ (rows.1.headD []).length = 6) ∧ HookInv h (decide ((rows.1.headD []).length = 6)) rows.1 log a := by
  obtain ⟨rows, fin⟩ := rows
  cases rows with
  | nil => simp [hookLoad] at e
  | cons first rest =>
    simp only [hookLoad] at e
    by_cases hl : first.length = 3 ∨ first.length = 6
    · rw [if_pos hl] at e
      match hq : hookRows h [] ⟨[], [], if first.length = 6 then some [] else none⟩ (first :: rest) with
      | (l, .error x) => simp [hq] at e
      | (l, .ok b) =>
        simp only [hq] at e
        cases fin with
        | some x => simp at e
        | none =>
          simp only [Prod.mk.injEq, Except.ok.injEq] at e
          obtain ⟨rfl, rfl⟩ := e
          refine ⟨rfl, by simp, hl, ?_⟩
          have i0 : HookInv h (decide (first.length = 6)) [] [] (⟨[], [], if first.length = 6 then some [] else none⟩ : SentData D) := by
            refine ⟨rfl, fun _ => rfl, ?_, ?_, ?_, (fun r hr => by cases hr)⟩
            · simp [dateCalls, keptRows]
            · intro h6; simp only [decide_eq_false_iff_not] at h6; simp [h6]
            · intro h6; simp only [decide_eq_true_eq] at h6; exact ⟨[], by simp [h6], fun i => rfl⟩
          exact hookRows_inv h _ _ [] [] l _ b i0 hq
    · rw [if_neg hl] at e; simp at e

/-- C151: if a file is loaded, `filter_row` was asked about each of its rows once, in their order, the first one included. -/
theorem C151_filter_calls (h : SentHooks D) (rows : Rows) (log : List HookCall) (a : SentData D) (e : hookLoad h rows = (log, .ok a)) : filterCalls log = rows.1 :=
  (hookLoad_inv h rows log a e).2.2.2.filters

/-- C151: `parse_date` was asked about the two dates of each row that passed, right after `filter_row`, if the first row of the file has six columns, whether it
passed or not, and not at all if it has three. -/
theorem C151_date_calls (h : SentHooks D) (rows : Rows) (log : List HookCall) (a : SentData D) (e : hookLoad h rows = (log, .ok a)) :
    ((rows.1.headD []).length = 3 → dateCalls log = []) ∧
    ((rows.1.headD []).length = 6 → dateCalls log = (keptRows h [] log).flatMap (fun r => [r.2.getD 4 [], r.2.getD 5 []]) ∧
      ∀ r ∈ keptRows h [] log, (r.1 ++ [.date (r.2.getD 4 []), .date (r.2.getD 5 [])]) <+: log) := by
  obtain ⟨-, -, -, inv⟩ := hookLoad_inv h rows log a e
  constructor
  · intro h3
    rw [inv.dates, h3]
    rfl
  · intro h6
    refine ⟨by rw [inv.dates, h6]; rfl, ?_⟩
    intro r hr
    exact ((inv.shape r hr).2.2 (decide_eq_true h6)).2

/-- C151: ids, sentences and languages are those of a reader of the class itself for a file of the rows that passed, as the methods left them; if none passed
there is nothing. -/
theorem C151_loaded (h : SentHooks D) (rows : Rows) (log : List HookCall) (a : SentData D) (e : hookLoad h rows = (log, .ok a)) :
    (keptRows h [] log = [] → a.ids = [] ∧ ∀ i, a.sentence i = .error .invalidIDError ∧ a.language i = .error .invalidIDError) ∧
    (keptRows h [] log ≠ [] → ∀ strptime : Str → Except PyErr D, ∃ b : SentData D,
      sentLoad strptime none ((keptRows h [] log).map (fun r => r.2.take 3), none) = .ok b ∧
      a.ids = b.ids ∧ ∀ i, a.sentence i = b.sentence i ∧ a.language i = b.language i) := by
  obtain ⟨-, -, -, inv⟩ := hookLoad_inv h rows log a e
  constructor
  · intro hk
    have := inv.three (fun _ => .error .valueError)
    rw [hk] at this
    simp only [List.map_nil, sentRows, Except.ok.injEq, SentData.mk.injEq] at this
    simp only [SentData.ids, SentData.sentence, SentData.language, ← this.1, ← this.2.1]
    exact ⟨rfl, fun i => ⟨rfl, rfl⟩⟩
  · intro hk strptime
    refine ⟨⟨a.lang, a.sent, none⟩, ?_, rfl, fun i => ⟨rfl, rfl⟩⟩
    have h1 := inv.three strptime
    cases hq : keptRows h [] log with
    | nil => exact absurd hq hk
    | cons r rs =>
      have h2 : 3 ≤ r.2.length := (inv.shape r (by rw [hq]; exact List.mem_cons_self)).2.1
      have h3 : (r.2.take 3).length = 3 := by rw [List.length_take]; omega
      rw [hq, List.map_cons] at h1
      simp only [sentLoad, List.map_cons]
      rw [if_pos (.inl h3), if_neg (by omega), h1]

/-- C151: the details of a sentence are those of the last row with its id that passed, with the dates that `parse_date` answered for this row; a file whose first
row has three columns has none. -/
theorem C151_details (h : SentHooks D) (rows : Rows) (log : List HookCall) (a : SentData D) (e : hookLoad h rows = (log, .ok a)) (i : Int) :
    a.details i =
      if (rows.1.headD []).length = 6 then
        match lastKept (keptRows h [] log) i with
        | some r => .ok (keptDetails h r)
        | none => .error .invalidIDError
      else .error .missingDataError := by
  obtain ⟨-, -, -, inv⟩ := hookLoad_inv h rows log a e
  unfold SentData.details
  by_cases h6 : (rows.1.headD []).length = 6
  · rw [if_pos h6]
    obtain ⟨info, h1, h2⟩ := inv.info (decide_eq_true h6)
    rw [h1]
    simp only [h2 i]
    cases lastKept (keptRows h [] log) i <;> rfl
  · rw [if_neg h6, inv.infoNone (decide_eq_false h6)]

/-- A call that raises is the last one, and its exception ends the loop. -/
def Ends (h : SentHooks D) (log cs : List HookCall) (res : Except PyErr (SentData D)) : Prop :=
  ∀ pre c post e, cs = pre ++ c :: post → callRaised h (log ++ pre) c = some e → post = [] ∧ res = .error e

/-- Why a round raised. -/
def Why (h : SentHooks D) (detailed : Bool) (log' : List HookCall) (e : PyErr) : Prop :=
  (∃ pre c, log' = pre ++ [c] ∧ callRaised h pre c = some e) ∨
  (∃ pre row r, log' = pre ++ [.filter row] ∧ h.filterRow pre row = .ok (false, r) ∧ Spec.BadRow detailed r ∧ e = .valueError)

theorem hookRow_ends (h : SentHooks D) (log : List HookCall) (a : SentData D) (row : List Str) :
    ∃ ts : List Str, (hookRow h log a row).1 = log ++ .filter row :: ts.map HookCall.date ∧ Ends h log (.filter row :: ts.map HookCall.date) (hookRow h log a row).2 ∧
      (∀ e, (hookRow h log a row).2 = .error e → Why h a.info.isSome (hookRow h log a row).1 e) ∧
      ∀ b, (hookRow h log a row).2 = .ok b → b.info.isSome = a.info.isSome := by
  have one : ∀ res : Except PyErr (SentData D), (∀ e, callRaised h log (.filter row) = some e → res = .error e) →
      Ends h log (.filter row :: ([] : List Str).map HookCall.date) res := by
    intro res hr pre c post e hc hx
    cases pre with
    | nil =>
      simp only [List.map_nil, List.nil_append, List.cons.injEq] at hc
      obtain ⟨rfl, rfl⟩ := hc
      rw [List.append_nil] at hx
      exact ⟨rfl, hr e hx⟩
    | cons p pre => simp at hc
  unfold hookRow
  cases hf : h.filterRow log row with
  | error x =>
    have hc : callRaised h log (.filter row) = some x := by simp only [callRaised, hf]
    refine ⟨[], rfl, one _ ?_, ?_, (fun b hb => by cases hb)⟩
    · intro e he; rw [hc] at he; cases he; rfl
    · intro e he; cases he; exact .inl ⟨log, .filter row, rfl, hc⟩
  | ok p =>
    obtain ⟨bo, r⟩ := p
    have hc : callRaised h log (.filter row) = none := by simp only [callRaised, hf]
    have one' : ∀ res : Except PyErr (SentData D), Ends h log (.filter row :: ([] : List Str).map HookCall.date) res :=
      fun res => one res (fun e he => by rw [hc] at he; cases he)
    cases bo with
    | true => exact ⟨[], rfl, one' _, (fun e he => by cases he), (fun b hb => by cases hb; rfl)⟩
    | false =>
      simp only
      have bad : ∀ e, Spec.BadRow a.info.isSome r → e = .valueError → Why h a.info.isSome (log ++ [.filter row]) e :=
        fun e hb he => .inr ⟨log, row, r, rfl, hf, hb, he⟩
      unfold hookKept
      match r, hf, bad with
      | [], hf, bad => exact ⟨[], rfl, one' _, (fun e he => by cases he; exact bad _ (.inl (by simp)) rfl), (fun b hb => by cases hb)⟩
      | [_], hf, bad => exact ⟨[], rfl, one' _, (fun e he => by cases he; exact bad _ (.inl (by simp)) rfl), (fun b hb => by cases hb)⟩
      | [_, _], hf, bad => exact ⟨[], rfl, one' _, (fun e he => by cases he; exact bad _ (.inl (by simp)) rfl), (fun b hb => by cases hb)⟩
      | l0 :: l1 :: l2 :: l3, hf, bad =>
        have ht : (l0 :: l1 :: l2 :: l3).take 3 = [l0, l1, l2] := by simp
        simp only [ht]
        by_cases hw : langOk (h.languages (log ++ [.filter row])) l1 = false
        · rw [if_pos hw]
          exact ⟨[], rfl, one' _, (fun e he => by cases he), (fun b hb => by cases hb; rfl)⟩
        · rw [if_neg hw]
          cases hi : pyInt 10 l0 with
          | error x =>
            refine ⟨[], rfl, one' _, ?_, (fun b hb => by cases hb)⟩
            intro e he
            cases he
            exact bad _ (.inr (.inl (fun i hq => by rw [show rowId (l0 :: l1 :: l2 :: l3) = pyInt 10 l0 from rfl, hi] at hq; cases hq))) (pyInt_error hi)
          | ok i =>
            simp only
            cases hinf : a.info with
            | none => exact ⟨[], rfl, one' _, (fun e he => by cases he), (fun b hb => by cases hb; simp [hinf])⟩
            | some info =>
              simp only
              rw [hinf] at bad
              unfold hookDetails
              match l3, hf, bad with
              | [], hf, bad => exact ⟨[], rfl, one' _, (fun e he => by cases he; exact bad _ (.inr (.inr ⟨rfl, by simp⟩)) rfl), (fun b hb => by cases hb)⟩
              | [_], hf, bad => exact ⟨[], rfl, one' _, (fun e he => by cases he; exact bad _ (.inr (.inr ⟨rfl, by simp⟩)) rfl), (fun b hb => by cases hb)⟩
              | [_, _], hf, bad => exact ⟨[], rfl, one' _, (fun e he => by cases he; exact bad _ (.inr (.inr ⟨rfl, by simp⟩)) rfl), (fun b hb => by cases hb)⟩
              | u :: d1 :: d2 :: l6, hf, bad =>
                have hd : ((l0 :: l1 :: l2 :: u :: d1 :: d2 :: l6).drop 3).take 3 = [u, d1, d2] := by simp
                simp only [hd]
                cases h1 : h.parseDate (log ++ [.filter row]) d1 with
                | error x =>
                  have hc1 : callRaised h (log ++ [.filter row]) (.date d1) = some x := by simp only [callRaised, h1]
                  refine ⟨[d1], by simp, ?_, ?_, (fun b hb => by cases hb)⟩
                  · intro pre c post e hcs hx
                    match pre, hcs with
                    | [], hcs => simp only [List.map_cons, List.map_nil, List.nil_append, List.cons.injEq] at hcs; rw [← hcs.1, List.append_nil, hc] at hx; cases hx
                    | [p], hcs =>
                      simp only [List.map_cons, List.map_nil, List.cons_append, List.nil_append, List.cons.injEq] at hcs
                      obtain ⟨rfl, rfl, rfl⟩ := hcs
                      rw [hc1] at hx
                      cases hx
                      exact ⟨rfl, rfl⟩
                    | p :: q :: pre, hcs => simp at hcs
                  · intro e he
                    cases he
                    exact .inl ⟨_, _, rfl, hc1⟩
                | ok x =>
                  have hc1 : callRaised h (log ++ [.filter row]) (.date d1) = none := by simp only [callRaised, h1]
                  simp only
                  have two : ∀ res : Except PyErr (SentData D), (∀ e, callRaised h (log ++ [.filter row] ++ [.date d1]) (.date d2) = some e → res = .error e) →
                      Ends h log (.filter row :: [d1, d2].map HookCall.date) res := by
                    intro res hr pre c post e hcs hx
                    match pre, hcs with
                    | [], hcs => simp only [List.map_cons, List.map_nil, List.nil_append, List.cons.injEq] at hcs; rw [← hcs.1, List.append_nil, hc] at hx; cases hx
                    | [p], hcs =>
                      simp only [List.map_cons, List.map_nil, List.cons_append, List.nil_append, List.cons.injEq] at hcs
                      obtain ⟨rfl, rfl, rfl⟩ := hcs
                      rw [hc1] at hx
                      cases hx
                    | [p, q], hcs =>
                      simp only [List.map_cons, List.map_nil, List.cons_append, List.nil_append, List.cons.injEq] at hcs
                      obtain ⟨rfl, rfl, rfl, rfl⟩ := hcs
                      rw [show log ++ [HookCall.filter row, .date d1] = log ++ [.filter row] ++ [.date d1] by simp] at hx
                      exact ⟨rfl, hr e hx⟩
                    | p :: q :: s :: pre, hcs => simp at hcs
                  cases h2 : h.parseDate (log ++ [.filter row] ++ [.date d1]) d2 with
                  | error y =>
                    have hc2 : callRaised h (log ++ [.filter row] ++ [.date d1]) (.date d2) = some y := by simp only [callRaised, h2]
                    refine ⟨[d1, d2], by simp, two _ ?_, ?_, (fun b hb => by cases hb)⟩
                    · intro e he; rw [hc2] at he; cases he; rfl
                    · intro e he; cases he; exact .inl ⟨log ++ [.filter row] ++ [.date d1], .date d2, by simp, hc2⟩
                  | ok y =>
                    have hc2 : callRaised h (log ++ [.filter row] ++ [.date d1]) (.date d2) = none := by simp only [callRaised, h2]
                    refine ⟨[d1, d2], by simp, two _ ?_, (fun e he => by cases he), (fun b hb => by cases hb; rfl)⟩
                    intro e he; rw [hc2] at he; cases he

theorem hookRows_ends (h : SentHooks D) (rows : List (List Str)) : ∀ (log : List HookCall) (a : SentData D),
    ∃ cs, (hookRows h log a rows).1 = log ++ cs ∧ filterCalls cs <+: rows ∧ Ends h log cs (hookRows h log a rows).2 ∧
      (∀ e, (hookRows h log a rows).2 = .error e → Why h a.info.isSome (hookRows h log a rows).1 e) := by
  induction rows with
  | nil =>
    intro log a
    refine ⟨[], by simp [hookRows], by simp [filterCalls], ?_, (fun e he => by cases he)⟩
    intro pre c post e hc
    simp at hc
  | cons row rows ih =>
    intro log a
    obtain ⟨ts, h1, h2, h3, h4⟩ := hookRow_ends h log a row
    have fd : filterCalls (.filter row :: ts.map HookCall.date) = [row] := by
      simp only [filterCalls, List.filterMap_cons]
      congr 1
      rw [List.filterMap_eq_nil_iff]
      intro c hc
      obtain ⟨t, -, rfl⟩ := List.mem_map.1 hc
      rfl
    rw [hookRows]
    match hq : hookRow h log a row with
    | (l, .error x) =>
      rw [hq] at h1 h2 h3
      exact ⟨_, h1, by rw [fd]; simp, h2, h3⟩
    | (l, .ok b) =>
      rw [hq] at h1 h2 h4
      simp only at h1 h4 ⊢
      obtain ⟨cs, g1, g2, g3, g4⟩ := ih l b
      refine ⟨.filter row :: ts.map HookCall.date ++ cs, by rw [g1, h1, List.append_assoc], ?_, ?_, ?_⟩
      · rw [filterCalls, List.filterMap_append, ← filterCalls, ← filterCalls, fd]
        simpa using g2
      · intro pre c post e hc hx
        rcases List.append_eq_append_iff.1 hc with ⟨as, k1, k2⟩ | ⟨bs, k1, k2⟩
        · refine g3 as c post e k2 ?_
          rw [h1, List.append_assoc, ← k1]; exact hx
        · cases bs with
          | nil =>
            rw [List.append_nil] at k1
            refine g3 [] c post e (by simpa using k2.symm) ?_
            rw [h1, k1, List.append_nil]; exact hx
          | cons b' bs =>
            simp only [List.cons_append, List.cons.injEq] at k2
            obtain ⟨rfl, k3⟩ := k2
            have := (h2 pre c bs e k1 hx).2
            simp at this
      · intro e he
        have := g4 e he
        rw [h4 b rfl] at this
        exact this

/-- C151: whether the file is loaded or not: `filter_row` was asked about the first rows of the file, in their order; and if a method raises, no other call follows,
and its exception is raised by the assignment. -/
theorem C151_raises (h : SentHooks D) (data : SentData D) (rows : Rows) :
    filterCalls (hookAssign h data rows).2.2 <+: rows.1 ∧
    ∀ pre c post e, (hookAssign h data rows).2.2 = pre ++ c :: post → callRaised h pre c = some e →
      post = [] ∧ (hookAssign h data rows).2.1 = some e ∧ (hookAssign h data rows).1 = data := by
  obtain ⟨rows, fin⟩ := rows
  cases rows with
  | nil => exact ⟨by simp [hookAssign, hookLoad, filterCalls], (fun pre c post e hc => by simp [hookAssign, hookLoad] at hc)⟩
  | cons first rest =>
    unfold hookAssign hookLoad
    simp only
    by_cases hl : first.length = 3 ∨ first.length = 6
    · rw [if_pos hl]
      obtain ⟨cs, g1, g2, g3, -⟩ := hookRows_ends h (first :: rest) [] ⟨[], [], if first.length = 6 then some [] else none⟩
      match hq : hookRows h [] ⟨[], [], if first.length = 6 then some [] else none⟩ (first :: rest) with
      | (l, .error x) =>
        rw [hq] at g1 g3
        simp only [List.nil_append] at g1
        subst g1
        refine ⟨g2, ?_⟩
        intro pre c post e hc hx
        obtain ⟨k1, k2⟩ := g3 pre c post e hc (by simpa using hx)
        cases k2
        exact ⟨k1, rfl, rfl⟩
      | (l, .ok b) =>
        rw [hq] at g1 g3
        simp only [List.nil_append] at g1
        subst g1
        have no : ∀ pre c post e, l = pre ++ c :: post → callRaised h pre c = some e → False := by
          intro pre c post e hc hx
          obtain ⟨-, k2⟩ := g3 pre c post e hc (by simpa using hx)
          cases k2
        cases fin with
        | none => exact ⟨g2, fun pre c post e hc hx => (no pre c post e hc hx).elim⟩
        | some x => exact ⟨g2, fun pre c post e hc hx => (no pre c post e hc hx).elim⟩
    · rw [if_neg hl]
      exact ⟨by simp [filterCalls], (fun pre c post e hc => by simp at hc)⟩

/-- C151: if the assignment raises, the reader keeps what it had, and the reason is the last call of a method, or the row that `filter_row` let pass last, as it left
it, or the first row, or the file. -/
theorem C151_failure (h : SentHooks D) (data : SentData D) (rows : Rows) (e : PyErr) (he : (hookAssign h data rows).2.1 = some e) :
    (hookAssign h data rows).1 = data ∧
    ((∃ pre c, (hookAssign h data rows).2.2 = pre ++ [c] ∧ callRaised h pre c = some e) ∨
     (∃ pre row r, (hookAssign h data rows).2.2 = pre ++ [.filter row] ∧ h.filterRow pre row = .ok (false, r) ∧
        Spec.BadRow (decide ((rows.1.headD []).length = 6)) r ∧ e = .valueError) ∨
     ((hookAssign h data rows).2.2 = [] ∧ e = .invalidFileError ∧ rows.1 ≠ [] ∧ (rows.1.headD []).length ≠ 3 ∧ (rows.1.headD []).length ≠ 6) ∨
     (filterCalls (hookAssign h data rows).2.2 = rows.1 ∧ (rows.2 = some e ∨ rows.1 = [] ∧ rows.2 = none ∧ e = .stopIteration))) := by
  obtain ⟨rows, fin⟩ := rows
  cases rows with
  | nil =>
    simp only [hookAssign, hookLoad, Option.some.injEq] at he
    refine ⟨rfl, .inr (.inr (.inr ⟨rfl, ?_⟩))⟩
    cases fin with
    | none => exact .inr ⟨rfl, rfl, he.symm⟩
    | some x => exact .inl (congrArg some he)
  | cons first rest =>
    unfold hookAssign hookLoad at he ⊢
    simp only at he ⊢
    by_cases hl : first.length = 3 ∨ first.length = 6
    · rw [if_pos hl] at he ⊢
      obtain ⟨cs, g1, g2, g3, g4⟩ := hookRows_ends h (first :: rest) [] ⟨[], [], if first.length = 6 then some [] else none⟩
      match hq : hookRows h [] ⟨[], [], if first.length = 6 then some [] else none⟩ (first :: rest) with
      | (l, .error x) =>
        rw [hq] at he g4
        simp only [Option.some.injEq] at he
        subst he
        refine ⟨rfl, ?_⟩
        have hd : (if first.length = 6 then some ([] : Dict Int (Details D)) else none).isSome = decide (first.length = 6) := by
          by_cases h6 : first.length = 6 <;> simp [h6]
        rcases g4 x rfl with w | w
        · exact .inl w
        · refine .inr (.inl ?_)
          obtain ⟨pre, row, r, w1, w2, w3, w4⟩ := w
          rw [hd] at w3
          exact ⟨pre, row, r, w1, w2, w3, w4⟩
      | (l, .ok b) =>
        rw [hq] at he
        cases fin with
        | none => simp at he
        | some x =>
          simp only [Option.some.injEq] at he
          subst he
          refine ⟨rfl, .inr (.inr (.inr ⟨?_, .inl rfl⟩))⟩
          have hok : hookLoad h (first :: rest, none) = (l, .ok b) := by
            simp only [hookLoad, if_pos hl, hq]
          exact C151_filter_calls h (first :: rest, none) l b hok
    · rw [if_neg hl] at he ⊢
      simp only [Option.some.injEq] at he
      exact ⟨rfl, .inr (.inr (.inl ⟨rfl, he.symm, by simp, fun h3 => hl (.inl h3), fun h6 => hl (.inr h6)⟩))⟩

/-- C151: with the methods of the class itself this is the reader of C54 to C56. -/
theorem C151_default (strptime : Str → Except PyErr D) (languages : Option (List Str)) (rows : Rows) :
    (hookLoad (SentHooks.default strptime languages) rows).2 = sentLoad strptime languages rows := by
  have row1 : ∀ (log : List HookCall) (a : SentData D) (row : List Str),
      (hookRow (SentHooks.default strptime languages) log a row).2 = sentRow strptime languages a row := by
    intro log a row
    show (hookKept (SentHooks.default strptime languages) (log ++ [.filter row]) a row).2 = _
    unfold hookKept sentRow
    match row with
    | [] => rfl
    | [_] => rfl
    | [_, _] => rfl
    | l0 :: l1 :: l2 :: l3 =>
      have ht : (l0 :: l1 :: l2 :: l3).take 3 = [l0, l1, l2] := by simp
      simp only [ht]
      by_cases hw : langOk languages l1 = false
      · rw [if_pos hw, if_pos (show langOk ((SentHooks.default strptime languages).languages _) l1 = false from hw)]
      · rw [if_neg hw, if_neg (show ¬ langOk ((SentHooks.default strptime languages).languages _) l1 = false from hw)]
        cases pyInt 10 l0 with
        | error x => rfl
        | ok i =>
          simp only [sentDetails]
          cases a.info with
          | none => rfl
          | some info =>
            simp only [hookDetails, parseDetails, SentHooks.default]
            match l3 with
            | [] => rfl
            | [_] => rfl
            | [_, _] => rfl
            | u :: d1 :: d2 :: l6 =>
              have hd : ((l0 :: l1 :: l2 :: u :: d1 :: d2 :: l6).drop 3).take 3 = [u, d1, d2] := by simp
              simp only [hd]
              cases parseDate strptime d1 with
              | error x => rfl
              | ok x =>
                cases parseDate strptime d2 with
                | error y => rfl
                | ok y => rfl
  have all : ∀ (rows : List (List Str)) (log : List HookCall) (a : SentData D),
      (hookRows (SentHooks.default strptime languages) log a rows).2 = sentRows strptime languages a rows := by
    intro rows
    induction rows with
    | nil => intros; rfl
    | cons row rows ih =>
      intro log a
      have h1 := row1 log a row
      rw [hookRows, sentRows]
      match hq : hookRow (SentHooks.default strptime languages) log a row with
      | (l, .error x) => rw [hq] at h1; simp only at h1 ⊢; rw [← h1]
      | (l, .ok b) => rw [hq] at h1; simp only at h1 ⊢; rw [← h1]; exact ih l b
  obtain ⟨rows, fin⟩ := rows
  cases rows with
  | nil => rfl
  | cons first rest =>
    simp only [hookLoad, sentLoad]
    by_cases hl : first.length = 3 ∨ first.length = 6
    · rw [if_pos hl, if_pos hl]
      have h1 := all (first :: rest) [] ⟨[], [], if first.length = 6 then some [] else none⟩
      match hq : hookRows (SentHooks.default strptime languages) [] ⟨[], [], if first.length = 6 then some [] else none⟩ (first :: rest) with
      | (l, .error x) => rw [hq] at h1; simp only at h1 ⊢; rw [← h1]
      | (l, .ok b) => rw [hq] at h1; simp only at h1 ⊢; rw [← h1]; cases fin <;> rfl
    · rw [if_neg hl, if_neg hl]

/-- A reader that loads at most one sentence of each language and writes texts in a shorter form. -/
def firstOfEach : SentHooks Unit :=
  ⟨fun _ => none, fun log row => .ok (decide (row.getD 1 [] ∈ (filterCalls log).map (fun r => r.getD 1 [])), row.take 2 ++ [(row.getD 2 []).take 1] ++ row.drop 3),
    fun log _ => if log.length > 7 then .error .valueError else .ok (some ())⟩

def firstOfEachRows : List (List Str) :=
  [[u!"1", u!"eng", u!"abc", u!"bob", u!"\\N", u!"x"], [u!"2", u!"eng", u!"def", u!"bob", u!"y", u!"y"], [u!"3", u!"deu", u!"ghi", u!"\\N", u!"y", u!"z"]]

example : (hookLoad firstOfEach (firstOfEachRows, none)).1 =
    [.filter [u!"1", u!"eng", u!"abc", u!"bob", u!"\\N", u!"x"], .date u!"\\N", .date u!"x", .filter [u!"2", u!"eng", u!"def", u!"bob", u!"y", u!"y"],
      .filter [u!"3", u!"deu", u!"ghi", u!"\\N", u!"y", u!"z"], .date u!"y", .date u!"z"] := by decide +kernel

example : (hookLoad firstOfEach (firstOfEachRows, none)).2.toOption.map SentData.ids = some [1, 3] := by decide +kernel

example : (hookAssign firstOfEach ⟨[], [], none⟩ (firstOfEachRows ++ [[u!"4", u!"fra", u!"x", u!"x", u!"x", u!"x"]], none)).2.1 = some .valueError := by decide +kernel

end Cjk
