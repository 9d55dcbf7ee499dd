import Verif.Props.LinkOrder
/-!
# C123: filtering while loading is loading a filtered file

The readers of Tatoeba exports take a filter: languages for sentences, ids for links and indices.  The theorems compare the reader
with a filter on the whole file with the reader without filter on the file with only the rows that pass, exceptions included.  Rows
that do not pass must have the right form, because the reader looks at their columns before it drops them.
-/

namespace Cjk
open Py

namespace Spec

/-- The rows of a links file that pass. -/
def linkRowsPass (subset : Option (List Int)) (f : FilterName) (rows : List (List Str)) : List (List Str) :=
  rows.filter (fun r => match pairOf r with
    | some p => linkAccepted subset f p
    | none => false)

end Spec

/-! ### Sentences -/

theorem take_three {r : List Str} (h : 3 ≤ r.length) : ∃ a b c, r.take 3 = [a, b, c] ∧ Spec.rowLang r = b := by
  match r, h with
  | a :: b :: c :: rest, _ => exact ⟨a, b, c, rfl, rfl⟩

theorem sentRows_filter {D : Type} (strptime : Str → Except PyErr D) (languages : Option (List Str)) (rows : List (List Str))
    (h : ∀ r ∈ rows, 3 ≤ r.length) (a : SentData D) :
    sentRows strptime languages a rows = sentRows strptime none a (Spec.accepted languages rows) := by
  induction rows generalizing a with
  | nil => rfl
  | cons r rows ih =>
    obtain ⟨x, y, z, e1, e2⟩ := take_three (h r (List.mem_cons_self ..))
    have ih' := fun a => ih (fun r hr => h r (List.mem_cons_of_mem _ hr)) a
    unfold Spec.accepted at ih' ⊢
    cases languages with
    | none =>
      simp only [List.filter_cons, if_true, sentRows] at ih' ⊢
      cases sentRow strptime none a r with
      | error e => rfl
      | ok a' => exact ih' a'
    | some ls =>
      by_cases hy : y ∈ ls
      · have hrow : sentRow strptime (some ls) a r = sentRow strptime none a r := by
          simp only [sentRow, e1, langOk, hy, decide_true, Bool.true_eq_false, if_false]
        simp only [List.filter_cons, e2, hy, decide_true, if_true, sentRows, hrow] at ih' ⊢
        cases sentRow strptime none a r with
        | error e => rfl
        | ok a' => exact ih' a'
      · have hrow : sentRow strptime (some ls) a r = .ok a := by
          simp only [sentRow, e1, langOk, hy, decide_false, if_true]
        simp only [List.filter_cons, e2, hy, decide_false, Bool.false_eq_true, if_false, sentRows, hrow] at ih' ⊢
        exact ih' a

/-- C123: loading with a language filter is loading the rows of these languages, if some row passes; the exception of the file and
of rows that pass are the same. -/
theorem C123_sentences {D : Type} (strptime : Str → Except PyErr D) (languages : Option (List Str)) (rows : List (List Str))
    (e : Option PyErr) (n : Nat) (hn : ∀ r ∈ rows, r.length = n) (hne : Spec.accepted languages rows ≠ []) :
    sentLoad strptime languages (rows, e) = sentLoad strptime none (Spec.accepted languages rows, e) := by
  have sub : ∀ r ∈ Spec.accepted languages rows, r ∈ rows := fun r hr => (List.mem_filter.1 hr).1
  cases hr : rows with
  | nil => rw [hr] at hne; exact absurd rfl hne
  | cons first rest =>
    cases ha : Spec.accepted languages rows with
    | nil => exact absurd ha hne
    | cons first' rest' =>
      have h1 : first.length = n := hn first (by rw [hr]; simp)
      have h2 : first'.length = n := hn first' (sub first' (by rw [ha]; simp))
      rw [hr] at ha
      rw [ha]
      unfold sentLoad
      simp only [h1, h2]
      by_cases h3 : n = 3 ∨ n = 6
      · rw [if_pos h3, if_pos h3]
        have h4 := sentRows_filter strptime languages rows (fun r hr => by rw [hn r hr]; omega)
          ⟨[], [], if n = 6 then some [] else none⟩
        rw [hr, ha] at h4
        rw [h4]
      · rw [if_neg h3, if_neg h3]

/-- C123: if no row passes, the reader has no sentences; this is not the same as loading an empty file, which raises
`StopIteration`. -/
theorem C123_sentences_none {D : Type} (strptime : Str → Except PyErr D) (languages : Option (List Str)) (rows : List (List Str))
    (n : Nat) (hn : ∀ r ∈ rows, r.length = n) (h36 : n = 3 ∨ n = 6) (hne : rows ≠ []) (h0 : Spec.accepted languages rows = []) :
    (∃ a, sentLoad strptime languages (rows, none) = .ok a ∧ a.ids = [] ∧ ∀ i, a.sentence i = .error .invalidIDError ∧
      a.language i = .error .invalidIDError) ∧
    sentLoad strptime none (Spec.accepted languages rows, none) = .error .stopIteration := by
  constructor
  · cases hr : rows with
    | nil => exact absurd hr hne
    | cons first rest =>
      have h1 : first.length = n := hn first (by rw [hr]; simp)
      have h4 := sentRows_filter strptime languages rows (fun r hr => by rw [hn r hr]; omega)
        ⟨[], [], if n = 6 then some [] else none⟩
      rw [h0, hr] at h4
      refine ⟨⟨[], [], if n = 6 then some [] else none⟩, ?_, rfl, fun i => ⟨rfl, rfl⟩⟩
      unfold sentLoad
      simp only [h1, if_pos h36]
      rw [h4]
      rfl
  · rw [h0]; rfl

/-- C123: two language filters one after the other are their intersection. -/
theorem C123_languages_twice (l1 l2 : List Str) (rows : List (List Str)) :
    Spec.accepted (some l1) (Spec.accepted (some l2) rows) = Spec.accepted (some (l1.filter (fun x => x ∈ l2))) rows := by
  unfold Spec.accepted
  simp only [List.filter_filter]
  congr 1
  funext r
  by_cases h1 : Spec.rowLang r ∈ l1 <;> by_cases h2 : Spec.rowLang r ∈ l2 <;> simp [h1, h2]

/-! ### Links -/

theorem linkRows_filter (subset : Option (List Int)) (f : Bool × Bool) (fn : Spec.FilterName)
    (hf : ∀ p, linkSkip subset f p = !Spec.linkAccepted subset fn p) (rows : List (List Str))
    (h : ∀ r ∈ rows, ∃ p, Spec.pairOf r = some p) (d : LinkData) :
    linkRows subset f d rows = linkRows none (false, false) d (Spec.linkRowsPass subset fn rows) := by
  induction rows generalizing d with
  | nil => rfl
  | cons r rows ih =>
    obtain ⟨p, hp⟩ := h r (List.mem_cons_self ..)
    have ih' := fun d => ih (fun r hr => h r (List.mem_cons_of_mem _ hr)) d
    have hpair : linkPair r = .ok p := by
      match r, hp with
      | [a, b], hp =>
        simp only [Spec.pairOf] at hp
        unfold linkPair
        cases ha : pyInt 10 a with
        | error e => rw [ha] at hp; simp [Except.toOption] at hp
        | ok s =>
          cases hb : pyInt 10 b with
          | error e => rw [ha, hb] at hp; simp [Except.toOption] at hp
          | ok t =>
            rw [ha, hb] at hp
            simpa [Except.toOption, ha, hb] using hp
    unfold Spec.linkRowsPass at ih' ⊢
    simp only [linkRows, hpair, hf, List.filter_cons, hp]
    cases ha : Spec.linkAccepted subset fn p with
    | false => simp only [Bool.not_false, if_true, Bool.false_eq_true, if_false]; exact ih' d
    | true =>
      simp only [Bool.not_true, Bool.false_eq_true, if_false, if_true, linkRows, hpair]
      exact ih' _

/-- C123: loading links with a subset of sentences and a filter is loading the links that pass, if all rows are pairs of numbers. -/
theorem C123_links (src : Str) (rows : List (List Str)) (e : Option PyErr) (subset : Option (List Int)) (name : Str)
    (fn : Spec.FilterName) (hn : asciiLower name = fn.text) (h : ∀ r ∈ rows, ∃ p, Spec.pairOf r = some p) :
    (LinkReader.new src (rows, e) subset name).map LinkReader.data =
      (LinkReader.new src (Spec.linkRowsPass subset fn rows, e) none name).map LinkReader.data := by
  obtain ⟨f, h1, hf⟩ := linkFilter_eq subset name fn hn
  obtain ⟨f0, h0, _⟩ := linkFilter_eq none name fn hn
  have hf0 : f0 = (false, false) := by
    unfold linkFilter at h0
    simp only at h0
    split at h0
    · cases h0
    · simpa using h0.symm
  subst hf0
  unfold LinkReader.new linkLoad
  rw [h1, h0]
  simp only
  rw [linkRows_filter subset f fn hf rows h]
  cases linkRows none (false, false) ⟨[], [], 0⟩ (Spec.linkRowsPass subset fn rows) with
  | error x => rfl
  | ok d => cases e <;> rfl

/-! ### Indices -/

theorem indexRows_filter (edict : Option (Dict Str (List Str))) (subset : Option (List Int)) (rows : List (List Str))
    (h : ∀ r ∈ rows, ∃ a b t i m, r = [a, b, t] ∧ pyInt 10 a = .ok i ∧ pyInt 10 b = .ok m) (d : IndexData) :
    indexRows edict subset d rows = indexRows edict none d (Spec.indexAccepted subset rows) := by
  induction rows generalizing d with
  | nil => rfl
  | cons r rows ih =>
    obtain ⟨a, b, t, i, m, rfl, ha, hb⟩ := h r (List.mem_cons_self ..)
    have ih' := fun d => ih (fun r hr => h r (List.mem_cons_of_mem _ hr)) d
    have hid : Spec.rowId [a, b, t] = .ok i := ha
    unfold Spec.indexAccepted at ih' ⊢
    cases subset with
    | none =>
      simp only [List.filter_cons, if_true, indexRows] at ih' ⊢
      cases indexRow edict none d [a, b, t] with
      | error e => rfl
      | ok a' => exact ih' a'
    | some ids =>
      simp only [List.filter_cons, hid, indexRows] at ih' ⊢
      by_cases hi : i ∈ ids
      · have hrow : indexRow edict (some ids) d [a, b, t] = indexRow edict none d [a, b, t] := by
          simp only [indexRow, ha, hb, if_pos hi]
        simp only [hi, decide_true, if_true, indexRows, hrow]
        cases indexRow edict none d [a, b, t] with
        | error e => rfl
        | ok a' => exact ih' a'
      · have hrow : indexRow edict (some ids) d [a, b, t] = .ok d := by
          simp only [indexRow, ha, hb, if_neg hi]
        simp only [hi, decide_false, Bool.false_eq_true, if_false, hrow]
        exact ih' d

/-- C123: loading indices of a subset of sentences is loading the rows of these sentences, if every row has two numbers and a text. -/
theorem C123_indices (edict : Option (Dict Str (List Str))) (subset : Option (List Int)) (rows : List (List Str)) (e : Option PyErr)
    (h : ∀ r ∈ rows, ∃ a b t i m, r = [a, b, t] ∧ pyInt 10 a = .ok i ∧ pyInt 10 b = .ok m) :
    indexLoad edict subset (rows, e) = indexLoad edict none (Spec.indexAccepted subset rows, e) := by
  unfold indexLoad
  simp only
  rw [indexRows_filter edict subset rows h]

/-! ### Cases that meet the hypotheses -/

example : Spec.accepted (some [u!"jpn"]) [[u!"1", u!"eng", u!"Go."], [u!"2", u!"jpn", u!"行け。"]] = [[u!"2", u!"jpn", u!"行け。"]] ∧
    Spec.accepted (some [u!"fra"]) [[u!"1", u!"eng", u!"Go."], [u!"2", u!"jpn", u!"行け。"]] = [] := by decide +kernel

example : Spec.linkRowsPass (some [1, 2]) .both [[u!"1", u!"2"], [u!"1", u!"3"], [u!"4", u!"2"]] = [[u!"1", u!"2"]] ∧
    Spec.linkRowsPass (some [1, 2]) .sentId [[u!"1", u!"2"], [u!"1", u!"3"], [u!"4", u!"2"]] = [[u!"1", u!"2"], [u!"1", u!"3"]] ∧
    [[u!"1", u!"2"], [u!"1", u!"3"], [u!"4", u!"2"]].all (fun r => (Spec.pairOf r).isSome) = true := by decide +kernel

example : Spec.indexAccepted (some [4]) [[u!"2", u!"1", u!"(bad"], [u!"4", u!"3", u!"は"]] = [[u!"4", u!"3", u!"は"]] ∧
    pyInt 10 u!"2" = .ok 2 ∧ pyInt 10 u!"1" = .ok 1 := by decide +kernel

/-- A bad word in a row that does not pass is not read. -/
example : (match indexLoad none (some [4]) ([[u!"2", u!"1", u!"(bad"], [u!"4", u!"3", u!"は"]], none) with
    | .ok d => decide (Dict.keys d.sent = [4]) | .error _ => false) = true ∧
    (match indexLoad none none ([[u!"2", u!"1", u!"(bad"], [u!"4", u!"3", u!"は"]], none) with
    | .ok _ => false | .error _ => true) = true := by decide +kernel

end Cjk
