import Verif.Spec.TatoebaErrors
import Verif.Props.TatoebaLinks
import Verif.Props.TatoebaSentences
import Verif.Props.Tanaka
/-!
# The exceptions that reject a Tatoeba file (C98)
-/

namespace Cjk
open Py

theorem pyInt_error {b : Nat} {s : Str} {e : PyErr} (h : pyInt b s = .error e) : e = .valueError := by
  unfold pyInt at h
  simp only at h
  split at h
  · cases h
  · cases h; rfl

/-! ### Sentences -/

section
variable {D : Type} {strptime : Str → Except PyErr D} {languages : Option (List Str)}

theorem parseDate_error (hs : ∀ s e, strptime s = .error e → e = .valueError) {s : Str} {e : PyErr}
    (h : parseDate strptime s = .error e) : e = .valueError := by
  unfold parseDate at h
  split at h
  · cases h
  · split at h
    · rename_i h1; cases h; exact hs _ _ h1
    · cases h

theorem parseDetails_error (hs : ∀ s e, strptime s = .error e → e = .valueError) {r : List Str} {e : PyErr}
    (h : parseDetails strptime r = .error e) : e = .valueError := by
  unfold parseDetails at h
  split at h
  · rename_i u a m _
    cases ha : parseDate strptime a with
    | error x => rw [ha] at h; cases h; exact parseDate_error hs ha
    | ok x =>
      rw [ha] at h
      cases hm : parseDate strptime m with
      | error y => rw [hm] at h; cases h; exact parseDate_error hs hm
      | ok y => rw [hm] at h; cases h
  · cases h; rfl

theorem sentRow_error (hs : ∀ s e, strptime s = .error e → e = .valueError) {a : SentData D} {r : List Str} {e : PyErr}
    (h : sentRow strptime languages a r = .error e) : e = .valueError := by
  unfold sentRow at h
  split at h
  · split at h
    · cases h
    · split at h
      · rename_i h1; cases h; exact pyInt_error h1
      · unfold sentDetails at h
        split at h
        · cases h
        · split at h
          · rename_i h1; cases h; exact parseDetails_error hs h1
          · cases h
  · cases h; rfl

theorem sentRow_isSome {a a' : SentData D} {r : List Str} (h : sentRow strptime languages a r = .ok a') :
    a'.info.isSome = a.info.isSome := by
  rcases (sentRow_eq_ok.1 h).2 with ⟨_, rfl⟩ | ⟨_, i, _, rfl⟩
  · rfl
  · cases a.info <;> rfl

theorem sentRow_problem (hs : ∀ s e, strptime s = .error e → e = .valueError) (a : SentData D) (r : List Str) :
    (∀ e, sentRow strptime languages a r = .error e ↔ Spec.sentProblem strptime languages a.info.isSome r = some e) := by
  intro e
  unfold Spec.sentProblem
  cases h : sentRow strptime languages a r with
  | ok a' => rw [if_pos (sentRow_eq_ok.1 h).1]; simp
  | error e' =>
    have he := sentRow_error hs h
    subst he
    rw [if_neg]
    · simp
    · intro hok
      obtain ⟨a1, h1⟩ := sentRows_ok (a := a) (rows := [r]) (strptime := strptime) (languages := languages) (by simpa using hok)
      rw [sentRows, h] at h1
      cases h1

theorem sentRows_error (hs : ∀ s e, strptime s = .error e → e = .valueError) (rows : List (List Str)) : ∀ (a : SentData D) (e : PyErr),
    sentRows strptime languages a rows = .error e ↔ rows.findSome? (Spec.sentProblem strptime languages a.info.isSome) = some e := by
  induction rows with
  | nil => intro a e; simp [sentRows]
  | cons r rows ih =>
    intro a e
    rw [sentRows, List.findSome?_cons]
    cases h : sentRow strptime languages a r with
    | error e' => rw [(sentRow_problem hs a r e').1 h]; simp
    | ok a' =>
      have : Spec.sentProblem strptime languages a.info.isSome r = none := by
        cases hp : Spec.sentProblem strptime languages a.info.isSome r with
        | none => rfl
        | some e' => rw [(sentRow_problem hs a r e').2 hp] at h; cases h
      rw [this]
      simp only
      rw [ih a' e, sentRow_isSome h]

/-- C98: a sentence file is rejected with exactly the exception of its first problem: StopIteration when there is no row,
InvalidFileError when the first row has neither three nor six columns, else ValueError for the first bad row, else what ends the file. -/
theorem C98_sentences (hs : ∀ s e, strptime s = .error e → e = .valueError) (rows : Rows) (e : PyErr) :
    sentLoad strptime languages rows = .error e ↔
      (rows.1 = [] ∧ e = rows.2.getD .stopIteration) ∨
      ∃ first rest, rows.1 = first :: rest ∧
        ((first.length ≠ 3 ∧ first.length ≠ 6 ∧ e = .invalidFileError) ∨
          ((first.length = 3 ∨ first.length = 6) ∧
            Spec.firstProblem (Spec.sentProblem strptime languages (decide (first.length = 6))) rows = some e)) := by
  obtain ⟨rs, end_⟩ := rows
  unfold sentLoad Spec.firstProblem
  cases rs with
  | nil => simp [eq_comm]
  | cons first rest =>
    simp only [reduceCtorEq, false_and, false_or, List.cons.injEq]
    by_cases hl : first.length = 3 ∨ first.length = 6
    · rw [if_pos hl]
      have hinfo : (if first.length = 6 then some ([] : Dict Int (Details D)) else none).isSome = decide (first.length = 6) := by
        by_cases h6 : first.length = 6 <;> simp [h6]
      have key := sentRows_error (languages := languages) hs (first :: rest) ⟨[], [], if first.length = 6 then some [] else none⟩
      rw [hinfo] at key
      constructor
      · intro h
        refine ⟨first, rest, ⟨rfl, rfl⟩, Or.inr ⟨hl, ?_⟩⟩
        cases hr : sentRows strptime languages ⟨[], [], if first.length = 6 then some [] else none⟩ (first :: rest) with
        | error e' => rw [hr] at h; cases h; rw [(key e).1 hr]; rfl
        | ok a =>
          rw [hr] at h
          cases hf : (first :: rest).findSome? (Spec.sentProblem strptime languages (decide (first.length = 6))) with
          | some e' => rw [(key e').2 hf] at hr; cases hr
          | none => cases end_ <;> simp_all
      · rintro ⟨f, r, ⟨rfl, rfl⟩, ⟨h3, h6, _⟩ | ⟨_, h⟩⟩
        · omega
        · cases hf : (first :: rest).findSome? (Spec.sentProblem strptime languages (decide (first.length = 6))) with
          | some e' => rw [hf] at h; cases h; rw [(key e).2 hf]
          | none =>
            cases hr : sentRows strptime languages ⟨[], [], if first.length = 6 then some [] else none⟩ (first :: rest) with
            | error e' => rw [(key e').1 hr] at hf; cases hf
            | ok a => rw [hf] at h; simp at h; simp [h]
    · rw [if_neg hl]
      constructor
      · intro h; cases h; exact ⟨first, rest, ⟨rfl, rfl⟩, Or.inl ⟨by omega, by omega, rfl⟩⟩
      · rintro ⟨f, r, ⟨rfl, rfl⟩, ⟨_, _, rfl⟩ | ⟨h, _⟩⟩
        · rfl
        · exact absurd h hl

end

example : sentLoad (fun _ => .ok ()) none ([[u!"1", u!"eng", u!"Hi"], [u!"x", u!"eng", u!"Hi"], [u!"2"]], none) = .error .valueError :=
  by rfl
example : sentLoad (fun _ => .ok ()) none ([[u!"1", u!"eng"]], none) = .error .invalidFileError := by rfl

/-! ### Links -/

theorem linkPair_error {r : List Str} {e : PyErr} : linkPair r = .error e ↔ Spec.linkProblem r = some e := by
  unfold Spec.linkProblem
  cases h : linkPair r with
  | ok p => rw [linkPair_eq_ok.1 h]; simp
  | error e' =>
    have he : e' = .invalidFileError := by
      unfold linkPair at h
      split at h
      · split at h
        · cases h
        · cases h; rfl
      · cases h; rfl
    subst he
    cases hp : Spec.pairOf r with
    | some p => rw [linkPair_eq_ok.2 hp] at h; cases h
    | none => simp

theorem linkRows_error {subset : Option (List Int)} {f : Bool × Bool} (rows : List (List Str)) : ∀ (d : LinkData) (e : PyErr),
    linkRows subset f d rows = .error e ↔ rows.findSome? Spec.linkProblem = some e := by
  induction rows with
  | nil => intro d e; simp [linkRows]
  | cons r rows ih =>
    intro d e
    rw [linkRows, List.findSome?_cons]
    cases h : linkPair r with
    | error e' => rw [linkPair_error.1 h]; simp
    | ok p =>
      have : Spec.linkProblem r = none := by
        cases hp : Spec.linkProblem r with
        | none => rfl
        | some e' => rw [linkPair_error.2 hp] at h; cases h
      rw [this]
      exact ih _ e

theorem linkLoad_error {subset : Option (List Int)} {f : Bool × Bool} (rows : Rows) (e : PyErr) :
    linkLoad subset f rows = .error e ↔ Spec.firstProblem Spec.linkProblem rows = some e := by
  unfold linkLoad Spec.firstProblem
  cases h : linkRows subset f ⟨[], [], 0⟩ rows.1 with
  | error e' => rw [(linkRows_error _ _ _).1 h]; simp
  | ok d =>
    cases hf : rows.1.findSome? Spec.linkProblem with
    | some e' => rw [(linkRows_error _ _ _).2 hf] at h; cases h
    | none => cases rows.2 <;> simp

theorem linkFilter_error {subset : Option (List Int)} {name : Str} {e : PyErr} :
    linkFilter subset name = .error e ↔ (∀ fn : Spec.FilterName, asciiLower name ≠ fn.text) ∧ e = .valueError := by
  constructor
  · intro h
    refine ⟨?_, ?_⟩
    · intro fn hfn
      obtain ⟨f, hf, _⟩ := linkFilter_eq subset name fn hfn
      rw [hf] at h
      cases h
    · unfold linkFilter at h
      simp only at h
      split at h
      · cases h; rfl
      · cases h
  · rintro ⟨h, rfl⟩
    have h1 := h .sentId
    have h2 := h .transId
    have h3 := h .both
    simp only [Spec.FilterName.text] at h1 h2 h3
    unfold linkFilter
    simp [h1, h2, h3]

/-- C98: a links reader is rejected with exactly ValueError for an unknown filter name, else InvalidFileError for the first row that is
not a pair of numbers, else what ends the file. -/
theorem C98_links (src : Str) (rows : Rows) (subset : Option (List Int)) (name : Str) (e : PyErr) :
    LinkReader.new src rows subset name = .error e ↔
      ((∀ fn : Spec.FilterName, asciiLower name ≠ fn.text) ∧ e = .valueError) ∨
      ((∃ fn : Spec.FilterName, asciiLower name = fn.text) ∧ Spec.firstProblem Spec.linkProblem rows = some e) := by
  unfold LinkReader.new
  cases hf : linkFilter subset name with
  | error e' =>
    obtain ⟨h1, rfl⟩ := linkFilter_error.1 hf
    simp [h1, eq_comm]
  | ok f =>
    have h1 : ¬ ∀ fn : Spec.FilterName, asciiLower name ≠ fn.text := by
      intro h
      rw [linkFilter_error.2 ⟨h, rfl⟩] at hf
      cases hf
    have h2 : ∃ fn : Spec.FilterName, asciiLower name = fn.text := Classical.not_forall.1 h1 |>.imp fun _ h => Classical.not_not.1 h
    simp only [h1, false_and, false_or, h2, true_and]
    rw [← linkLoad_error (subset := subset) (f := f)]
    cases linkLoad subset f rows <;> simp

/-- C98: assigning a new links file to a reader raises exactly the first problem of the file. -/
theorem C98_links_assign (r : LinkReader) (src : Str) (rows : Rows) :
    (r.assign src rows).2 = Spec.firstProblem Spec.linkProblem rows := by
  unfold LinkReader.assign
  cases h : linkLoad r.subset r.filter rows with
  | error e => exact ((linkLoad_error rows e).1 h).symm
  | ok d =>
    cases hf : Spec.firstProblem Spec.linkProblem rows with
    | none => rfl
    | some e => rw [(linkLoad_error rows e).2 hf] at h; cases h

example : (LinkReader.new u!"f" ([[u!"1", u!"2"], [u!"1", u!"b"]], none) none u!"both").toOption.isNone ∧
    Spec.firstProblem Spec.linkProblem ([[u!"1", u!"2"], [u!"1", u!"b"]], none) = some .invalidFileError := by decide +kernel

/-! ### Indices -/

theorem first_eol_newline (c : Caps) : Re.eol.first [0x0a] c = some ([0x0a], c) := rfl

/-- A word followed by a newline, with something after the headword. -/
theorem wordRe_first_newline (w : Spec.WordParts) (h : w.Ok) (hne : brack 0x28 0x29 w.reading ++ (marked 0x7c w.legacy ++
      (brack 0x5b 0x5d w.sense ++ (brack 0x7b 0x7d w.display ++ exText w.isExample))) ≠ []) :
    wordRe.first (w.text ++ [0x0a]) [] = some ([0x0a], wordCaps w) := by
  obtain ⟨hh, hr, hl, hs, hd⟩ := h
  rw [wordParts_text, wordRe_eq]
  have nl : ∀ (s t : Str) (x : Nat), (s ++ t).head? = some x → s.head? = some x ∨ (s = [] ∧ t.head? = some x) := by
    intro s t x hx
    cases s with
    | nil => exact Or.inr ⟨rfl, hx⟩
    | cons a s => exact Or.inl hx
  have head5 : ∀ x, (([0x0a] : Str)).head? = some x → x = 0x0a := by intro x hx; simpa using hx.symm
  have head4 : ∀ x, (exText w.isExample ++ [0x0a]).head? = some x → x = 0x7e ∨ x = 0x0a := by
    intro x hx
    rcases nl _ _ _ hx with h | ⟨_, h⟩
    · exact Or.inl (ex_head _ x h)
    · exact Or.inr (head5 x h)
  have head3 : ∀ x, (brack 0x7b 0x7d w.display ++ (exText w.isExample ++ [0x0a])).head? = some x → x = 0x7b ∨ x = 0x7e ∨ x = 0x0a := by
    intro x hx
    rcases brack_head _ _ _ _ x hx with h | h
    · exact Or.inl h
    · exact Or.inr (head4 x h)
  have head2 : ∀ x, (brack 0x5b 0x5d w.sense ++ (brack 0x7b 0x7d w.display ++ (exText w.isExample ++ [0x0a]))).head? = some x →
      x = 0x5b ∨ x = 0x7b ∨ x = 0x7e ∨ x = 0x0a := by
    intro x hx
    rcases brack_head _ _ _ _ x hx with h | h
    · exact Or.inl h
    · exact Or.inr (head3 x h)
  have head1 : ∀ x, (marked 0x7c w.legacy ++ (brack 0x5b 0x5d w.sense ++ (brack 0x7b 0x7d w.display ++ (exText w.isExample ++ [0x0a])))).head? =
      some x → x = 0x7c ∨ x = 0x5b ∨ x = 0x7b ∨ x = 0x7e ∨ x = 0x0a := by
    intro x hx
    rcases marked_head _ _ _ x hx with h | h
    · exact Or.inl h
    · exact Or.inr (head2 x h)
  have head0 : ∀ x, (brack 0x28 0x29 w.reading ++ (marked 0x7c w.legacy ++ (brack 0x5b 0x5d w.sense ++ (brack 0x7b 0x7d w.display ++
      (exText w.isExample ++ [0x0a]))))).head? = some x → isHeadChr x = false := by
    intro x hx
    have hx' : (brack 0x28 0x29 w.reading ++ (marked 0x7c w.legacy ++ (brack 0x5b 0x5d w.sense ++ (brack 0x7b 0x7d w.display ++
      exText w.isExample)))).head? = some x := by
      have e : brack 0x28 0x29 w.reading ++ (marked 0x7c w.legacy ++ (brack 0x5b 0x5d w.sense ++ (brack 0x7b 0x7d w.display ++
        (exText w.isExample ++ [0x0a])))) = (brack 0x28 0x29 w.reading ++ (marked 0x7c w.legacy ++ (brack 0x5b 0x5d w.sense ++
          (brack 0x7b 0x7d w.display ++ exText w.isExample)))) ++ [0x0a] := by simp [List.append_assoc]
      rw [e] at hx
      rcases nl _ _ _ hx with h | ⟨h, _⟩
      · exact h
      · exact absurd h hne
    have : x = 0x28 ∨ x = 0x7c ∨ x = 0x5b ∨ x = 0x7b ∨ x = 0x7e := by
      rcases brack_head _ _ _ _ x hx' with h | h
      · exact Or.inl h
      rcases marked_head _ _ _ x h with h | h
      · exact Or.inr (Or.inl h)
      rcases brack_head _ _ _ _ x h with h | h
      · exact Or.inr (Or.inr (Or.inl h))
      rcases brack_head _ _ _ _ x h with h | h
      · exact Or.inr (Or.inr (Or.inr (Or.inl h)))
      · exact Or.inr (Or.inr (Or.inr (Or.inr (ex_head _ x h))))
    rcases this with rfl | rfl | rfl | rfl | rfl <;> rfl
  simp only [List.append_assoc]
  refine Re.first_seq (Re.first_group' (Re.first_plus w.headword _ [] hh.1 (fun x hx => (isHeadChr_iff x).2 (hh.2 x hx)) head0)) ?_
  refine Re.first_seq (Re.first_optBrack w.reading _ _ (by decide) (partOk_notChr hr) ?_) ?_
  · intro _ hx
    have := head1 _ hx
    omega
  refine Re.first_seq (Re.first_optMarked w.legacy _ _ hl ?_ ?_) ?_
  · intro _ hx
    have := head2 _ hx
    omega
  · intro x hx
    rcases head2 _ hx with rfl | rfl | rfl | rfl <;> decide +kernel
  refine Re.first_seq (Re.first_optBrack w.sense _ _ (by decide +kernel) hs ?_) ?_
  · intro _ hx
    have := head3 _ hx
    omega
  refine Re.first_seq (Re.first_optBrack w.display _ _ (by decide) (partOk_notChr hd) ?_) ?_
  · intro _ hx
    have := head4 _ hx
    omega
  unfold wordCaps
  cases w.isExample with
  | false =>
    refine Re.first_seq (s1 := [0x0a]) (c1 := capture u!"example" _ none) ?_ (first_eol_newline _)
    rfl
  | true =>
    refine Re.first_seq (s1 := [0x0a]) (c1 := capture u!"example" _ (some u!"~")) ?_ (first_eol_newline _)
    rfl

/-- A text can be read exactly when it is a word. -/
theorem fromText_isWord (s : Str) : (∃ v, Tanaka.fromText s = .ok v) ↔ Spec.IsWord s := by
  constructor
  · rintro ⟨v, h⟩
    obtain ⟨w, h1, h2, _⟩ := (C60_sound s).1 v h
    exact ⟨w, h1, h2⟩
  · rintro ⟨w, hok, rfl | rfl⟩
    · obtain ⟨sense, h, _⟩ := C60_parse w hok
      exact ⟨_, h⟩
    · by_cases hne : brack 0x28 0x29 w.reading ++ (marked 0x7c w.legacy ++
        (brack 0x5b 0x5d w.sense ++ (brack 0x7b 0x7d w.display ++ exText w.isExample))) = []
      · have ht : w.text ++ [0x0a] = (⟨w.headword ++ [0x0a], none, none, none, none, false⟩ : Spec.WordParts).text := by
          rw [wordParts_text, hne]
          simp [Spec.WordParts.text, Spec.inBrackets]
        obtain ⟨sense, h, _⟩ := C60_parse (⟨w.headword ++ [0x0a], none, none, none, none, false⟩ : Spec.WordParts)
          ⟨⟨by simp, by
            intro c hc
            rcases List.mem_append.1 hc with hc | hc
            · exact hok.1.2 c hc
            · have : c = 0x0a := by simpa using hc
              subst this; decide⟩, (by intro s hs; cases hs), (by intro s hs; cases hs), (by intro s hs; cases hs), (by intro s hs; cases hs)⟩
        exact ⟨_, by rw [ht]; exact h⟩
      · obtain ⟨sense, h, _⟩ := fromText_of_caps (wordRe_first_newline w hok hne) hok.2.2.2.1
        exact ⟨_, h⟩

theorem parseWords_problem (ws : List Str) (e : PyErr) :
    parseWords ws = .error e ↔ (∃ s ∈ ws, s ≠ [] ∧ ¬ Spec.IsWord s) ∧ e = .invalidEntryError := by
  induction ws with
  | nil => simp [parseWords]
  | cons w ws ih =>
    rw [parseWords]
    cases w with
    | nil => simp only [List.isEmpty_nil, if_true]; rw [ih]; simp
    | cons c w =>
      simp only [List.isEmpty_cons, Bool.false_eq_true, if_false]
      cases h : Tanaka.fromText (c :: w) with
      | error e' =>
        have he := (C60_sound _).2 _ h
        subst he
        have : ¬ Spec.IsWord (c :: w) := by
          rw [← fromText_isWord]
          rintro ⟨v, hv⟩
          rw [hv] at h
          cases h
        simp [this, eq_comm]
      | ok v =>
        have : Spec.IsWord (c :: w) := (fromText_isWord _).1 ⟨v, h⟩
        simp only [List.mem_cons, exists_eq_or_imp, this, not_true_eq_false, and_false, false_or]
        rw [← ih]
        cases parseWords ws <;> simp

theorem parseWords_sense {ws : List Str} : ∀ {vs : List Tanaka}, parseWords ws = .ok vs → ∀ v ∈ vs, ∀ i, v.sense = some i → 0 ≤ i := by
  induction ws with
  | nil => intro vs h; cases h; simp
  | cons w ws ih =>
    intro vs h
    rw [parseWords] at h
    split at h
    · exact ih h
    · split at h
      · cases h
      · rename_i x hx
        split at h
        · cases h
        · rename_i xs hxs
          cases h
          intro v hv
          rcases List.mem_cons.1 hv with rfl | hv
          · exact (wordOk_of_fromText hx).2.2.2
          · exact ih hxs v hv

section
variable {edict : Option (Dict Str (List Str))} {subset : Option (List Int)}

theorem indexEnter_error (hd : ∀ d, edict = some d → ∀ k rs, Dict.get? d k = some rs → rs ≠ []) (d : IndexData) (i m : Int) (text : Str)
    (e : PyErr) : indexEnter edict d i m text = .error e ↔
      (∃ s ∈ splitChr 0x20 text, s ≠ [] ∧ ¬ Spec.IsWord s) ∧ e = .invalidEntryError := by
  rw [← parseWords_problem]
  unfold indexEnter
  show (match parseWords (splitChr 0x20 text) with | .error e => _ | .ok ws => _) = _ ↔ _
  cases h : parseWords (splitChr 0x20 text) with
  | error e' => simp
  | ok ws =>
    obtain ⟨ws', hw⟩ : ∃ ws', adjustDetails edict ws = .ok ws' := by
      cases he : edict with
      | none => exact ⟨ws, rfl⟩
      | some dict => exact C63_total dict ws (hd dict he) (parseWords_sense h)
    simp [hw]

open Classical in
theorem indexRow_error (hd : ∀ d, edict = some d → ∀ k rs, Dict.get? d k = some rs → rs ≠ []) (d : IndexData) (r : List Str)
    (e : PyErr) : indexRow edict subset d r = .error e ↔ Spec.indexProblem subset r = some e := by
  unfold Spec.indexProblem
  match r with
  | [] => simp [indexRow, Spec.IndexIds]
  | [_] => simp [indexRow, Spec.IndexIds]
  | [_, _] => simp [indexRow, Spec.IndexIds]
  | _ :: _ :: _ :: _ :: _ => simp [indexRow, Spec.IndexIds]
  | [a, b, text] =>
    have g0 : ([a, b, text] : List Str).getD 0 [] = a := rfl
    have g1 : ([a, b, text] : List Str).getD 1 [] = b := rfl
    have g2 : ([a, b, text] : List Str).getD 2 [] = text := rfl
    simp only [indexRow]
    cases ha : pyInt 10 a with
    | error e' =>
      have := pyInt_error ha
      subst this
      rw [if_pos]
      · simp
      · rintro ⟨_, ⟨i, hi⟩, _⟩
        rw [g0, ha] at hi
        cases hi
    | ok i =>
      cases hb : pyInt 10 b with
      | error e' =>
        have := pyInt_error hb
        subst this
        rw [if_pos]
        · simp
        · rintro ⟨_, _, ⟨m, hm⟩⟩
          rw [g1, hb] at hm
          cases hm
      | ok m =>
        have hids : Spec.IndexIds [a, b, text] := ⟨rfl, ⟨i, ha⟩, ⟨m, hb⟩⟩
        rw [if_neg (not_not_intro hids)]
        have key := indexEnter_error hd d i m text e
        have fin : Spec.IndexWanted subset [a, b, text] → (indexEnter edict d i m text = .error e ↔
            (if Spec.IndexWanted subset [a, b, text] ∧ ∃ s ∈ splitChr 0x20 (([a, b, text] : List Str).getD 2 []), s ≠ [] ∧ ¬ Spec.IsWord s
              then some PyErr.invalidEntryError else none) = some e) := by
          intro hw
          rw [key]
          by_cases hQ : ∃ s ∈ splitChr 0x20 text, s ≠ [] ∧ ¬ Spec.IsWord s
          · rw [if_pos ⟨hw, hQ⟩]
            exact ⟨fun h => by rw [h.2], fun h => ⟨hQ, by cases h; rfl⟩⟩
          · rw [if_neg (fun h => hQ h.2)]
            exact ⟨fun h => absurd h.1 hQ, fun h => by cases h⟩
        cases subset with
        | none => exact fin (by intro ids h; cases h)
        | some ids =>
          simp only
          by_cases hi : i ∈ ids
          · rw [if_pos hi]
            exact fin (by rintro ids' ⟨⟩; exact ⟨i, hi, ha⟩)
          · rw [if_neg hi, if_neg]
            · simp
            · rintro ⟨h, _⟩
              obtain ⟨j, hj, h2⟩ := h ids rfl
              rw [g0, ha] at h2
              cases h2
              exact hi hj

theorem indexRows_error (hd : ∀ d, edict = some d → ∀ k rs, Dict.get? d k = some rs → rs ≠ []) (rows : List (List Str)) :
    ∀ (d : IndexData) (e : PyErr), indexRows edict subset d rows = .error e ↔ rows.findSome? (Spec.indexProblem subset) = some e := by
  induction rows with
  | nil => intro d e; simp [indexRows]
  | cons r rows ih =>
    intro d e
    rw [indexRows, List.findSome?_cons]
    cases h : indexRow edict subset d r with
    | error e' => rw [(indexRow_error hd d r e').1 h]; simp
    | ok d' =>
      have : Spec.indexProblem subset r = none := by
        cases hp : Spec.indexProblem subset r with
        | none => rfl
        | some e' => rw [(indexRow_error hd d r e').2 hp] at h; cases h
      rw [this]
      exact ih d' e

/-- C98: an index file is rejected with exactly ValueError for the first row that is not three columns with two numbers,
InvalidEntryError when the first bad row is a wanted one with a piece that is not a word, else what ends the file. -/
theorem C98_indices (hd : ∀ d, edict = some d → ∀ k rs, Dict.get? d k = some rs → rs ≠ []) (rows : Rows) (e : PyErr) :
    indexLoad edict subset rows = .error e ↔ Spec.firstProblem (Spec.indexProblem subset) rows = some e := by
  unfold indexLoad Spec.firstProblem
  cases h : indexRows edict subset ⟨[], []⟩ rows.1 with
  | error e' => rw [(indexRows_error hd _ _ _).1 h]; simp
  | ok d =>
    cases hf : rows.1.findSome? (Spec.indexProblem subset) with
    | some e' => rw [(indexRows_error hd _ _ _).2 hf] at h; cases h
    | none => cases rows.2 <;> simp

end

/-- Without a reading in the dictionary for a headword, the sense 0 ends in IndexError, so the hypothesis of `C98_indices` is needed. -/
theorem C98_indices_needs_readings :
    ∃ e, indexLoad (some [(u!"彼", [])]) none ([[u!"1", u!"7", u!"彼[00]"]], none) = .error e ∧ e = .indexError :=
  ⟨_, by rfl, rfl⟩

example : indexLoad (some [(u!"彼", [u!"かれ"])]) (some [1])
    ([[u!"1", u!"7", u!"彼 は~"], [u!"3", u!"7", u!"((("], [u!"1", u!"8", u!"彼("]], none) |>.toOption.isNone := by decide +kernel

end Cjk
