import Verif.Spec.DictFormat
import Verif.Props.BilingualDict
import Verif.Lemmas.Alternations
/-!
# C30, C33, C34: parsing whole dictionaries
-/

namespace Cjk
open Py

/-! ### C30 -/

theorem dedup_append_singleton {α : Type} [DecidableEq α] (l : List α) (x : α) :
    dedup (l ++ [x]) = if x ∈ l then dedup l else dedup l ++ [x] := by
  induction l with
  | nil => simp [dedup]
  | cons a l ih =>
    simp only [List.cons_append, dedup, ih, List.mem_cons]
    by_cases hx : x ∈ l
    · simp [hx]
    · by_cases hxa : x = a
      · subst hxa; simp [hx]
      · simp [hx, hxa]

theorem Spec.readingsPerSense_eq (e : Entry) : Spec.readingsPerSense e = e.padded := by
  unfold Spec.readingsPerSense Entry.padded
  cases h : e.readings with
  | nil => simp
  | cons r rs =>
    cases rs with
    | nil => simp [repeatList_singleton]
    | cons r' rs => simp

/-- Entries with as many readings as senses are not padded further. -/
theorem Entry.padded_of_eq {e : Entry} (h : e.readings.length = e.senses.length) : e.padded = e.readings := by
  unfold Entry.padded
  split
  · rename_i h1; rw [← h, h1]; simp [repeatList]
  · rfl

theorem Spec.merged_word {es : List Entry} {w : Str} {e : Entry} (h : Spec.merged es w = some e) : e.word = w := by
  unfold Spec.merged at h
  split at h
  · cases h
  · rename_i x hx
    cases h
    have : e ∈ es.filter (fun e => e.word = w) := by rw [hx]; simp
    simpa using (List.mem_filter.1 this).2
  · cases h; rfl

theorem Spec.merged_senses {es : List Entry} {w : Str} {e : Entry} (h : Spec.merged es w = some e) :
    e.senses = (es.filter (fun e => e.word = w)).flatMap Entry.senses := by
  unfold Spec.merged at h
  split at h
  · cases h
  · rename_i x hx; cases h; rw [hx]; simp
  · cases h; rfl

theorem flatMap_padded_length (l : List Entry) (hal : ∀ e ∈ l, Spec.Aligned e) :
    (l.flatMap Entry.padded).length = (l.flatMap Entry.senses).length := by
  induction l with
  | nil => rfl
  | cons e l ih =>
    simp only [List.flatMap_cons, List.length_append, Entry.padded_length (hal e (by simp)),
      ih (fun x hx => hal x (by simp [hx]))]

theorem Spec.merged_padded {es : List Entry} (hal : ∀ e ∈ es, Spec.Aligned e) {w : Str} {e : Entry}
    (h : Spec.merged es w = some e) : e.padded = (es.filter (fun e => e.word = w)).flatMap Entry.padded := by
  unfold Spec.merged at h
  split at h
  · cases h
  · rename_i x hx; cases h; rw [hx]; simp
  · cases h
    have hfun : (Spec.readingsPerSense) = Entry.padded := funext Spec.readingsPerSense_eq
    simp only [hfun]
    rw [Entry.padded_of_eq]
    exact flatMap_padded_length _ (fun x hx => hal x (List.mem_of_mem_filter hx))

/-- The state of the loop after the entries `es`. -/
def LoopInv (b : Dict Str Entry) (es : List Entry) : Prop :=
  Dict.keys b = dedup (es.map Entry.word) ∧ ∀ w, Dict.get? b w = Spec.merged es w

theorem Spec.merged_eq_none {es : List Entry} {w : Str} : Spec.merged es w = none ↔ ∀ e ∈ es, e.word ≠ w := by
  unfold Spec.merged
  split
  · rename_i h
    simp only [true_iff]
    intro e he hw
    have : e ∈ es.filter (fun e => e.word = w) := List.mem_filter.2 ⟨he, by simp [hw]⟩
    rw [h] at this; simp at this
  · rename_i x hx
    have : x ∈ es.filter (fun e => e.word = w) := by rw [hx]; simp
    rw [List.mem_filter] at this
    simp only [reduceCtorEq, false_iff]
    intro h; exact h x this.1 (by simpa using this.2)
  · rename_i h0 h1
    simp only [reduceCtorEq, false_iff]
    intro h
    refine h0 ?_
    rw [List.filter_eq_nil_iff]
    intro e he
    simpa using h e he

theorem merged_append_other {es : List Entry} {e : Entry} {w : Str} (h : e.word ≠ w) :
    Spec.merged (es ++ [e]) w = Spec.merged es w := by
  unfold Spec.merged
  rw [List.filter_append]
  simp [h]

theorem addEntry_inv {b : Dict Str Entry} {es : List Entry} (hal : ∀ x ∈ es, Spec.Aligned x) (h : LoopInv b es)
    (e : Entry) : ∃ b', addEntry b e = .ok b' ∧ LoopInv b' (es ++ [e]) := by
  obtain ⟨hk, hg⟩ := h
  unfold addEntry
  cases hold : Dict.get? b e.word with
  | none =>
    have hnone := Spec.merged_eq_none.1 ((hg e.word).symm.trans hold)
    have hnotin : e.word ∉ es.map Entry.word := by
      intro hm
      obtain ⟨x, hx, hxw⟩ := List.mem_map.1 hm
      exact hnone x hx hxw
    refine ⟨_, rfl, ?_, ?_⟩
    · rw [Dict.set_of_not_mem _ _ _ ((Dict.get?_eq_none_iff _ _).1 hold), List.map_append]
      simp only [List.map_cons, List.map_nil]
      rw [dedup_append_singleton, if_neg hnotin, ← hk]
      simp [Dict.keys]
    · intro w
      rw [Dict.get?_set]
      by_cases hw : e.word = w
      · rw [if_pos hw]
        unfold Spec.merged
        have : es.filter (fun e => e.word = w) = [] := by
          rw [List.filter_eq_nil_iff]
          intro x hx
          have := hnone x hx
          rw [hw] at this
          simpa using this
        rw [List.filter_append, this]
        simp [hw]
      · rw [if_neg hw, hg, merged_append_other hw]
  | some old =>
    have hm : Spec.merged es e.word = some old := (hg e.word).symm.trans hold
    have hword := Spec.merged_word hm
    have hu : old.update e = .ok (⟨old.word, old.padded ++ e.padded, old.senses ++ e.senses⟩, ⟨e.word, e.padded, e.senses⟩) := by
      simp [Entry.update, hword]
    simp only [hu]
    have hin : e.word ∈ Dict.keys b := by
      rw [← Dict.get?_isSome_iff, hold]; rfl
    refine ⟨_, rfl, ?_, ?_⟩
    · rw [Dict.keys_set, if_pos hin, List.map_append]
      simp only [List.map_cons, List.map_nil]
      rw [dedup_append_singleton, if_pos (by rw [← mem_dedup, ← hk]; exact hin), ← hk]
    · intro w
      rw [Dict.get?_set]
      by_cases hw : e.word = w
      · rw [if_pos hw]
        rw [hw] at hm hword
        have hne : es.filter (fun e => e.word = w) ≠ [] := by
          intro h0
          unfold Spec.merged at hm
          rw [h0] at hm; cases hm
        have hrhs : Spec.merged (es ++ [e]) w = some ⟨w, (es.filter (fun e => e.word = w)).flatMap Entry.padded ++ e.padded,
            (es.filter (fun e => e.word = w)).flatMap Entry.senses ++ e.senses⟩ := by
          unfold Spec.merged
          have hfun : (Spec.readingsPerSense) = Entry.padded := funext Spec.readingsPerSense_eq
          rw [List.filter_append]
          have he : [e].filter (fun e => e.word = w) = [e] := by simp [hw]
          rw [he, hfun]
          cases hf : es.filter (fun e => e.word = w) with
          | nil => exact absurd hf hne
          | cons x xs =>
            cases xs with
            | nil => simp
            | cons y ys => simp
        rw [hrhs, ← Spec.merged_senses hm, ← Spec.merged_padded hal hm, hword]
      · rw [if_neg hw, hg, merged_append_other hw]

theorem parseLoop_inv (parse : Str → Except PyErr Entry) (hparse : ∀ l e, parse l = .ok e → Spec.Aligned e)
    (lines : List Str) (b : Dict Str Entry) (es : List Entry) (hal : ∀ x ∈ es, Spec.Aligned x) (h : LoopInv b es) :
    match mapE parse lines with
    | .ok es' => ∃ d, parseLoop parse b lines = .ok d ∧ LoopInv d (es ++ es')
    | .error x => parseLoop parse b lines = .error x := by
  induction lines generalizing b es with
  | nil => simp only [mapE, parseLoop, List.append_nil]; exact ⟨b, rfl, h⟩
  | cons l ls ih =>
    simp only [mapE, parseLoop]
    cases hp : parse l with
    | error x => rfl
    | ok e =>
      obtain ⟨b', hb', hinv⟩ := addEntry_inv hal h e
      have hal' : ∀ x ∈ es ++ [e], Spec.Aligned x := by
        intro x hx
        rcases List.mem_append.1 hx with hx | hx
        · exact hal x hx
        · rw [List.mem_singleton] at hx; subst hx; exact hparse _ _ hp
      have := ih b' (es ++ [e]) hal' hinv
      have hred : (do let e ← Except.ok (ε := PyErr) e; let b' ← addEntry b e; parseLoop parse b' ls) = parseLoop parse b' ls := by
        show (do let b' ← addEntry b e; parseLoop parse b' ls) = _
        rw [hb']; rfl
      rw [hred]
      cases hm : mapE parse ls with
      | error x => rw [hm] at this; exact this
      | ok es' =>
        rw [hm] at this
        obtain ⟨d, hd, hi⟩ := this
        exact ⟨d, hd, by simpa using hi⟩

theorem loopInv_nil : LoopInv [] [] := ⟨rfl, fun _ => rfl⟩

/-- C30: the dictionary of a file whose lines all parse (`parse` may be the line parser of any format,
as long as its entries are built by the constructor): keys in order of first appearance, each with its
lines merged in file order. -/
theorem C30_merge (parse : Str → Except PyErr Entry) (hparse : ∀ l e, parse l = .ok e → Spec.Aligned e)
    (lines : List Str) (es : List Entry) (h : mapE parse lines = .ok es) :
    ∃ d, parseDictionary parse lines = .ok d ∧ Dict.keys d = dedup (es.map Entry.word) ∧
      ∀ w, Dict.get? d w = Spec.merged es w := by
  have := parseLoop_inv parse hparse lines [] [] (by simp) loopInv_nil
  rw [h] at this
  obtain ⟨d, hd, hk, hg⟩ := this
  exact ⟨d, hd, by simpa using hk, by simpa using hg⟩

/-- C30: for every word of the file, the senses are those of its lines, in file order, and there is
one reading per sense unless the word has a single line. -/
theorem C30_senses (parse : Str → Except PyErr Entry) (hparse : ∀ l e, parse l = .ok e → Spec.Aligned e)
    (lines : List Str) (es : List Entry) (h : mapE parse lines = .ok es) (w : Str) (hw : w ∈ es.map Entry.word) :
    ∃ d e, parseDictionary parse lines = .ok d ∧ Dict.get? d w = some e ∧ e.word = w ∧
      e.senses = (es.filter (fun e => e.word = w)).flatMap Entry.senses ∧
      Spec.pairs e = (es.filter (fun e => e.word = w)).flatMap Spec.pairs := by
  obtain ⟨d, hd, _, hg⟩ := C30_merge parse hparse lines es h
  cases hm : Spec.merged es w with
  | none =>
    obtain ⟨x, hx, hxw⟩ := List.mem_map.1 hw
    exact absurd hxw (Spec.merged_eq_none.1 hm x hx)
  | some e =>
    have hal : ∀ x ∈ es, Spec.Aligned x := by
      intro x hx
      obtain ⟨hl, hi⟩ := mapE_ok_iff.1 h
      obtain ⟨i, hlt, rfl⟩ := List.getElem_of_mem hx
      obtain ⟨b, hb, hp⟩ := hi i (by omega)
      rw [List.getElem?_eq_getElem hlt] at hb
      cases hb
      exact hparse _ _ hp
    refine ⟨d, e, hd, (hg w).trans hm, Spec.merged_word hm, Spec.merged_senses hm, ?_⟩
    rw [Spec.pairs_eq_zip, Spec.merged_padded hal hm, Spec.merged_senses hm]
    have hal' : ∀ x ∈ es.filter (fun e => e.word = w), Spec.Aligned x := fun x hx => hal x (List.mem_of_mem_filter hx)
    generalize es.filter (fun e => e.word = w) = l at hal'
    clear hm
    induction l with
    | nil => rfl
    | cons x l ih =>
      simp only [List.flatMap_cons]
      rw [List.zip_append (Entry.padded_length (hal' x (by simp))), ih (fun y hy => hal' y (by simp [hy])),
        Spec.pairs_eq_zip]

/-- C30: the parse fails exactly when some line does, with the error of the first such line. -/
theorem C30_error (parse : Str → Except PyErr Entry) (hparse : ∀ l e, parse l = .ok e → Spec.Aligned e)
    (lines : List Str) (x : PyErr) :
    parseDictionary parse lines = .error x ↔
      ∃ pre l post, lines = pre ++ l :: post ∧ parse l = .error x ∧ ∀ y ∈ pre, ∃ e, parse y = .ok e := by
  rw [← mapE_error_iff]
  have := parseLoop_inv parse hparse lines [] [] (by simp) loopInv_nil
  unfold parseDictionary
  cases hm : mapE parse lines with
  | ok es =>
    rw [hm] at this
    obtain ⟨d, hd, _⟩ := this
    rw [hd]; simp
  | error y => rw [hm] at this; simp only at this; rw [this]; simp

/-- C30: `iter_entries` yields the entries of the lines one by one and ends with the error of the
first line that does not parse. -/
theorem C30_iter (parse : Str → Except PyErr Entry) (lines : List Str) :
    (∀ es, mapE parse lines = .ok es → iterEntries parse lines = (es, none)) ∧
    (∀ pre l post es x, lines = pre ++ l :: post → mapE parse pre = .ok es → parse l = .error x →
      iterEntries parse lines = (es, some x)) := by
  constructor
  · induction lines with
    | nil => intro es h; cases h; rfl
    | cons l ls ih =>
      intro es h
      simp only [mapE] at h
      cases hp : parse l with
      | error x => rw [hp] at h; cases h
      | ok e =>
        rw [hp] at h
        cases hm : mapE parse ls with
        | error x => rw [hm] at h; cases h
        | ok es' =>
          rw [hm] at h; cases h
          simp only [iterEntries, hp, ih es' hm]
  · intro pre
    induction pre generalizing lines with
    | nil =>
      intro l post es x hl hm hp
      cases hm
      subst hl
      simp [iterEntries, hp]
    | cons y pre ih =>
      intro l post es x hl hm hp
      subst hl
      simp only [mapE] at hm
      cases hy : parse y with
      | error x => rw [hy] at hm; cases hm
      | ok e =>
        rw [hy] at hm
        cases hm' : mapE parse pre with
        | error x => rw [hm'] at hm; cases hm
        | ok es' =>
          rw [hm'] at hm; cases hm
          simp only [List.cons_append, iterEntries, hy, ih (pre ++ l :: post) l post es' x rfl hm' hp]

/-! ### Lines of the known formats -/

/-- C31 (all formats): a parsed entry has exactly one reading and at least one sense. -/
theorem C31_never_empty (f : RegexFormat) (s : Str) (e : Entry) (h : f.parseLine s = .ok e) :
    e.senses ≠ [] ∧ e.readings.length = 1 := by
  unfold RegexFormat.parseLine at h
  split at h
  · cases h
  · split at h
    · cases h
    · simp only at h
      split at h
      · cases h
      · simp only [Entry.new, List.length_singleton, true_or, if_true] at h
        split at h
        · cases h
        · rename_i hne
          cases h
          exact ⟨by simpa using hne, rfl⟩

theorem parseLine_aligned (f : RegexFormat) (s : Str) (e : Entry) (h : f.parseLine s = .ok e) : Spec.Aligned e :=
  Or.inl (C31_never_empty f s e h).2

theorem pyMatch_binds {r : Re} {n : Str} (h : Re.Binds n r) {s : Str} {caps : Caps} (hm : r.pyMatch s = some caps) :
    (Dict.get? caps n).isSome := by
  unfold Re.pyMatch at hm
  cases hf : r.first s [] with
  | none => rw [hf] at hm; cases hm
  | some x =>
    rw [hf] at hm; cases hm
    exact Re.run_binds n r h s [] x (Re.first_mem hf)

theorem known_binds (f : RegexFormat) (hf : f ∈ knownFormats) : Re.Binds u!"word" f.line ∧ Re.Binds u!"senses" f.line := by
  simp only [knownFormats, List.mem_cons, List.not_mem_nil, or_false] at hf
  rcases hf with rfl | rfl | rfl | rfl
  · exact ⟨Or.inl (Or.inl rfl), Or.inr (Or.inr (Or.inr (Or.inl (Or.inl rfl))))⟩
  · exact ⟨Or.inl (Or.inl rfl), Or.inr (Or.inr (Or.inr (Or.inr (Or.inl (Or.inl rfl)))))⟩
  · exact ⟨Or.inl (Or.inl rfl), Or.inr (Or.inr (Or.inr (Or.inr (Or.inl (Or.inl rfl)))))⟩
  · exact ⟨Or.inr (Or.inr (Or.inl (Or.inl rfl))), Or.inr (Or.inr (Or.inr (Or.inr (Or.inr (Or.inl rfl)))))⟩

/-- A line of a known format parses or raises FormatError. -/
theorem parseLine_error (f : RegexFormat) (hf : f ∈ knownFormats) (s : Str) (x : PyErr)
    (h : f.parseLine s = .error x) : x = .formatError := by
  obtain ⟨hb1, hb2⟩ := known_binds f hf
  unfold RegexFormat.parseLine at h
  split at h
  · cases h; rfl
  · rename_i caps hm
    have h1 := pyMatch_binds hb1 hm
    have h2 := pyMatch_binds hb2 hm
    split at h
    · rename_i hw; rw [hw] at h1; cases h1
    · simp only at h
      split at h
      · rename_i hs; rw [hs] at h2; cases h2
      · simp only [Entry.new, List.length_singleton, true_or, if_true] at h
        split at h
        · cases h; rfl
        · cases h

/-! ### C33 -/

theorem run_eol (s : Str) (c : Caps) : Re.eol.run s c ≠ [] ↔ ∃ nl, s = Spec.eol nl := by
  simp only [Re.run, Spec.eol]
  constructor
  · intro h
    split at h
    · rename_i h1
      rcases h1 with rfl | rfl
      · exact ⟨false, rfl⟩
      · exact ⟨true, rfl⟩
    · exact absurd rfl h
  · rintro ⟨nl, rfl⟩
    cases nl <;> simp

/-- Some match exists. -/
theorem pyMatch_isSome (r : Re) (s : Str) : (r.pyMatch s).isSome = true ↔ r.run s [] ≠ [] := by
  unfold Re.pyMatch Re.first
  cases r.run s [] <;> simp

theorem run_lit_seq (l : Str) (b : Re) (s : Str) (c : Caps) :
    (Re.seq (Re.lit l) b).run s c ≠ [] ↔ ∃ t, s = l ++ t ∧ b.run t c ≠ [] := by
  simp only [Re.run, Re.run_lit]
  by_cases h : l.isPrefixOf s = true
  · rw [if_pos h]
    obtain ⟨t, rfl⟩ := List.isPrefixOf_iff_prefix.1 h
    simp
  · rw [if_neg h]
    simp only [List.flatMap_nil, ne_eq, not_true_eq_false, false_iff]
    rintro ⟨t, rfl, _⟩
    exact h (List.isPrefixOf_iff_prefix.2 (List.prefix_append _ _))

theorem run_many_eol (s : Str) (c : Caps) : (Re.seq (.many Re.dot) .eol).run s c ≠ [] ↔ Spec.OneLine s := by
  unfold Spec.OneLine
  simp only [Re.run, ne_eq, List.flatMap_eq_nil_iff, List.mem_map, forall_exists_index, and_imp]
  constructor
  · intro h
    apply Classical.byContradiction
    intro hno
    apply h
    rintro _ t ht rfl
    apply Classical.byContradiction
    intro hne
    obtain ⟨u, rfl, hu⟩ := (Re.manySplits_mem s t).1 ht
    have := (run_eol t c).1 hne
    obtain ⟨nl, rfl⟩ := this
    refine hno ⟨u, nl, rfl, ?_⟩
    intro hm
    have := hu _ hm
    simp [Re.dot] at this
  · rintro ⟨t, nl, rfl, ht⟩ h
    have := h _ (Spec.eol nl) ((Re.manySplits_mem _ _).2 ⟨t, rfl, fun x hx => ?_⟩) rfl
    · exact (run_eol (Spec.eol nl) c).2 ⟨nl, rfl⟩ this
    · simp only [Re.dot, bne_iff_ne, ne_eq]
      rintro rfl; exact ht hx

/-- The header patterns say what the specification says. -/
theorem matchHeader_iff (f : RegexFormat) (hf : f ∈ knownFormats) (s : Str) :
    f.matchHeader s = true ↔ Spec.isHeader f.name s := by
  have hneq : u!"edict" ≠ u!"jc_kdic" ∧ u!"edict" ≠ u!"cj_kdic" ∧ u!"edict" ≠ u!"cedict" ∧
      u!"jc_kdic" ≠ u!"cj_kdic" ∧ u!"jc_kdic" ≠ u!"cedict" ∧ u!"cj_kdic" ≠ u!"cedict" := by decide
  obtain ⟨n1, n2, n3, n4, n5, n6⟩ := hneq
  unfold RegexFormat.matchHeader Spec.isHeader
  rw [pyMatch_isSome]
  simp only [knownFormats, List.mem_cons, List.not_mem_nil, or_false] at hf
  rcases hf with rfl | rfl | rfl | rfl
  · simp only [edict, n1, n2, n3, false_and, or_false, true_and]
    show (Re.seq (.chr Re.dot) (.seq (Re.lit u!"？？？") (.seq (.many Re.dot) .eol))).run s [] ≠ [] ↔ _
    cases s with
    | nil => simp [Re.run]
    | cons x s =>
      by_cases hx : x = 0x0a
      · subst hx
        simp only [Re.run, Re.dot]
        constructor
        · intro h; exact absurd rfl h
        · rintro ⟨c, t, h, hc, _⟩; simp only [List.cons_append, List.cons.injEq] at h; exact absurd h.1.symm hc
      · have : (Re.seq (.chr Re.dot) (.seq (Re.lit u!"？？？") (.seq (.many Re.dot) .eol))).run (x :: s) [] =
            (Re.seq (Re.lit u!"？？？") (.seq (.many Re.dot) .eol)).run s [] := by
          rw [Re.run, Re.run]
          simp [Re.dot, hx]
        rw [this, run_lit_seq]
        constructor
        · rintro ⟨t, rfl, ht⟩; exact ⟨x, t, rfl, hx, (run_many_eol _ _).1 ht⟩
        · rintro ⟨c, t, h, hc, ht⟩
          simp only [List.cons_append, List.cons.injEq] at h
          obtain ⟨rfl, rfl⟩ := h
          exact ⟨t, rfl, (run_many_eol _ _).2 ht⟩
  · simp only [jcKdic, n1.symm, n4, n5, false_and, or_false, true_and, false_or]
    show (Re.seq (Re.lit u!"FORMAT jc_kdic") .eol).run s [] ≠ [] ↔ _
    rw [run_lit_seq]
    constructor
    · rintro ⟨t, rfl, ht⟩; obtain ⟨nl, rfl⟩ := (run_eol _ _).1 ht; exact ⟨nl, rfl⟩
    · rintro ⟨nl, rfl⟩; exact ⟨_, rfl, (run_eol _ _).2 ⟨nl, rfl⟩⟩
  · simp only [cjKdic, n2.symm, n4.symm, n6, false_and, or_false, true_and, false_or]
    show (Re.seq (Re.lit u!"FORMAT cj_kdic") .eol).run s [] ≠ [] ↔ _
    rw [run_lit_seq]
    constructor
    · rintro ⟨t, rfl, ht⟩; obtain ⟨nl, rfl⟩ := (run_eol _ _).1 ht; exact ⟨nl, rfl⟩
    · rintro ⟨nl, rfl⟩; exact ⟨_, rfl, (run_eol _ _).2 ⟨nl, rfl⟩⟩
  · simp only [cedict, n3.symm, n5.symm, n6.symm, false_and, true_and, false_or]
    show (Re.seq (Re.lit u!"# CEDICT") (.seq (.many Re.dot) .eol)).run s [] ≠ [] ↔ _
    rw [run_lit_seq]
    constructor
    · rintro ⟨t, rfl, ht⟩; exact ⟨t, rfl, (run_many_eol _ _).1 ht⟩
    · rintro ⟨t, rfl, ht⟩; exact ⟨t, rfl, (run_many_eol _ _).2 ht⟩

/-- The specification does not assign two formats to a line. -/
theorem Spec.isHeader_unique {n m s : Str} (hn : Spec.isHeader n s) (hm : Spec.isHeader m s) : n = m := by
  have hcs : ∀ (c : Chr) (t : Str), (c :: u!"？？？" ++ t)[1]? = some c!"？" := fun c t => rfl
  have hf1 : ∀ t, (u!"FORMAT jc_kdic" ++ t)[1]? = some 0x4f := fun t => rfl
  have hf2 : ∀ t, (u!"FORMAT cj_kdic" ++ t)[1]? = some 0x4f := fun t => rfl
  have hg1 : ∀ t, (u!"FORMAT jc_kdic" ++ t)[7]? = some 0x6a := fun t => rfl
  have hg2 : ∀ t, (u!"FORMAT cj_kdic" ++ t)[7]? = some 0x63 := fun t => rfl
  have hc : ∀ t, (u!"# CEDICT" ++ t)[1]? = some 0x20 := fun t => rfl
  have key : ∀ {a b : Option Nat} {x y : Nat}, a = some x → b = some y → a = b → x = y := by
    intro a b x y h1 h2 h3; rw [h1, h2] at h3; exact Option.some.inj h3
  rcases hn with ⟨rfl, c, t, h1, _⟩ | ⟨rfl, nl, h1⟩ | ⟨rfl, nl, h1⟩ | ⟨rfl, t, h1, _⟩ <;>
    rcases hm with ⟨rfl, c', t', h2, _⟩ | ⟨rfl, nl', h2⟩ | ⟨rfl, nl', h2⟩ | ⟨rfl, t', h2, _⟩ <;>
    first
    | rfl
    | (exfalso
       have e := h1.symm.trans h2
       first
       | exact absurd (key (hcs _ _) (hf1 _) (congrArg (·[1]?) e)) (by decide)
       | exact absurd (key (hcs _ _) (hf2 _) (congrArg (·[1]?) e)) (by decide)
       | exact absurd (key (hcs _ _) (hc _) (congrArg (·[1]?) e)) (by decide)
       | exact absurd (key (hf1 _) (hcs _ _) (congrArg (·[1]?) e)) (by decide)
       | exact absurd (key (hf2 _) (hcs _ _) (congrArg (·[1]?) e)) (by decide)
       | exact absurd (key (hc _) (hcs _ _) (congrArg (·[1]?) e)) (by decide)
       | exact absurd (key (hf1 _) (hc _) (congrArg (·[1]?) e)) (by decide)
       | exact absurd (key (hf2 _) (hc _) (congrArg (·[1]?) e)) (by decide)
       | exact absurd (key (hc _) (hf1 _) (congrArg (·[1]?) e)) (by decide)
       | exact absurd (key (hc _) (hf2 _) (congrArg (·[1]?) e)) (by decide)
       | exact absurd (key (hg1 _) (hg2 _) (congrArg (·[7]?) e)) (by decide)
       | exact absurd (key (hg2 _) (hg1 _) (congrArg (·[7]?) e)) (by decide))

theorem knownFormats_name_inj {f g : RegexFormat} (hf : f ∈ knownFormats) (hg : g ∈ knownFormats)
    (h : f.name = g.name) : f = g := by
  simp only [knownFormats, List.mem_cons, List.not_mem_nil, or_false] at hf hg
  rcases hf with rfl | rfl | rfl | rfl <;> rcases hg with rfl | rfl | rfl | rfl <;>
    first
    | rfl
    | exact absurd h (by decide)

/-- C33: at most one known format matches a header line. -/
theorem C33_unambiguous (f g : RegexFormat) (hf : f ∈ knownFormats) (hg : g ∈ knownFormats) (s : Str)
    (h1 : f.matchHeader s = true) (h2 : g.matchHeader s = true) : f = g :=
  knownFormats_name_inj hf hg
    (Spec.isHeader_unique ((matchHeader_iff f hf s).1 h1) ((matchHeader_iff g hg s).1 h2))

/-- C33: `detect_format` returns the format whose header the line is, else it raises
UnknownFormatError. -/
theorem C33_detect_exact (s : Str) :
    (∀ f, detectFormat s = .ok f ↔ f ∈ knownFormats ∧ Spec.isHeader f.name s) ∧
    (detectFormat s = .error .unknownFormatError ↔ ∀ f ∈ knownFormats, ¬ Spec.isHeader f.name s) ∧
    (∀ x, detectFormat s = .error x → x = .unknownFormatError) := by
  unfold detectFormat detectIn
  cases hf : knownFormats.find? (fun f => f.matchHeader s) with
  | none =>
    rw [List.find?_eq_none] at hf
    have hno : ∀ f ∈ knownFormats, ¬ Spec.isHeader f.name s :=
      fun f hm h => hf f hm ((matchHeader_iff f hm s).2 h)
    refine ⟨fun f => ⟨fun h => (by cases h), fun h => absurd h.2 (hno f h.1)⟩, ⟨fun _ => hno, fun _ => rfl⟩, ?_⟩
    intro x h; cases h; rfl
  | some g =>
    have hg := List.mem_of_find?_eq_some hf
    have hm := List.find?_some hf
    refine ⟨fun f => ⟨?_, ?_⟩, ⟨fun h => (by cases h), ?_⟩, fun x h => (by cases h)⟩
    · intro h; cases h; exact ⟨hg, (matchHeader_iff _ hg s).1 hm⟩
    · rintro ⟨h1, h2⟩
      rw [C33_unambiguous f g h1 hg s ((matchHeader_iff f h1 s).2 h2) hm]
    · intro h; exact absurd ((matchHeader_iff g hg s).1 hm) (h g hg)

/-- C33: the order of the format list does not matter. -/
theorem C33_order_independent (fs : List RegexFormat) (hp : fs.Perm knownFormats) (s : Str) :
    detectIn fs s = detectFormat s := by
  unfold detectFormat detectIn
  cases h1 : fs.find? (fun f => f.matchHeader s) with
  | none =>
    rw [List.find?_eq_none] at h1
    have : knownFormats.find? (fun f => f.matchHeader s) = none := by
      rw [List.find?_eq_none]; exact fun f hf => h1 f (hp.mem_iff.2 hf)
    rw [this]
  | some f =>
    have hf := hp.mem_iff.1 (List.mem_of_find?_eq_some h1)
    have hm := List.find?_some h1
    cases h2 : knownFormats.find? (fun f => f.matchHeader s) with
    | none => rw [List.find?_eq_none] at h2; exact absurd hm (h2 f hf)
    | some g => rw [C33_unambiguous f g hf (List.mem_of_find?_eq_some h2) s hm (by simpa using List.find?_some h2)]

/-- Each format is detected for some header, and some line has none. -/
example : [u!"　？？？ /EDICT/\n", u!"FORMAT jc_kdic\n", u!"FORMAT cj_kdic", u!"# CEDICT x\n", u!"hello"].map
      (fun s => (detectFormat s).map RegexFormat.name) =
    [.ok u!"edict", .ok u!"jc_kdic", .ok u!"cj_kdic", .ok u!"cedict", .error .unknownFormatError] := by
  decide +kernel

/-! ### C34 -/

theorem detect_mem {s : Str} {f : RegexFormat} (h : detectFormat s = .ok f) : f ∈ knownFormats :=
  (((C33_detect_exact s).1 f).1 h).1

/-- C34: loading fails with StopIteration on an empty stream only, with UnknownFormatError iff the first
line is no known header, with FormatError iff some later line is malformed, and in no other way. -/
theorem C34_errors (lines : List Str) :
    (loadDictionary lines = .error .stopIteration ↔ lines = []) ∧
    (loadDictionary lines = .error .unknownFormatError ↔
      ∃ h ls, lines = h :: ls ∧ ∀ f ∈ knownFormats, ¬ Spec.isHeader f.name h) ∧
    (loadDictionary lines = .error .formatError ↔
      ∃ h ls f, lines = h :: ls ∧ f ∈ knownFormats ∧ Spec.isHeader f.name h ∧
        ∃ l ∈ ls, ¬ ∃ e, f.parseLine l = .ok e) ∧
    (∀ x, loadDictionary lines = .error x → x = .stopIteration ∨ x = .unknownFormatError ∨ x = .formatError) := by
  cases lines with
  | nil => simp [loadDictionary]
  | cons h ls =>
    cases hd : detectFormat h with
    | error x =>
      have hx := (C33_detect_exact h).2.2 x hd
      subst hx
      have hno := (C33_detect_exact h).2.1.1 hd
      have hl : loadDictionary (h :: ls) = .error .unknownFormatError := by
        show (do let f ← detectFormat h; parseDictionary f.parseLine ls) = _
        rw [hd]; rfl
      rw [hl]
      refine ⟨by simp, ⟨fun _ => ⟨h, ls, rfl, hno⟩, fun _ => rfl⟩, ⟨by simp, ?_⟩, ?_⟩
      · rintro ⟨h', ls', f, heq, hf, hh, _⟩; cases heq; exact absurd hh (hno f hf)
      · intro x hx; cases hx; simp
    | ok f =>
      obtain ⟨hf, hh⟩ := ((C33_detect_exact h).1 f).1 hd
      have hl : loadDictionary (h :: ls) = parseDictionary f.parseLine ls := by
        show (do let f ← detectFormat h; parseDictionary f.parseLine ls) = _
        rw [hd]; rfl
      rw [hl]
      have herr : ∀ x, parseDictionary f.parseLine ls = .error x → x = .formatError := by
        intro x hx
        obtain ⟨pre, l, post, _, hp, _⟩ := (C30_error f.parseLine (parseLine_aligned f) ls x).1 hx
        exact parseLine_error f hf l x hp
      refine ⟨⟨fun hx => absurd (herr _ hx) (by decide), by simp⟩,
        ⟨fun hx => absurd (herr _ hx) (by decide), ?_⟩, ⟨?_, ?_⟩, fun x hx => Or.inr (Or.inr (herr x hx))⟩
      · rintro ⟨h', ls', heq, hno⟩; cases heq; exact absurd hh (hno f hf)
      · intro hx
        obtain ⟨pre, l, post, rfl, hp, _⟩ := (C30_error f.parseLine (parseLine_aligned f) ls _).1 hx
        exact ⟨h, _, f, rfl, hf, hh, l, by simp, by rintro ⟨e, he⟩; rw [he] at hp; cases hp⟩
      · rintro ⟨h', ls', f', heq, hf', hh', l, hl', hne⟩
        cases heq
        have : f' = f := knownFormats_name_inj hf' hf (Spec.isHeader_unique hh' hh)
        subst this
        cases hp : parseDictionary f'.parseLine ls with
        | error x => rw [herr x hp]
        | ok d =>
          exfalso
          cases hm : mapE f'.parseLine ls with
          | error x =>
            have := (C30_error f'.parseLine (parseLine_aligned f') ls x).2 (mapE_error_iff.1 hm)
            rw [hp] at this; cases this
          | ok es =>
            obtain ⟨hlen, hi⟩ := mapE_ok_iff.1 hm
            obtain ⟨i, hlt, rfl⟩ := List.getElem_of_mem hl'
            obtain ⟨b, _, hb⟩ := hi i hlt
            exact hne ⟨b, hb⟩

/-- C34: when the header is known and all later lines parse, `load_dictionary` returns the dictionary
of all later lines, `iter_entries` yields one entry per later line, and the two agree. -/
theorem C34_agrees_with_iter (h : Str) (ls : List Str) (f : RegexFormat) (hf : f ∈ knownFormats)
    (hh : Spec.isHeader f.name h) (es : List Entry) (hes : mapE f.parseLine ls = .ok es) :
    iterFile (h :: ls) = .ok (es, none) ∧
    ∃ d, loadDictionary (h :: ls) = .ok d ∧ Dict.keys d = dedup (es.map Entry.word) ∧
      ∀ w, Dict.get? d w = Spec.merged es w := by
  have hd : detectFormat h = .ok f := ((C33_detect_exact h).1 f).2 ⟨hf, hh⟩
  obtain ⟨d, h1, h2, h3⟩ := C30_merge f.parseLine (parseLine_aligned f) ls es hes
  refine ⟨?_, d, ?_, h2, h3⟩
  · show (do let f ← detectFormat h; Except.ok (iterEntries f.parseLine ls)) = _
    rw [hd]
    show Except.ok (iterEntries f.parseLine ls) = _
    rw [(C30_iter f.parseLine ls).1 es hes]
  · show (do let f ← detectFormat h; parseDictionary f.parseLine ls) = _
    rw [hd]; exact h1

/-- A file with homographs loads as the theorems say. -/
example : loadDictionary [u!"　？？？ /EDICT/\n", u!"明日 [あした] /(n-t) tomorrow/near future/\n",
      u!"月 /moon/\n", u!"明日 [あす] /tomorrow/\n"] =
    .ok [(u!"明日", ⟨u!"明日", [u!"あした", u!"あした", u!"あす"], [u!"(n-t) tomorrow", u!"near future", u!"tomorrow"]⟩),
      (u!"月", ⟨u!"月", [u!"月"], [u!"moon"]⟩)] := by decide +kernel

end Cjk
