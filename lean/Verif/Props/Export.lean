import Verif.Spec.Export
import Verif.Props.CsvExact
import Verif.Props.TextFiles
import Verif.Props.TatoebaSentences
import Verif.Props.TatoebaLinksIff
import Verif.Props.Tanaka
/-!
# C96: from the text of an export to the answers of the readers
-/

namespace Cjk
open Py

theorem find?_congr_mem {α : Type} {p q : α → Bool} {l : List α} (h : ∀ x ∈ l, p x = q x) : l.find? p = l.find? q := by
  induction l with
  | nil => rfl
  | cons x l ih =>
    rw [List.find?_cons, List.find?_cons, h x (by simp), ih (fun y hy => h y (by simp [hy]))]

theorem nodup_map_inj {α β : Type} {f : α → β} {l : List α} (h : (l.map f).Nodup) {x y : α} (hx : x ∈ l) (hy : y ∈ l) (e : f x = f y) : x = y := by
  induction l with
  | nil => simp at hx
  | cons z l ih =>
    simp only [List.map_cons, List.nodup_cons, List.mem_map, not_exists, not_and] at h
    rcases List.mem_cons.1 hx with hx | hx <;> rcases List.mem_cons.1 hy with hy | hy
    · rw [hx, hy]
    · exact absurd (hx ▸ e.symm) (h.1 y hy)
    · exact absurd (hy ▸ e) (h.1 x hx)
    · exact ih h.2 hx hy

theorem tabbed_eq (fs : List Str) : Spec.tabbed fs = Spec.rowText fs [] := by
  induction fs with
  | nil => rfl
  | cons f fs ih =>
    cases fs with
    | nil => simp [Spec.tabbed, Spec.rowText, join]
    | cons g fs => simp only [Spec.tabbed, ih, Spec.rowText, join, List.append_nil]

theorem spaced_eq (fs : List Str) : Spec.spaced fs = join [0x20] fs := by
  induction fs with
  | nil => rfl
  | cons f fs ih =>
    cases fs with
    | nil => rfl
    | cons g fs => simp only [Spec.spaced, ih, join]

/-- The lines of a file of rows, as the reader gets them. -/
theorem export_lines {rows : List (List Str)} {text : Str} (ht : Spec.TextOf (rows.map Spec.tabbed) text) :
    ∃ rs : List (List Str × Str), fileLines text = rs.map (fun r => Spec.rowText r.1 r.2) ∧ rs.map (·.1) = rows ∧ ∀ r ∈ rs, Spec.LineEnd r.2 := by
  obtain ⟨ms, h1, h2, h3⟩ := textOf_lines ht
  rw [h1]
  clear h1 ht h3
  induction rows generalizing ms with
  | nil =>
    cases ms with
    | nil => exact ⟨[], rfl, rfl, by simp⟩
    | cons m ms => simp at h2
  | cons r rows ih =>
    cases ms with
    | nil => simp at h2
    | cons m ms =>
      simp only [List.map_cons, List.cons.injEq] at h2
      obtain ⟨rs, h3, h4, h5⟩ := ih ms h2.2
      refine ⟨(r, Spec.eol m.2) :: rs, ?_, by simp [h4], ?_⟩
      · simp only [List.map_cons, h3, List.cons.injEq, and_true]
        rw [h2.1, tabbed_eq]
        simp [Spec.rowText]
      · intro x hx
        rcases List.mem_cons.1 hx with rfl | hx
        · cases m.2 <;> simp [Spec.eol, Spec.LineEnd]
        · exact h5 x hx

/-- C96: whatever the line endings, and with or without one at the end, the rows of a file of clean values are exactly the values that were written
iff no value begins with a double quote, none is longer than the limit of the `csv` module and no row is a single empty value. -/
theorem C96_rows_exact (lim : Nat) (rows : List (List Str)) (text : Str) (ht : Spec.TextOf (rows.map Spec.tabbed) text)
    (h : ∀ r ∈ rows, r ≠ [] ∧ ∀ f ∈ r, Spec.CleanField f) :
    loadFile lim (fileLines text) = (rows, none) ↔ ∀ r ∈ rows, r ≠ [[]] ∧ ∀ f ∈ r, f.head? ≠ some c!"\"" ∧ f.length ≤ lim := by
  obtain ⟨rs, h1, rfl, h3⟩ := export_lines ht
  rw [h1, C65_exact]
  · simp
  · intro r hr
    obtain ⟨g1, g2⟩ := h r.1 (List.mem_map.2 ⟨r, hr, rfl⟩)
    exact ⟨g1, h3 r hr, g2⟩

theorem showInt_plain (i : Int) : ∀ c ∈ showInt i, AsciiDigit c ∨ c = 0x2d := by
  intro c hc
  unfold showInt at hc
  split at hc
  · rcases List.mem_cons.1 hc with rfl | hc
    · exact Or.inr rfl
    · exact Or.inl (showNat_digits _ c hc)
  · exact Or.inl (showNat_digits _ c hc)

theorem showInt_clean (i : Int) : Spec.CleanField (showInt i) ∧ (showInt i).head? ≠ some c!"\"" := by
  refine ⟨?_, ?_⟩
  · intro c hc
    rcases showInt_plain i c hc with h | rfl
    · obtain ⟨h1, h2⟩ := h; exact ⟨by omega, by omega, by omega, by omega⟩
    · decide
  · intro hh
    rcases showInt_plain i _ (List.mem_of_mem_head? hh) with h | h
    · exact absurd h (by decide)
    · exact absurd h (by decide)

/-- Rows of clean values, none of which begins with a double quote or is too long. -/
def ExportOk (lim : Nat) (rows : List (List Str)) : Prop :=
  ∀ r ∈ rows, ∀ f ∈ r, Spec.CleanField f ∧ f.head? ≠ some c!"\"" ∧ f.length ≤ lim

theorem export_rows {lim : Nat} {rows : List (List Str)} {text : Str} (ht : Spec.TextOf (rows.map Spec.tabbed) text) (h : ExportOk lim rows)
    (h2 : ∀ r ∈ rows, 2 ≤ r.length) : loadFile lim (fileLines text) = (rows, none) := by
  rw [C96_rows_exact lim rows text ht]
  · intro r hr
    refine ⟨?_, fun f hf => ⟨(h r hr f hf).2.1, (h r hr f hf).2.2⟩⟩
    intro e
    have := h2 r hr
    rw [e] at this
    simp at this
  · intro r hr
    refine ⟨?_, fun f hf => (h r hr f hf).1⟩
    intro e
    have := h2 r hr
    rw [e] at this
    simp at this

/-! ### Sentences -/

theorem lastRow_export (languages : Option (List Str)) (recs : List Spec.SentRec) (i : Int) :
    Spec.lastRow (Spec.accepted languages (recs.map Spec.SentRec.fields)) i = (Spec.lastSent languages recs i).map Spec.SentRec.fields := by
  unfold Spec.lastRow Spec.accepted Spec.lastSent
  rw [← List.filter_reverse, ← List.map_reverse, List.find?_filter, List.find?_map]
  congr 1
  apply find?_congr_mem
  intro r _
  rw [Bool.eq_iff_iff]
  cases languages <;> simp [Spec.rowLang, Spec.rowId, Spec.SentRec.fields, pyInt_showInt, and_comm]

/-- C96: the text of an export of sentences can be loaded, and then `sentence` answers with the text of the last sentence that has the id and is
in one of the languages; the ids are those of the sentences in the languages; there are no details; and if no id occurs twice then `language`
answers with the language of the sentence.  An id without sentence gives InvalidIDError. -/
theorem C96_sentences {D : Type} (strptime : Str → Except PyErr D) (languages : Option (List Str)) (lim : Nat) (recs : List Spec.SentRec)
    (text : Str) (hne : recs ≠ []) (ht : Spec.TextOf (recs.map (fun r => Spec.tabbed r.fields)) text)
    (hlang : ∀ r ∈ recs, Spec.CleanField r.lang ∧ r.lang.head? ≠ some c!"\"")
    (htext : ∀ r ∈ recs, Spec.CleanField r.text ∧ r.text.head? ≠ some c!"\"") (hlim : ∀ r ∈ recs, ∀ f ∈ r.fields, f.length ≤ lim) :
    ∃ a, sentLoad strptime languages (loadFile lim (fileLines text)) = .ok a ∧
      (∀ i, a.sentence i = match Spec.lastSent languages recs i with
        | some r => .ok r.text
        | none => .error .invalidIDError) ∧
      (∀ i, i ∈ a.ids ↔ (Spec.lastSent languages recs i).isSome) ∧
      (∀ i, a.details i = .error .missingDataError) ∧
      ((recs.map (·.id)).Nodup → ∀ i, a.language i = match Spec.lastSent languages recs i with
        | some r => .ok r.lang
        | none => .error .invalidIDError) := by
  have hrows : loadFile lim (fileLines text) = (recs.map Spec.SentRec.fields, none) := by
    apply export_rows
    · simpa [List.map_map, Function.comp_def] using ht
    · intro x hx f hf
      obtain ⟨r, hr, rfl⟩ := List.mem_map.1 hx
      have hl := hlim r hr f hf
      simp only [Spec.SentRec.fields, List.mem_cons, List.not_mem_nil, or_false] at hf
      rcases hf with rfl | rfl | rfl
      · exact ⟨(showInt_clean _).1, (showInt_clean _).2, hl⟩
      · exact ⟨(hlang r hr).1, (hlang r hr).2, hl⟩
      · exact ⟨(htext r hr).1, (htext r hr).2, hl⟩
    · intro x hx
      obtain ⟨r, hr, rfl⟩ := List.mem_map.1 hx
      simp [Spec.SentRec.fields]
  rw [hrows]
  obtain ⟨first, rest, rfl⟩ := List.exists_cons_of_ne_nil hne
  obtain ⟨a, ha⟩ := (C54_load_iff (strptime := strptime) (languages := languages) ((first :: rest).map Spec.SentRec.fields, none)).2 (by
    refine ⟨rfl, first.fields, rest.map Spec.SentRec.fields, rfl, Or.inl rfl, ?_⟩
    intro x hx
    obtain ⟨r, hr, rfl⟩ := List.mem_map.1 hx
    refine ⟨by simp [Spec.SentRec.fields], fun _ => ⟨⟨r.id, by simp [Spec.rowId, Spec.SentRec.fields, pyInt_showInt]⟩, ?_⟩⟩
    intro h6
    simp [Spec.SentRec.fields] at h6)
  refine ⟨a, ha, ?_, ?_, ?_, ?_⟩
  · intro i
    rw [C54_sentence ha i]
    simp only [lastRow_export]
    cases Spec.lastSent languages (first :: rest) i <;> rfl
  · intro i
    rw [(C54_ids ha).2 i]
    simp only
    cases hl : Spec.lastSent languages (first :: rest) i with
    | none =>
      have := lastRow_export languages (first :: rest) i
      rw [hl, Option.map_none] at this
      simpa using lastRow_none.1 this
    | some r =>
      have := lastRow_export languages (first :: rest) i
      rw [hl, Option.map_some] at this
      simpa using ⟨_, lastRow_mem this⟩
  · intro i
    rw [C54_details ha i]
    simp [Spec.SentRec.fields]
  · intro hd i
    rw [C55_language_partial ha i]
    · simp only [lastRow_export]
      cases Spec.lastSent languages (first :: rest) i <;> rfl
    · intro x hx y hy h1 h2
      obtain ⟨r, hr, rfl⟩ := List.mem_map.1 (List.mem_filter.1 hx).1
      obtain ⟨r', hr', rfl⟩ := List.mem_map.1 (List.mem_filter.1 hy).1
      simp only [Spec.rowId, Spec.SentRec.fields, List.getD_cons_zero, pyInt_showInt, Except.ok.injEq] at h1 h2
      have : r = r' := nodup_map_inj hd hr hr' (by rw [h1, h2])
      rw [this]

theorem lastRow_detail {D : Type} (format : D → Str) (languages : Option (List Str)) (recs : List (Spec.DetailRec D)) (i : Int) :
    Spec.lastRow (Spec.accepted languages (recs.map (Spec.DetailRec.values format))) i =
      (Spec.lastDetail languages recs i).map (Spec.DetailRec.values format) := by
  unfold Spec.lastRow Spec.accepted Spec.lastDetail
  rw [← List.filter_reverse, ← List.map_reverse, List.find?_filter, List.find?_map]
  congr 1
  apply find?_congr_mem
  intro r _
  rw [Bool.eq_iff_iff]
  cases languages <;> simp [Spec.rowLang, Spec.rowId, Spec.DetailRec.values, Spec.SentRec.fields, pyInt_showInt, and_comm]

theorem date_written {D : Type} {strptime : Str → Except PyErr D} {format : D → Str}
    (o : Option D) (hdate : ∀ d, o = some d → strptime (format d) = .ok d ∧ format d ≠ u!"\\N" ∧ format d ≠ u!"0000-00-00 00:00:00") :
    Spec.date strptime ((o.map format).getD u!"\\N") = o ∧ Spec.DateOk strptime ((o.map format).getD u!"\\N") := by
  cases o with
  | none => exact ⟨rfl, Or.inl rfl⟩
  | some d =>
    obtain ⟨h1, h2, h3⟩ := hdate d rfl
    simp only [Option.map_some, Option.getD_some, Spec.date, Spec.DateOk]
    rw [if_neg (by simp [h2, h3]), h1]
    exact ⟨rfl, Or.inr (Or.inr ⟨d, rfl⟩)⟩

/-- C96: the same for an export with details, where `details` answers with those of the last sentence with the id.  Dates are written by some
`format` that `strptime` reads back. -/
theorem C96_detailed {D : Type} (strptime : Str → Except PyErr D) (format : D → Str)
    (languages : Option (List Str)) (lim : Nat) (recs : List (Spec.DetailRec D))
    (hdate : ∀ r ∈ recs, ∀ d, r.added = some d ∨ r.modified = some d →
      strptime (format d) = .ok d ∧ format d ≠ u!"\\N" ∧ format d ≠ u!"0000-00-00 00:00:00")
    (text : Str) (hne : recs ≠ []) (ht : Spec.TextOf (recs.map (fun r => Spec.tabbed (r.values format))) text)
    (hf : ∀ r ∈ recs, ∀ f ∈ r.values format, Spec.CleanField f ∧ f.head? ≠ some c!"\"" ∧ f.length ≤ lim)
    (huser : ∀ r ∈ recs, r.user ≠ some u!"\\N") :
    ∃ a, sentLoad strptime languages (loadFile lim (fileLines text)) = .ok a ∧
      (∀ i, a.sentence i = match Spec.lastDetail languages recs i with
        | some r => .ok r.text
        | none => .error .invalidIDError) ∧
      (∀ i, a.details i = match Spec.lastDetail languages recs i with
        | some r => .ok (r.user, r.added, r.modified)
        | none => .error .invalidIDError) ∧
      (∀ i, i ∈ a.ids ↔ (Spec.lastDetail languages recs i).isSome) ∧
      ((recs.map (·.id)).Nodup → ∀ i, a.language i = match Spec.lastDetail languages recs i with
        | some r => .ok r.lang
        | none => .error .invalidIDError) := by
  have hrows : loadFile lim (fileLines text) = (recs.map (Spec.DetailRec.values format), none) := by
    apply export_rows
    · simpa [List.map_map, Function.comp_def] using ht
    · intro x hx f hxf
      obtain ⟨r, hr, rfl⟩ := List.mem_map.1 hx
      exact hf r hr f hxf
    · intro x hx
      obtain ⟨r, hr, rfl⟩ := List.mem_map.1 hx
      simp [Spec.DetailRec.values, Spec.SentRec.fields]
  rw [hrows]
  obtain ⟨first, rest, rfl⟩ := List.exists_cons_of_ne_nil hne
  obtain ⟨a, ha⟩ := (C54_load_iff (strptime := strptime) (languages := languages)
      ((first :: rest).map (Spec.DetailRec.values format), none)).2 (by
    refine ⟨rfl, first.values format, rest.map (Spec.DetailRec.values format), rfl, Or.inr rfl, ?_⟩
    intro x hx
    obtain ⟨r, hr, rfl⟩ := List.mem_map.1 hx
    refine ⟨by simp [Spec.DetailRec.values, Spec.SentRec.fields], fun _ =>
      ⟨⟨r.id, by simp [Spec.rowId, Spec.DetailRec.values, Spec.SentRec.fields, pyInt_showInt]⟩, fun _ =>
        ⟨by simp [Spec.DetailRec.values, Spec.SentRec.fields], (date_written r.added (fun d hd => hdate r hr d (Or.inl hd))).2, (date_written r.modified (fun d hd => hdate r hr d (Or.inr hd))).2⟩⟩⟩)
  have hmem : ∀ i r, Spec.lastDetail languages (first :: rest) i = some r → r ∈ first :: rest := by
    intro i r h
    exact List.mem_reverse.1 (List.mem_of_find?_eq_some h)
  refine ⟨a, ha, ?_, ?_, ?_, ?_⟩
  · intro i
    rw [C54_sentence ha i]
    simp only [lastRow_detail]
    cases Spec.lastDetail languages (first :: rest) i <;> rfl
  · intro i
    rw [C54_details ha i, if_pos (by simp [Spec.DetailRec.values, Spec.SentRec.fields])]
    simp only [lastRow_detail]
    cases h : Spec.lastDetail languages (first :: rest) i with
    | none => rfl
    | some r =>
      have hu := huser r (hmem i r h)
      have h1 := (date_written r.added (fun d hd => hdate r (hmem i r h) d (Or.inl hd))).1
      have h2 := (date_written r.modified (fun d hd => hdate r (hmem i r h) d (Or.inr hd))).1
      simp only [Option.map_some, Spec.rowDetails, Spec.DetailRec.values, Spec.SentRec.fields, List.cons_append, List.nil_append,
        List.getD_cons_succ, List.getD_cons_zero, h1, h2]
      cases hc : r.user with
      | none => rfl
      | some u =>
        rw [hc] at hu
        simp only [Option.getD_some, Except.ok.injEq, Prod.mk.injEq, and_true]
        rw [if_neg (fun e => hu (by rw [e]))]
  · intro i
    rw [(C54_ids ha).2 i]
    simp only
    cases hl : Spec.lastDetail languages (first :: rest) i with
    | none =>
      have := lastRow_detail format languages (first :: rest) i
      rw [hl, Option.map_none] at this
      simpa using lastRow_none.1 this
    | some r =>
      have := lastRow_detail format languages (first :: rest) i
      rw [hl, Option.map_some] at this
      simpa using ⟨_, lastRow_mem this⟩
  · intro hd i
    rw [C55_language_partial ha i]
    · simp only [lastRow_detail]
      cases Spec.lastDetail languages (first :: rest) i <;> rfl
    · intro x hx y hy h1 h2
      obtain ⟨r, hr, rfl⟩ := List.mem_map.1 (List.mem_filter.1 hx).1
      obtain ⟨r', hr', rfl⟩ := List.mem_map.1 (List.mem_filter.1 hy).1
      simp only [Spec.rowId, Spec.DetailRec.values, Spec.SentRec.fields, List.cons_append, List.getD_cons_zero, pyInt_showInt, Except.ok.injEq] at h1 h2
      have : r = r' := nodup_map_inj hd hr hr' (by rw [h1, h2])
      rw [this]

/-! ### Links -/

theorem links_export (subset : Option (List Int)) (fn : Spec.FilterName) (ps : List (Int × Int)) :
    Spec.links subset fn (ps.map Spec.linkFields) = ps.filter (Spec.linkAccepted subset fn) := by
  unfold Spec.links
  congr 1
  induction ps with
  | nil => rfl
  | cons p ps ih =>
    rw [List.map_cons, List.filterMap_cons, ih]
    simp [Spec.linkFields, Spec.pairOf, pyInt_showInt, Except.toOption]

/-- C96: the text of an export of links can be loaded, and then the groups are the connected components of the accepted links iff no link joins two
groups that exist already.  An id that occurs in no accepted link gives InvalidIDError. -/
theorem C96_links (subset : Option (List Int)) (fn : Spec.FilterName) (src : Str) (lim : Nat) (ps : List (Int × Int))
    (text : Str) (ht : Spec.TextOf (ps.map (fun p => Spec.tabbed (Spec.linkFields p))) text)
    (hlim : ∀ p ∈ ps, (showInt p.1).length ≤ lim ∧ (showInt p.2).length ≤ lim) :
    ∃ r, LinkReader.new src (loadFile lim (fileLines text)) subset fn.text = .ok r ∧
      (∀ i, ¬ Spec.Occurs (ps.filter (Spec.linkAccepted subset fn)) i → r.data.groupOf i = .error .invalidIDError) ∧
      (Spec.NeverMerges (ps.filter (Spec.linkAccepted subset fn)) ↔
        (∀ i, Spec.Occurs (ps.filter (Spec.linkAccepted subset fn)) i →
          ∃ g, r.data.groupOf i = .ok g ∧ g ∈ r.data.groups ∧ ∀ j, j ∈ g ↔ Spec.Linked (ps.filter (Spec.linkAccepted subset fn)) i j) ∧
        (∀ g ∈ r.data.groups, ∃ i ∈ g, Spec.Occurs (ps.filter (Spec.linkAccepted subset fn)) i) ∧
        r.data.groups.Pairwise (fun g g' => ∀ i ∈ g, i ∉ g')) := by
  have hrows : loadFile lim (fileLines text) = (ps.map Spec.linkFields, none) := by
    apply export_rows
    · simpa [List.map_map, Function.comp_def] using ht
    · intro x hx f hf
      obtain ⟨r, hr, rfl⟩ := List.mem_map.1 hx
      simp only [Spec.linkFields, List.mem_cons, List.not_mem_nil, or_false] at hf
      rcases hf with rfl | rfl
      · exact ⟨(showInt_clean _).1, (showInt_clean _).2, (hlim r hr).1⟩
      · exact ⟨(showInt_clean _).1, (showInt_clean _).2, (hlim r hr).2⟩
    · intro x hx
      obtain ⟨r, hr, rfl⟩ := List.mem_map.1 hx
      simp [Spec.linkFields]
  rw [hrows]
  have hlow : asciiLower fn.text = fn.text := by cases fn <;> decide +kernel
  obtain ⟨r, hr⟩ := (C57_load_iff src (ps.map Spec.linkFields) subset fn.text).2 (by
    refine ⟨⟨fn, hlow⟩, ?_⟩
    intro x hx
    obtain ⟨p, hp, rfl⟩ := List.mem_map.1 hx
    simp [Spec.linkFields, Spec.pairOf, pyInt_showInt, Except.toOption])
  have e := links_export subset fn ps
  refine ⟨r, hr, ?_, ?_⟩
  · intro i hi
    apply C57_invalid_id hlow hr
    rw [e]; exact hi
  · constructor
    · intro hm
      obtain ⟨h1, h2, h3, h4⟩ := C59_components_partial hlow hr (by rw [e]; exact hm)
      simp only [e] at h1 h2 h3 h4
      refine ⟨?_, ?_, h4⟩
      · intro i hi
        obtain ⟨g, hg, hig⟩ := h2 i hi
        have := (h3 g hg).2 i hig
        exact ⟨g, this, hg, h1 i g this⟩
      · intro g hg
        obtain ⟨i, hi⟩ := List.exists_mem_of_ne_nil g (h3 g hg).1
        refine ⟨i, hi, ?_⟩
        apply Classical.byContradiction
        intro hno
        have := C57_invalid_id hlow hr i (by rw [e]; exact hno)
        rw [(h3 g hg).2 i hi] at this
        cases this
    · intro h
      have := (C59_disjoint_iff hlow hr).1 h.2.2
      simpa only [e] using this

/-! ### Indices -/

theorem lastRow_index (subset : Option (List Int)) (recs : List Spec.IndexRec) (i : Int) :
    Spec.lastRow (Spec.indexAccepted subset (recs.map Spec.IndexRec.fields)) i = (Spec.lastIndex subset recs i).map Spec.IndexRec.fields := by
  unfold Spec.lastRow Spec.indexAccepted Spec.lastIndex
  rw [← List.filter_reverse, ← List.map_reverse, List.find?_filter, List.find?_map]
  by_cases h : ∀ ids, subset = some ids → i ∈ ids
  · rw [if_pos h]
    congr 1
    apply find?_congr_mem
    intro r _
    rw [Bool.eq_iff_iff]
    cases subset with
    | none => simp [Spec.rowId, Spec.IndexRec.fields, pyInt_showInt]
    | some ids =>
      simp only [Spec.rowId, Spec.IndexRec.fields, pyInt_showInt, Function.comp, List.getD_cons_zero, decide_eq_true_eq, Except.ok.injEq]
      constructor
      · exact fun h => h.2
      · rintro rfl; exact ⟨h ids rfl, rfl⟩
  · rw [if_neg h, Option.map_none, Option.map_eq_none_iff, List.find?_eq_none]
    intro r _ hr
    apply h
    rintro ids rfl
    simp only [Spec.rowId, Spec.IndexRec.fields, pyInt_showInt, Function.comp, List.getD_cons_zero, decide_eq_true_eq, Except.ok.injEq] at hr
    rw [← hr.2]; exact hr.1

theorem mem_spaced {fs : List Str} {c : Chr} (h : c ∈ Spec.spaced fs) : c = c!" " ∨ ∃ f ∈ fs, c ∈ f := by
  induction fs with
  | nil => simp [Spec.spaced] at h
  | cons f fs ih =>
    cases fs with
    | nil => exact Or.inr ⟨f, by simp, h⟩
    | cons g fs =>
      rw [Spec.spaced] at h
      simp only [List.mem_append, List.mem_singleton] at h
      rcases h with (h | h) | h
      · exact Or.inr ⟨f, by simp, h⟩
      · exact Or.inl h
      · rcases ih h with h | ⟨x, hx, h⟩
        · exact Or.inl h
        · exact Or.inr ⟨x, by simp [hx], h⟩

theorem head_spaced {f : Str} {fs : List Str} (h : f ≠ []) : (Spec.spaced (f :: fs)).head? = f.head? := by
  cases fs with
  | nil => rfl
  | cons g fs =>
    obtain ⟨c, f, rfl⟩ := List.exists_cons_of_ne_nil h
    rfl

theorem toText_ne_nil {w : Tanaka} (h : Spec.WordOk w) : w.toText ≠ [] := by
  rw [toText_eq h]
  obtain ⟨c, t, e⟩ := List.exists_cons_of_ne_nil h.1.1
  simp [Spec.WordParts.text, wordToParts, e]

theorem parse_spaced (ws : List Tanaka) (h : ∀ w ∈ ws, Spec.WordOk w ∧ w.sense ≠ some 0 ∧ 0x20 ∉ w.toText) :
    parseSentence (Spec.spaced (ws.map Tanaka.toText)) = .ok ws := by
  rw [spaced_eq]
  cases ws with
  | nil => decide +kernel
  | cons w ws =>
    apply C62_roundtrip _ _ (by simp) h
    rw [List.filter_eq_self]
    intro x hx
    obtain ⟨v, hv, rfl⟩ := List.mem_map.1 hx
    have := toText_ne_nil (h v hv).1
    cases hh : v.toText with
    | nil => exact absurd hh this
    | cons => rfl

/-- C96: the text of an export of indices can be loaded without dictionary, and then `reader[i]` gives the words of the last record with that id and
`link` the id of its translation; an id that is not there or not among the wanted ones gives KeyError and InvalidIDError. -/
theorem C96_indices (subset : Option (List Int)) (lim : Nat) (recs : List Spec.IndexRec)
    (text : Str) (ht : Spec.TextOf (recs.map (fun r => Spec.tabbed r.fields)) text)
    (hwords : ∀ r ∈ recs, ∀ w ∈ r.words, Spec.WordOk w ∧ w.sense ≠ some 0 ∧ Spec.CleanField w.toText ∧ c!" " ∉ w.toText)
    (hhead : ∀ r ∈ recs, ∀ w, r.words.head? = some w → w.toText.head? ≠ some c!"\"")
    (hlim : ∀ r ∈ recs, ∀ f ∈ r.fields, f.length ≤ lim) :
    ∃ d, indexLoad none subset (loadFile lim (fileLines text)) = .ok d ∧
      (∀ i, d.getItem i = match Spec.lastIndex subset recs i with
        | some r => .ok r.words
        | none => .error .keyError) ∧
      (∀ i, d.linkOf i = match Spec.lastIndex subset recs i with
        | some r => .ok r.meaning
        | none => .error .invalidIDError) := by
  have hrows : loadFile lim (fileLines text) = (recs.map Spec.IndexRec.fields, none) := by
    apply export_rows
    · simpa [List.map_map, Function.comp_def] using ht
    · intro x hx f hf
      obtain ⟨r, hr, rfl⟩ := List.mem_map.1 hx
      have hl := hlim r hr f hf
      simp only [Spec.IndexRec.fields, List.mem_cons, List.not_mem_nil, or_false] at hf
      rcases hf with rfl | rfl | rfl
      · exact ⟨(showInt_clean _).1, (showInt_clean _).2, hl⟩
      · exact ⟨(showInt_clean _).1, (showInt_clean _).2, hl⟩
      · refine ⟨?_, ?_, hl⟩
        · intro c hc
          rcases mem_spaced hc with rfl | ⟨f, hf, hc⟩
          · decide
          · obtain ⟨w, hw, rfl⟩ := List.mem_map.1 hf
            exact (hwords r hr w hw).2.2.1 c hc
        · cases hw : r.words with
          | nil => simp [Spec.spaced]
          | cons w ws =>
            rw [List.map_cons, head_spaced (toText_ne_nil (hwords r hr w (by simp [hw])).1)]
            exact hhead r hr w (by simp [hw])
    · intro x hx
      obtain ⟨r, hr, rfl⟩ := List.mem_map.1 hx
      simp [Spec.IndexRec.fields]
  rw [hrows]
  have hparse : ∀ r ∈ recs, Spec.indexWords none r.fields = .ok r.words := by
    intro r hr
    have : parseSentence (r.fields.getD 2 []) = .ok r.words := parse_spaced r.words (fun w hw =>
      ⟨(hwords r hr w hw).1, (hwords r hr w hw).2.1, (hwords r hr w hw).2.2.2⟩)
    unfold Spec.indexWords
    rw [this]
    rfl
  obtain ⟨d, hd⟩ := C64_loads none subset (recs.map Spec.IndexRec.fields) (by
    intro x hx
    obtain ⟨r, hr, rfl⟩ := List.mem_map.1 hx
    exact ⟨rfl, ⟨r.id, pyInt_showInt _⟩, ⟨r.meaning, pyInt_showInt _⟩, fun _ => ⟨_, hparse r hr⟩⟩)
  have hmem : ∀ i r, Spec.lastIndex subset recs i = some r → r ∈ recs := by
    intro i r h
    unfold Spec.lastIndex at h
    split at h
    · simpa using List.mem_of_find?_eq_some h
    · cases h
  refine ⟨d, hd, ?_, ?_⟩
  · intro i
    rw [(C64_lookups none subset _ d hd i).2.1]
    simp only [lastRow_index]
    cases h : Spec.lastIndex subset recs i with
    | none => rfl
    | some r => exact hparse r (hmem i r h)
  · intro i
    rw [(C64_lookups none subset _ d hd i).1]
    simp only [lastRow_index]
    cases h : Spec.lastIndex subset recs i with
    | none => rfl
    | some r => exact pyInt_showInt _

/-! ### The hypotheses hold of small files -/

example : Spec.TextOf ([(⟨1, u!"eng", u!"Hi \"you\""⟩ : Spec.SentRec), ⟨7, u!"jpn", u!"やあ"⟩].map (fun r => Spec.tabbed r.fields))
    u!"1\teng\tHi \"you\"\r\n7\tjpn\tやあ" := by
  have e : [(⟨1, u!"eng", u!"Hi \"you\""⟩ : Spec.SentRec), ⟨7, u!"jpn", u!"やあ"⟩].map (fun r => Spec.tabbed r.fields) =
    [u!"1\teng\tHi \"you\"", u!"7\tjpn\tやあ"] := by decide +kernel
  rw [e]
  exact .cons (s := u!"1\teng\tHi \"you\"") (e := u!"\r\n") (text := u!"7\tjpn\tやあ") (by decide +kernel) .windows (by decide) (.last (by decide) (by decide +kernel))

example : ∀ r ∈ [(⟨1, u!"eng", u!"Hi \"you\""⟩ : Spec.SentRec), ⟨7, u!"jpn", u!"やあ"⟩],
    (Spec.CleanField r.lang ∧ r.lang.head? ≠ some c!"\"") ∧ (Spec.CleanField r.text ∧ r.text.head? ≠ some c!"\"") ∧
      ∀ f ∈ r.fields, f.length ≤ 131072 := by decide +kernel

/-- Dates that can be written and read back. -/
example : ∃ (strptime : Str → Except PyErr Nat) (format : Nat → Str),
    ∀ d, strptime (format d) = .ok d ∧ format d ≠ u!"\\N" ∧ format d ≠ u!"0000-00-00 00:00:00" := by
  refine ⟨fun s => .ok (s.length - 30), fun d => List.replicate (d + 30) c!"1", ?_⟩
  intro d
  refine ⟨by simp, ?_, ?_⟩ <;>
  · intro e
    have := congrArg List.length e
    simp at this
    try omega

example : (⟨⟨1, u!"eng", u!"Hi"⟩, some u!"bob", some 3, none⟩ : Spec.DetailRec Nat).values showNat =
    [u!"1", u!"eng", u!"Hi", u!"bob", u!"3", u!"\\N"] := by decide +kernel

example : ∀ p ∈ [((1 : Int), (7 : Int)), (7, 1), (1277, 12)], (showInt p.1).length ≤ 131072 ∧ (showInt p.2).length ≤ 131072 := by decide +kernel

example : (⟨1, 7, [⟨u!"彼", some u!"かれ", some 1, none, false⟩, ⟨u!"は", none, none, some u!"ハ", true⟩]⟩ : Spec.IndexRec).fields =
    [u!"1", u!"7", u!"彼(かれ)[01] は{ハ}~"] := by decide +kernel

/-- The condition on double quotes cannot be dropped: this sentence, quoted in the file as it is in the export, loses its quotes. -/
theorem C96_quoted_refuted : loadFile 131072 (fileLines (Spec.tabbed (⟨1, u!"eng", u!"\"Hi\" he said."⟩ : Spec.SentRec).fields)) =
    ([[u!"1", u!"eng", u!"Hi he said."]], none) := by decide +kernel

end Cjk
