import Verif.Model.Tatoeba
/-!
# Tab-separated fields (C65)
-/

namespace Cjk
open Py

namespace Spec

/-- A field without tab, carriage return, newline or NUL that does not begin with a double quote. -/
def PlainField (f : Str) : Prop := (∀ c ∈ f, c ≠ 0x00 ∧ c ≠ 0x09 ∧ c ≠ 0x0a ∧ c ≠ 0x0d) ∧ f.head? ≠ some 0x22

instance (f : Str) : Decidable (PlainField f) := inferInstanceAs (Decidable (_ ∧ _))

/-- What may end a line: any carriage returns and newlines, or nothing. -/
def LineEnd (e : Str) : Prop := ∀ c ∈ e, c = 0x0a ∨ c = 0x0d

instance (f : Str) : Decidable (LineEnd f) := inferInstanceAs (Decidable (∀ _ ∈ _, _))

/-- A row as it stands in a file. -/
def rowText (row : List Str) (lineEnd : Str) : Str := join [0x09] row ++ lineEnd

end Spec

section
variable {lim : Nat}

theorem csv_line_cons {r r' : Csv} {c : Nat} {s : Str} {d : Nat} (h0 : c ≠ 0) (h : r.char d lim c = .ok r') :
    r.line d lim (c :: s) = r'.line d lim s := by
  rw [Csv.line, if_neg h0, h]

theorem csv_inField (fs : List Str) : ∀ (f : Str) (g rest : Str),
    (∀ c ∈ f, c ≠ 0x00 ∧ c ≠ 0x09 ∧ c ≠ 0x0a ∧ c ≠ 0x0d) → g.length + f.length ≤ lim →
    Csv.line 0x09 lim ⟨.inField, g, fs⟩ (f ++ rest) = Csv.line 0x09 lim ⟨.inField, g ++ f, fs⟩ rest
  | [], g, rest, _, _ => by simp
  | c :: f, g, rest, h, hl => by
    obtain ⟨h0, h9, ha, hd⟩ := h c (by simp)
    have hl' : g.length + f.length + 1 ≤ lim := by simpa [Nat.add_assoc] using hl
    have hc : Csv.char 0x09 lim ⟨.inField, g, fs⟩ c = .ok ⟨.inField, g ++ [c], fs⟩ := by
      simp only [Csv.char, h9, ha, hd, or_self, if_false, Csv.add]
      rw [if_neg (by omega)]
    rw [List.cons_append, csv_line_cons h0 hc, csv_inField fs f (g ++ [c]) rest (fun x hx => h x (by simp [hx])) (by
      simp; omega)]
    simp

theorem csv_eat (fs : List Str) (g : Str) : ∀ e : Str, Spec.LineEnd e →
    Csv.line 0x09 lim ⟨.eatCrnl, g, fs⟩ e = .ok ⟨.startRecord, g, fs⟩
  | [], _ => rfl
  | c :: e, h => by
    have hc := h c (by simp)
    rw [csv_line_cons (r' := ⟨.eatCrnl, g, fs⟩) (by omega) (by simp only [Csv.char]; rw [if_pos hc])]
    exact csv_eat fs g e (fun x hx => h x (by simp [hx]))

theorem csv_startField_char {fs : List Str} {f : Str} {c : Nat} (h : Spec.PlainField (c :: f)) (hl : (c :: f).length ≤ lim) :
    Csv.char 0x09 lim ⟨.startField, [], fs⟩ c = .ok ⟨.inField, [c], fs⟩ := by
  obtain ⟨h0, h9, ha, hd⟩ := h.1 c (by simp)
  have hq : c ≠ 0x22 := fun hq => h.2 (by simp [hq])
  simp only [Csv.char, Csv.startFieldChar, h9, ha, hd, hq, or_self, if_false, Csv.add]
  rw [if_neg (by simp at hl ⊢; omega)]
  simp

theorem csv_field_tab (fs : List Str) (f rest : Str) (h : Spec.PlainField f) (hl : f.length ≤ lim) :
    Csv.line 0x09 lim ⟨.startField, [], fs⟩ (f ++ 0x09 :: rest) = Csv.line 0x09 lim ⟨.startField, [], fs ++ [f]⟩ rest := by
  cases f with
  | nil =>
    rw [List.nil_append, csv_line_cons (by decide) rfl]
    simp [Csv.save]
  | cons c f =>
    rw [List.cons_append, csv_line_cons (h.1 c (by simp)).1 (csv_startField_char h hl),
      csv_inField fs f [c] _ (fun x hx => h.1 x (by simp [hx])) (by simp at hl ⊢; omega), csv_line_cons (by decide) rfl]
    simp [Csv.save]

theorem csv_field_end (fs : List Str) (f e : Str) (h : Spec.PlainField f) (hl : f.length ≤ lim) (he : Spec.LineEnd e) :
    Csv.line 0x09 lim ⟨.startField, [], fs⟩ (f ++ e) = .ok ⟨.startRecord, [], fs ++ [f]⟩ := by
  cases f with
  | nil =>
    cases e with
    | nil => rfl
    | cons x e =>
      have hx := he x (by simp)
      rw [List.nil_append, csv_line_cons (r' := ⟨.eatCrnl, [], fs ++ [[]]⟩) (by omega) (by
        simp only [Csv.char, Csv.startFieldChar]; rw [if_pos hx]; rfl)]
      exact csv_eat _ _ e (fun y hy => he y (by simp [hy]))
  | cons c f =>
    rw [List.cons_append, csv_line_cons (h.1 c (by simp)).1 (csv_startField_char h hl),
      csv_inField fs f [c] _ (fun x hx => h.1 x (by simp [hx])) (by simp at hl ⊢; omega)]
    cases e with
    | nil => simp [Csv.line, Csv.endLine, Csv.save]
    | cons x e =>
      have hx := he x (by simp)
      rw [csv_line_cons (r' := ⟨.eatCrnl, [], fs ++ [c :: f]⟩) (by omega) (by
        simp only [Csv.char]; rw [if_pos hx]; simp [Csv.save])]
      exact csv_eat _ _ e (fun y hy => he y (by simp [hy]))

theorem csv_row (e : Str) (he : Spec.LineEnd e) : ∀ (row : List Str) (fs : List Str), row ≠ [] →
    (∀ f ∈ row, Spec.PlainField f ∧ f.length ≤ lim) →
    Csv.line 0x09 lim ⟨.startField, [], fs⟩ (Spec.rowText row e) = .ok ⟨.startRecord, [], fs ++ row⟩
  | [], _, h, _ => absurd rfl h
  | [f], fs, _, h => csv_field_end fs f e (h f (by simp)).1 (h f (by simp)).2 he
  | f :: g :: row, fs, _, h => by
    have := csv_row e he (g :: row) (fs ++ [f]) (by simp) (fun x hx => h x (List.mem_cons_of_mem _ hx))
    rw [Spec.rowText] at this ⊢
    rw [join_cons_cons]
    simp only [List.append_assoc, List.nil_append, List.cons_append]
    rw [csv_field_tab fs f _ (h f (by simp)).1 (h f (by simp)).2, this]
    simp

theorem csv_record (e : Str) (he : Spec.LineEnd e) (row : List Str) (hne : row ≠ []) (hne2 : row ≠ [[]])
    (h : ∀ f ∈ row, Spec.PlainField f ∧ f.length ≤ lim) :
    Csv.line 0x09 lim Csv.init (Spec.rowText row e) = .ok ⟨.startRecord, [], row⟩ := by
  have key := csv_row (lim := lim) e he row [] hne h
  obtain ⟨c, s, hs, hc0, hca, hcd⟩ : ∃ c s, Spec.rowText row e = c :: s ∧ c ≠ 0 ∧ c ≠ 0x0a ∧ c ≠ 0x0d := by
    cases row with
    | nil => exact absurd rfl hne
    | cons f row =>
      cases f with
      | cons c f =>
        obtain ⟨h0, _, ha, hd⟩ := (h (c :: f) (by simp)).1.1 c (by simp)
        cases row with
        | nil => exact ⟨c, f ++ e, rfl, h0, ha, hd⟩
        | cons g row => exact ⟨c, _, by rw [Spec.rowText, join_cons_cons]; simp; rfl, h0, ha, hd⟩
      | nil =>
        cases row with
        | nil => exact absurd rfl hne2
        | cons g row => exact ⟨0x09, _, by rw [Spec.rowText, join_cons_cons]; rfl, by decide, by decide, by decide⟩
  rw [hs] at key ⊢
  rw [List.nil_append] at key
  rw [← key, Csv.line, Csv.line, if_neg hc0, if_neg hc0]
  have : Csv.init.char 0x09 lim c = Csv.char 0x09 lim ⟨.startField, [], []⟩ c := by
    simp only [Csv.char, Csv.init, hca, hcd, or_self, if_false]
    simp [Csv.startFieldChar, Csv.save, Csv.add]
  rw [this]

end

/-- C65 (partial): rows of fields without tab, carriage return, newline or NUL whose fields do not begin with a double quote
are read exactly as they stand, whatever ends the lines (also a last line without newline).  Missing from the full
statement: fields that begin with a double quote (refuted below); a row of one empty field, which is an empty line;
fields longer than the limit of the `csv` module. -/
theorem C65_fields_partial (lim : Nat) (rows : List (List Str × Str))
    (h : ∀ r ∈ rows, r.1 ≠ [] ∧ r.1 ≠ [[]] ∧ Spec.LineEnd r.2 ∧ ∀ f ∈ r.1, Spec.PlainField f ∧ f.length ≤ lim) :
    loadFile lim (rows.map (fun r => Spec.rowText r.1 r.2)) = (rows.map (·.1), none) := by
  show csvRows 0x09 lim Csv.init _ = _
  induction rows with
  | nil => rfl
  | cons r rows ih =>
    obtain ⟨h1, h2, h3, h4⟩ := h r (by simp)
    rw [List.map_cons, csvRows, csv_record r.2 h3 r.1 h1 h2 h4]
    simp only [if_true]
    rw [ih (fun x hx => h x (by simp [hx]))]
    rfl

/-- Blank lines give empty rows and nothing else. -/
theorem C65_blank_line (lim : Nat) (e : Str) (he : Spec.LineEnd e) (lines : List Str) :
    loadFile lim (e :: lines) = ([] :: (loadFile lim lines).1, (loadFile lim lines).2) := by
  show csvRows 0x09 lim Csv.init _ = ([] :: (csvRows 0x09 lim Csv.init lines).1, (csvRows 0x09 lim Csv.init lines).2)
  rw [csvRows]
  have : Csv.line 0x09 lim Csv.init e = .ok ⟨.startRecord, [], []⟩ := by
    cases e with
    | nil => rfl
    | cons x e =>
      have hx := he x (by simp)
      rw [csv_line_cons (r' := ⟨.eatCrnl, [], []⟩) (by omega) (by
        simp only [Csv.char, Csv.init]; rw [if_pos hx])]
      exact csv_eat _ _ e (fun y hy => he y (by simp [hy]))
  rw [this]
  simp

/-- C65 as stated is false: a sentence that begins with a double quote loses its quotes, and an unbalanced one swallows the
following lines. -/
theorem C65_fields_refuted :
    (∀ lim, 10 ≤ lim → loadFile lim [u!"1\teng\t\"Hi\" it\n"] = ([[u!"1", u!"eng", u!"Hi it"]], none)) ∧
    (∀ lim, 20 ≤ lim → loadFile lim [u!"1\teng\t\"Hi\n", u!"2\teng\tYes\n"] = ([[u!"1", u!"eng", u!"Hi\n2\teng\tYes\n"]], none)) := by
  have step : ∀ {lim : Nat} {r : Csv} {c : Nat} {st : CsvState}, r.field.length < lim →
      r.add lim c st = .ok ⟨st, r.field ++ [c], r.fields⟩ := by
    intro lim r c st h
    rw [Csv.add, if_neg (by omega)]
  refine ⟨fun lim h => ?_, fun lim h => ?_⟩
  · simp (disch := simp; omega) [loadFile, csvReader, csvRows, Csv.line, Csv.init, Csv.char, Csv.startFieldChar, step, Csv.save, Csv.endLine]
  · simp (disch := simp; omega) [loadFile, csvReader, csvRows, Csv.line, Csv.init, Csv.char, Csv.startFieldChar, step, Csv.save, Csv.endLine]

/-- The hypotheses of `C65_fields_partial` hold of a small file with an empty field and quotes inside a field. -/
example : ∀ r ∈ [([u!"1", u!"eng", u!"He said \"hi\""], u!"\n"), ([u!"2", [], u!"あ"], u!"")],
    r.1 ≠ [] ∧ r.1 ≠ [[]] ∧ Spec.LineEnd r.2 ∧ ∀ f ∈ r.1, Spec.PlainField f ∧ f.length ≤ 131072 := by decide +kernel

end Cjk
