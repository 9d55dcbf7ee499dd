import Verif.Props.Csv
/-!
# C65: exactly which files are read verbatim
-/

namespace Cjk
open Py

namespace Spec

/-- A field without tab, carriage return, newline or NUL. -/
def CleanField (f : Str) : Prop := ∀ c ∈ f, c ≠ 0x00 ∧ c ≠ 0x09 ∧ c ≠ 0x0a ∧ c ≠ 0x0d

instance (f : Str) : Decidable (CleanField f) := inferInstanceAs (Decidable (∀ _ ∈ _, _))

end Spec

section
variable {lim : Nat}

/-- `parse_process_char` for some characters of a line. -/
def csvChars (lim : Nat) : Csv → Str → Except PyErr Csv
  | r, [] => .ok r
  | r, c :: s =>
    if c = 0 then .error .genericException
    else
      match r.char 0x09 lim c with
      | .error e => .error e
      | .ok r' => csvChars lim r' s

theorem csv_line_append (a b : Str) : ∀ r : Csv, r.line 0x09 lim (a ++ b) =
    match csvChars lim r a with
    | .error e => .error e
    | .ok r' => r'.line 0x09 lim b := by
  induction a with
  | nil => intro r; rfl
  | cons c a ih =>
    intro r
    rw [List.cons_append, Csv.line, csvChars]
    split
    · rfl
    · cases h : r.char 0x09 lim c with
      | error e => rfl
      | ok r' => exact ih r'

/-- Characters and separators in a record. -/
def recordWeight (fs : List Str) : Nat := (fs.map (fun f => f.length + 1)).sum

theorem recordWeight_append (a b : List Str) : recordWeight (a ++ b) = recordWeight a + recordWeight b := by
  simp [recordWeight]

def csvWeight (r : Csv) : Nat := recordWeight r.fields + r.field.length

theorem csvWeight_save (r : Csv) (st : CsvState) : csvWeight (r.save st) = csvWeight r + 1 := by
  simp [csvWeight, Csv.save, recordWeight]
  omega

theorem csvWeight_add {r r' : Csv} {c : Nat} {st : CsvState} (h : r.add lim c st = .ok r') : csvWeight r' = csvWeight r + 1 ∧ r'.st = st := by
  unfold Csv.add at h
  split at h
  · cases h
  · cases h
    simp [csvWeight]
    omega

/-- A character that is no line end adds at most one to the weight and does not end the record. -/
theorem csvWeight_char {r r' : Csv} {c : Nat} (hc : c ≠ 0x0a ∧ c ≠ 0x0d) (h : r.char 0x09 lim c = .ok r') (hst : r.st ≠ .eatCrnl) :
    csvWeight r' ≤ csvWeight r + 1 ∧ r'.st ≠ .eatCrnl ∧ r'.st ≠ .startRecord := by
  have start : r.startFieldChar 0x09 lim c = .ok r' → csvWeight r' ≤ csvWeight r + 1 ∧ r'.st ≠ .eatCrnl ∧ r'.st ≠ .startRecord := by
    intro h
    unfold Csv.startFieldChar at h
    rw [if_neg (by omega)] at h
    split at h
    · cases h; exact ⟨Nat.le_succ _, by simp, by simp⟩
    · split at h
      · cases h
        rw [csvWeight_save]
        exact ⟨Nat.le_refl _, by simp [Csv.save], by simp [Csv.save]⟩
      · obtain ⟨h1, h2⟩ := csvWeight_add h
        exact ⟨by omega, by simp [h2], by simp [h2]⟩
  have add : ∀ st, st ≠ .eatCrnl → st ≠ .startRecord → r.add lim c st = .ok r' →
      csvWeight r' ≤ csvWeight r + 1 ∧ r'.st ≠ .eatCrnl ∧ r'.st ≠ .startRecord := by
    intro st h1 h2 h
    obtain ⟨h3, h4⟩ := csvWeight_add h
    exact ⟨by omega, by rwa [h4], by rwa [h4]⟩
  have save : r.save .startField = r' → csvWeight r' ≤ csvWeight r + 1 ∧ r'.st ≠ .eatCrnl ∧ r'.st ≠ .startRecord := by
    rintro rfl
    rw [csvWeight_save]
    exact ⟨Nat.le_refl _, by simp [Csv.save], by simp [Csv.save]⟩
  unfold Csv.char at h
  have hno : ¬ (c = 0x0a ∨ c = 0x0d) := by omega
  split at h
  · rw [if_neg hno] at h; exact start h
  · exact start h
  · rw [if_neg hno] at h
    split at h
    · exact save (Except.ok.inj h)
    · exact add _ (by simp) (by simp) h
  · split at h
    · cases h; exact ⟨Nat.le_succ _, by simp, by simp⟩
    · exact add _ (by simp) (by simp) h
  · split at h
    · exact add _ (by simp) (by simp) h
    · split at h
      · exact save (Except.ok.inj h)
      · exact add .inField (by simp) (by simp) h
  · exact absurd ‹_› hst

theorem csvWeight_chars : ∀ (s : Str) (r r' : Csv), (∀ c ∈ s, c ≠ 0x0a ∧ c ≠ 0x0d) → csvChars lim r s = .ok r' →
    r.st ≠ .eatCrnl → r.st ≠ .startRecord → csvWeight r' ≤ csvWeight r + s.length ∧ r'.st ≠ .eatCrnl ∧ r'.st ≠ .startRecord
  | [], r, r', _, h, h1, h2 => by cases h; exact ⟨Nat.le_refl _, h1, h2⟩
  | c :: s, r, r', hs, h, h1, h2 => by
    rw [csvChars] at h
    split at h
    · cases h
    · cases hc : r.char 0x09 lim c with
      | error e => rw [hc] at h; cases h
      | ok r1 =>
        rw [hc] at h
        obtain ⟨g1, g2, g3⟩ := csvWeight_char (hs c (by simp)) hc h1
        obtain ⟨k1, k2, k3⟩ := csvWeight_chars s r1 r' (fun x hx => hs x (by simp [hx])) h g2 g3
        exact ⟨by simp; omega, k2, k3⟩

/-- Line ends inside quotes are kept. -/
theorem csv_quoted_end : ∀ (e : Str) (r r' : Csv), Spec.LineEnd e → r.st = .inQuoted → r.line 0x09 lim e = .ok r' →
    r' = ⟨.inQuoted, r.field ++ e, r.fields⟩
  | [], r, r', _, hst, h => by
    rw [Csv.line, Csv.endLine] at h
    simp only [hst] at h
    cases h
    obtain ⟨st, f, fs⟩ := r
    simp only at hst
    simp [hst]
  | c :: e, r, r', he, hst, h => by
    have hc := he c (by simp)
    rw [Csv.line, if_neg (by omega)] at h
    simp only [Csv.char, hst] at h
    rw [if_neg (by omega)] at h
    unfold Csv.add at h
    by_cases hl : lim ≤ r.field.length
    · rw [if_pos hl] at h; cases h
    · rw [if_neg hl] at h
      have := csv_quoted_end e _ r' (fun x hx => he x (by simp [hx])) rfl h
      rw [this]
      simp

/-- Line ends elsewhere end the record. -/
theorem csv_line_end (e : Str) (r r' : Csv) (he : Spec.LineEnd e) (h1 : r.st ≠ .inQuoted) (h2 : r.st ≠ .eatCrnl) (h3 : r.st ≠ .startRecord)
    (h : r.line 0x09 lim e = .ok r') : r' = r.save .startRecord := by
  cases e with
  | nil =>
    rw [Csv.line, Csv.endLine] at h
    cases hst : r.st with
    | startRecord => exact absurd hst h3
    | inQuoted => exact absurd hst h1
    | eatCrnl => exact absurd hst h2
    | startField => rw [hst] at h; cases h; rfl
    | inField => rw [hst] at h; cases h; rfl
    | quoteInQuoted => rw [hst] at h; cases h; rfl
  | cons c e =>
    have hc := he c (by simp)
    have hch : r.char 0x09 lim c = .ok (r.save .eatCrnl) := by
      have h9 : c ≠ 0x09 := by omega
      have h22 : c ≠ 0x22 := by omega
      cases hst : r.st with
      | startRecord => exact absurd hst h3
      | inQuoted => exact absurd hst h1
      | eatCrnl => exact absurd hst h2
      | startField => simp only [Csv.char, hst, Csv.startFieldChar]; rw [if_pos hc]
      | inField => simp only [Csv.char, hst]; rw [if_pos hc]
      | quoteInQuoted => simp only [Csv.char, hst]; rw [if_neg h22, if_neg h9, if_pos hc]
    rw [csv_line_cons (by omega) hch] at h
    have := csv_eat (lim := lim) (r.fields ++ [r.field]) [] e (fun y hy => he y (by simp [hy]))
    rw [Csv.save, this] at h
    cases h
    rfl

theorem csv_start_of_init {c : Nat} {s : Str} (h : c ≠ 0x0a ∧ c ≠ 0x0d) :
    Csv.line 0x09 lim Csv.init (c :: s) = Csv.line 0x09 lim ⟨.startField, [], []⟩ (c :: s) := by
  rw [Csv.line, Csv.line]
  have : Csv.init.char 0x09 lim c = Csv.char 0x09 lim ⟨.startField, [], []⟩ c := by
    simp only [Csv.char, Csv.init, h.1, h.2, or_self, if_false]
    simp [Csv.startFieldChar, Csv.save, Csv.add]
  rw [this]

/-- Good fields before a tab are read verbatim. -/
theorem csv_good_fields : ∀ (pre : List Str) (fs : List Str) (rest : Str), (∀ f ∈ pre, Spec.PlainField f ∧ f.length ≤ lim) →
    Csv.line 0x09 lim ⟨.startField, [], fs⟩ (pre.flatMap (· ++ [0x09]) ++ rest) = Csv.line 0x09 lim ⟨.startField, [], fs ++ pre⟩ rest
  | [], fs, rest, _ => by simp
  | f :: pre, fs, rest, h => by
    have := csv_good_fields pre (fs ++ [f]) rest (fun x hx => h x (by simp [hx]))
    rw [List.flatMap_cons, List.append_assoc, List.append_assoc]
    rw [show ([0x09] : Str) ++ (pre.flatMap (· ++ [0x09]) ++ rest) = 0x09 :: (pre.flatMap (· ++ [0x09]) ++ rest) from rfl]
    rw [csv_field_tab fs f _ (h f (by simp)).1 (h f (by simp)).2, this]
    simp

theorem join_split (pre : List Str) (f : Str) (post : List Str) :
    join [0x09] (pre ++ f :: post) = pre.flatMap (· ++ [0x09]) ++ (f ++ post.flatMap ([0x09] ++ ·)) := by
  have h0 : ∀ (post : List Str) (f : Str), join [0x09] (f :: post) = f ++ post.flatMap ([0x09] ++ ·) := by
    intro post
    induction post with
    | nil => intro f; simp [join]
    | cons g post ih => intro f; rw [join_cons_cons, ih]; simp
  induction pre with
  | nil => exact h0 post f
  | cons g pre ih =>
    rw [List.cons_append]
    cases hp : pre ++ f :: post with
    | nil => simp at hp
    | cons a b => rw [join_cons_cons, ← hp, ih]; simp

theorem csv_long_inField (fs : List Str) : ∀ (f g : Str), (∀ c ∈ f, c ≠ 0x00 ∧ c ≠ 0x09 ∧ c ≠ 0x0a ∧ c ≠ 0x0d) → lim < g.length + f.length →
    g.length ≤ lim → ∃ x, csvChars lim ⟨.inField, g, fs⟩ f = .error x
  | [], g, _, h1, h2 => by simp at h1; omega
  | c :: f, g, h, h1, h2 => by
    obtain ⟨h0, h9, ha, hd⟩ := h c (by simp)
    rw [csvChars, if_neg h0]
    simp only [Csv.char, h9, ha, hd, or_self, if_false, Csv.add]
    by_cases hl : lim ≤ g.length
    · rw [if_pos hl]; exact ⟨_, rfl⟩
    · rw [if_neg hl]
      exact csv_long_inField fs f (g ++ [c]) (fun x hx => h x (by simp [hx])) (by simp at h1 ⊢; omega) (by simp; omega)

/-- A field over the limit is an error. -/
theorem csv_long (fs : List Str) (f : Str) (h : ∀ c ∈ f, c ≠ 0x00 ∧ c ≠ 0x09 ∧ c ≠ 0x0a ∧ c ≠ 0x0d) (hq : f.head? ≠ some 0x22)
    (hl : lim < f.length) : ∃ x, csvChars lim ⟨.startField, [], fs⟩ f = .error x := by
  cases f with
  | nil => simp at hl
  | cons c f =>
    obtain ⟨h0, h9, ha, hd⟩ := h c (by simp)
    have h22 : c ≠ 0x22 := fun hq' => hq (by simp [hq'])
    rw [csvChars, if_neg h0]
    simp only [Csv.char, Csv.startFieldChar, h9, ha, hd, h22, or_self, if_false, Csv.add]
    by_cases hz : lim ≤ ([] : Str).length
    · rw [if_pos hz]; exact ⟨_, rfl⟩
    · rw [if_neg hz]
      exact csv_long_inField fs f _ (fun x hx => h x (by simp [hx])) (by simp at hl ⊢; omega) (by simp at hz ⊢; omega)

/-- A row with a bad field is not read verbatim, whatever follows. -/
theorem csv_bad_row (row : List Str) (e : Str) (he : Spec.LineEnd e) (hclean : ∀ f ∈ row, Spec.CleanField f)
    (pre post : List Str) (f : Str) (hrow : row = pre ++ f :: post) (hpre : ∀ g ∈ pre, Spec.PlainField g ∧ g.length ≤ lim)
    (hbad : f.head? = some 0x22 ∨ (f.head? ≠ some 0x22 ∧ lim < f.length)) (r' : Csv)
    (h : Csv.line 0x09 lim Csv.init (Spec.rowText row e) = .ok r') :
    (r'.st = .startRecord → r'.fields ≠ row) ∧ (r'.st ≠ .startRecord → (r'.save .startRecord).fields ≠ row) := by
  subst hrow
  have hfne : f ≠ [] := by
    rintro rfl
    rcases hbad with hb | ⟨_, hb⟩
    · cases hb
    · exact absurd hb (by simp)
  -- the characters of the row
  have hmem : ∀ c ∈ join [0x09] (pre ++ f :: post), c ≠ 0x0a ∧ c ≠ 0x0d := by
    have hch : ∀ g ∈ pre ++ f :: post, ∀ c ∈ g, c ≠ 0x0a ∧ c ≠ 0x0d := fun g hg c hc => ⟨(hclean g hg c hc).2.2.1, (hclean g hg c hc).2.2.2⟩
    intro c hc
    rw [join_split] at hc
    simp only [List.mem_append, List.mem_flatMap, List.mem_singleton] at hc
    rcases hc with ⟨g, hg, hc | rfl⟩ | hc | ⟨g, hg, rfl | hc⟩
    · exact hch g (by simp [hg]) c hc
    · decide
    · exact hch f (by simp) c hc
    · decide
    · exact hch g (by simp [hg]) c hc
  have hstart : Csv.line 0x09 lim Csv.init (Spec.rowText (pre ++ f :: post) e) =
      Csv.line 0x09 lim ⟨.startField, [], pre⟩ (f ++ post.flatMap ([0x09] ++ ·) ++ e) := by
    have h2 : Csv.line 0x09 lim ⟨.startField, [], []⟩ (Spec.rowText (pre ++ f :: post) e) =
        Csv.line 0x09 lim ⟨.startField, [], pre⟩ (f ++ post.flatMap ([0x09] ++ ·) ++ e) := by
      rw [Spec.rowText, join_split, List.append_assoc, csv_good_fields pre [] _ hpre]
      simp
    rw [← h2]
    have hne : join [0x09] (pre ++ f :: post) ≠ [] := by
      rw [join_split]
      simp [hfne]
    obtain ⟨c, t, ht⟩ := List.exists_cons_of_ne_nil hne
    rw [Spec.rowText, ht]
    exact csv_start_of_init (hmem c (by rw [ht]; simp))
  rw [hstart] at h
  rcases hbad with hb | ⟨hb, hlong⟩
  · cases f with
    | nil => exact absurd rfl hfne
    | cons q f' =>
      cases hb
      rw [List.cons_append, List.cons_append, csv_line_cons (r' := ⟨.inQuoted, [], pre⟩) (by decide) rfl, csv_line_append] at h
      cases hch : csvChars lim ⟨.inQuoted, [], pre⟩ (f' ++ post.flatMap ([0x09] ++ ·)) with
      | error x => rw [hch] at h; cases h
      | ok r1 =>
        rw [hch] at h
        simp only at h
        have hB : ∀ c ∈ f' ++ post.flatMap ([0x09] ++ ·), c ≠ 0x0a ∧ c ≠ 0x0d := by
          intro c hc
          apply hmem c
          rw [join_split]
          simp only [List.mem_append, List.mem_cons] at hc ⊢
          rcases hc with hc | hc
          · exact Or.inr (Or.inl (Or.inr hc))
          · exact Or.inr (Or.inr hc)
        obtain ⟨w1, w2, w3⟩ := csvWeight_chars _ _ _ hB hch (by simp) (by simp)
        have hw : recordWeight (pre ++ (0x22 :: f') :: post) = csvWeight ⟨.inQuoted, [], pre⟩ + (f' ++ post.flatMap ([0x09] ++ ·)).length + 2 := by
          have : ∀ post : List Str, (post.flatMap ([0x09] ++ ·)).length = recordWeight post := by
            intro post
            induction post with
            | nil => rfl
            | cons g post ih => rw [List.flatMap_cons, List.length_append, ih]; simp [recordWeight]
          rw [recordWeight_append, List.length_append, this]
          simp [csvWeight, recordWeight]
          omega
        by_cases hq : r1.st = .inQuoted
        · have := csv_quoted_end e r1 r' he hq h
          subst this
          refine ⟨(by intro h; cases h), ?_⟩
          intro _ heq
          cases e with
          | nil =>
            have h1 := congrArg recordWeight heq
            simp only [Csv.save, List.append_nil] at h1
            rw [hw, recordWeight_append] at h1
            simp only [csvWeight, recordWeight, List.map_cons, List.map_nil, List.sum_cons, List.sum_nil] at h1 w1
            omega
          | cons x e =>
            have hx := he x (by simp)
            have hin : r1.field ++ x :: e ∈ pre ++ (0x22 :: f') :: post := by rw [← heq]; simp [Csv.save]
            have := hclean _ hin x (by simp)
            omega
        · have := csv_line_end e r1 r' he hq w2 w3 h
          subst this
          refine ⟨?_, fun h => absurd rfl h⟩
          intro _ heq
          have h1 := congrArg recordWeight heq
          rw [hw] at h1
          have h2 := csvWeight_save r1 .startRecord
          simp only [csvWeight, Csv.save, List.length_nil, Nat.add_zero] at h1 h2 w1
          omega
  · rw [List.append_assoc, csv_line_append] at h
    obtain ⟨x, hx⟩ := csv_long pre f (fun c hc => hclean f (by simp) c hc) hb hlong
    rw [hx] at h
    cases h

end

/-- There are never more records than lines, and fewer if a record goes on over a line end. -/
theorem csvRows_length (lim : Nat) : ∀ (ls : List Str) (r : Csv),
    (csvRows 0x09 lim r ls).1.length ≤ max 1 ls.length ∧ (csvRows 0x09 lim Csv.init ls).1.length ≤ ls.length
  | [], r => by
    constructor
    · rw [csvRows]; split <;> simp
    · simp [csvRows, Csv.init]
  | l :: ls, r => by
    have key : ∀ r, (csvRows 0x09 lim r (l :: ls)).1.length ≤ (l :: ls).length := by
      intro r
      rw [csvRows]
      split
      · simp
      · rename_i r' _
        split
        · have := (csvRows_length lim ls r').2
          simp only [List.length_cons]
          omega
        · have := (csvRows_length lim ls r').1
          simp only [List.length_cons]
          omega
    exact ⟨Nat.le_trans (key r) (by omega), key _⟩

/-- C65, exactly: a file that is written as rows of fields without tab, carriage return, newline or NUL is read back as these rows iff no row
is a single empty field, no field begins with a double quote and no field is longer than the limit of the `csv` module. -/
theorem C65_exact (lim : Nat) (rows : List (List Str × Str))
    (h : ∀ r ∈ rows, r.1 ≠ [] ∧ Spec.LineEnd r.2 ∧ ∀ f ∈ r.1, Spec.CleanField f) :
    loadFile lim (rows.map (fun r => Spec.rowText r.1 r.2)) = (rows.map (·.1), none) ↔
      ∀ r ∈ rows, r.1 ≠ [[]] ∧ ∀ f ∈ r.1, f.head? ≠ some 0x22 ∧ f.length ≤ lim := by
  refine ⟨?_, ?_⟩
  case refine_2 =>
    intro hg
    apply C65_fields_partial
    intro r hr
    obtain ⟨h1, h2, h3⟩ := h r hr
    exact ⟨h1, (hg r hr).1, h2, fun f hf => ⟨⟨h3 f hf, ((hg r hr).2 f hf).1⟩, ((hg r hr).2 f hf).2⟩⟩
  case refine_1 =>
    intro hread
    change csvRows 0x09 lim Csv.init _ = _ at hread
    induction rows with
    | nil => simp
    | cons r rows ih =>
      obtain ⟨h1, h2, h3⟩ := h r (by simp)
      have hgood : r.1 ≠ [[]] ∧ ∀ f ∈ r.1, f.head? ≠ some 0x22 ∧ f.length ≤ lim := by
        constructor
        · intro he
          have hb := C65_blank_line lim r.2 h2 (rows.map (fun r => Spec.rowText r.1 r.2))
          rw [List.map_cons, he, Spec.rowText, show join [0x09] [([] : Str)] = [] from rfl, List.nil_append] at hread
          have := hb.symm.trans hread
          simp only [List.map_cons, he, Prod.mk.injEq, List.cons.injEq] at this
          exact absurd this.1.1 (by simp)
        · apply Classical.byContradiction
          intro hno
          obtain ⟨pre, f, post, hrow, hpre, hbad⟩ : ∃ pre f post, r.1 = pre ++ f :: post ∧
              (∀ g ∈ pre, Spec.PlainField g ∧ g.length ≤ lim) ∧ (f.head? = some 0x22 ∨ (f.head? ≠ some 0x22 ∧ lim < f.length)) := by
            clear hread ih h h1 h2
            generalize r.1 = row at h3 hno ⊢
            induction row with
            | nil => simp at hno
            | cons g row ih =>
              by_cases hg : g.head? ≠ some 0x22 ∧ g.length ≤ lim
              · obtain ⟨pre, f, post, e1, e2, e3⟩ := ih (fun x hx => h3 x (by simp [hx])) (by
                  intro hall
                  apply hno
                  intro x hx
                  rcases List.mem_cons.1 hx with rfl | hx
                  · exact hg
                  · exact hall x hx)
                refine ⟨g :: pre, f, post, by rw [e1]; rfl, ?_, e3⟩
                intro x hx
                rcases List.mem_cons.1 hx with rfl | hx
                · exact ⟨⟨h3 x (by simp), hg.1⟩, hg.2⟩
                · exact e2 x hx
              · refine ⟨[], g, row, rfl, by simp, ?_⟩
                by_cases hq : g.head? = some 0x22
                · exact Or.inl hq
                · exact Or.inr ⟨hq, Nat.lt_of_not_le (fun hle => hg ⟨hq, hle⟩)⟩
          rw [List.map_cons, csvRows] at hread
          cases hl : Csv.line 0x09 lim Csv.init (Spec.rowText r.1 r.2) with
          | error x => rw [hl] at hread; simp at hread
          | ok r' =>
            obtain ⟨n1, n2⟩ := csv_bad_row r.1 r.2 h2 h3 pre post f hrow hpre hbad r' hl
            rw [hl] at hread
            simp only at hread
            split at hread
            · rename_i hst
              simp only [List.map_cons, Prod.mk.injEq, List.cons.injEq] at hread
              exact n1 hst hread.1.1
            · rename_i hst
              have hlen := (csvRows_length lim (rows.map (fun r => Spec.rowText r.1 r.2)) r').1
              rw [hread] at hlen
              simp only [List.map_cons, List.length_cons, List.length_map] at hlen
              have : rows = [] := by
                cases rows with
                | nil => rfl
                | cons a b => simp at hlen; omega
              subst this
              simp only [List.map_nil, csvRows] at hread
              split at hread
              · simp only [List.map_cons, List.map_nil, Prod.mk.injEq, List.cons.injEq, and_true] at hread
                exact n2 hst hread
              · simp at hread
      intro x hx
      rcases List.mem_cons.1 hx with rfl | hx
      · exact hgood
      · refine ih (fun y hy => h y (by simp [hy])) ?_ x hx
        have := csv_record (lim := lim) r.2 h2 r.1 h1 hgood.1 (fun f hf => ⟨⟨h3 f hf, (hgood.2 f hf).1⟩, (hgood.2 f hf).2⟩)
        rw [List.map_cons, csvRows, this] at hread
        simp only [if_true, List.map_cons, Prod.mk.injEq, List.cons.injEq, true_and] at hread
        exact Prod.ext hread.1 hread.2

/-- The hypotheses of `C65_exact` hold of a file with quotes, empty fields and a missing final newline. -/
example : ∀ r ∈ [([u!"1", u!"eng", u!"\"Hi\" there"], u!"\n"), ([u!"2", [], u!"あ"], u!"")],
    r.1 ≠ [] ∧ Spec.LineEnd r.2 ∧ ∀ f ∈ r.1, Spec.CleanField f := by decide +kernel

end Cjk
