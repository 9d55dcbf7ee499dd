import Verif.Model.LoadOptions
import Verif.Spec.CsvWritten
import Verif.Py.Lines
/-!
# Options of `load_file` (C125)
-/

namespace Cjk
open Py

/-! ### The reader on the characters of a text -/

section
variable (d : CsvDialect) (lim : Nat)

/-- The reader on the characters of a text whose lines end with `\n`; `fresh`: no character of the current line has been read. -/
def csvTextD : Bool → CsvR → Str → Rows
  | fresh, r, [] =>
    if fresh then csvRowsD d lim r []
    else
      match r.endLine lim with
      | .error e => ([], some e)
      | .ok r' => if r'.mode = .startRecord then ([r'.fields], none) else csvRowsD d lim r' []
  | _, r, c :: s =>
    if c = 0 then ([], some .genericException)
    else
      match r.char d lim c with
      | .error e => ([], some e)
      | .ok r' =>
        if c = 0x0a then
          match r'.endLine lim with
          | .error e => ([], some e)
          | .ok r'' =>
            if r''.mode = .startRecord then
              let rest := csvTextD true CsvR.init s
              (r''.fields :: rest.1, rest.2)
            else csvTextD true r'' s
        else csvTextD false r' s

/-- The characters of an unfinished line. -/
def csvCharsD (r : CsvR) : Str → Except PyErr CsvR
  | [] => .ok r
  | c :: s =>
    if c = 0 then .error .genericException
    else
      match r.char d lim c with
      | .error e => .error e
      | .ok r' => csvCharsD r' s

variable {d lim}

theorem csvLine_append (t : Str) : ∀ (s : Str) (r : CsvR),
    r.line d lim (s ++ t) = match csvCharsD d lim r s with
      | .error e => .error e
      | .ok r' => r'.line d lim t
  | [], r => rfl
  | c :: s, r => by
    simp only [List.cons_append, CsvR.line, csvCharsD]
    by_cases h : c = 0
    · simp [h]
    · simp only [h, if_false]
      cases r.char d lim c with
      | error e => rfl
      | ok r' => exact csvLine_append t s r'

theorem csvChars_append (t : Str) : ∀ (s : Str) (r : CsvR),
    csvCharsD d lim r (s ++ t) = match csvCharsD d lim r s with
      | .error e => .error e
      | .ok r' => csvCharsD d lim r' t
  | [], r => rfl
  | c :: s, r => by
    simp only [List.cons_append, csvCharsD]
    by_cases h : c = 0
    · simp [h]
    · simp only [h, if_false]
      cases r.char d lim c with
      | error e => rfl
      | ok r' => exact csvChars_append t s r'

theorem csvRowsD_init_nil : csvRowsD d lim CsvR.init [] = ([], none) := rfl

theorem csvRowsD_text : ∀ (s acc : Str) (r : CsvR), 0x0d ∉ s →
    csvRowsD d lim r (fileLinesAux acc s) = match csvCharsD d lim r acc with
      | .error e => ([], some e)
      | .ok r' => csvTextD d lim acc.isEmpty r' s
  | [], acc, r, _ => by
    cases acc with
    | nil => rfl
    | cons a acc =>
      have hl : r.line d lim (a :: acc) = _ := (congrArg (r.line d lim) (List.append_nil (a :: acc)).symm).trans (csvLine_append [] (a :: acc) r)
      show csvRowsD d lim r [a :: acc] = _
      rw [csvRowsD, hl]
      cases csvCharsD d lim r (a :: acc) with
      | error e => rfl
      | ok r' =>
        simp only [CsvR.line, csvTextD, List.isEmpty_cons, Bool.false_eq_true, if_false]
        cases r'.endLine lim with
        | error e => rfl
        | ok r'' => rfl
  | c :: s, acc, r, h => by
    have hc : c ≠ 0x0d := fun hc => h (by simp [hc])
    have hs : 0x0d ∉ s := fun hc => h (by simp [hc])
    by_cases hn : c = 0x0a
    · subst hn
      have : fileLinesAux acc (0x0a :: s) = (acc ++ [0x0a]) :: fileLinesAux [] s := by
        rw [fileLinesAux]
        · simp
        · intro rest hx _; simp at hx
      rw [this, csvRowsD, csvLine_append]
      cases csvCharsD d lim r acc with
      | error e => rfl
      | ok r' =>
        simp only [CsvR.line, csvTextD]
        rw [if_neg (by decide), if_neg (by decide)]
        cases r'.char d lim 0x0a with
        | error e => rfl
        | ok r1 =>
          simp only [if_true]
          cases r1.endLine lim with
          | error e => rfl
          | ok r2 =>
            simp only
            rw [csvRowsD_text s [] CsvR.init hs, csvRowsD_text s [] r2 hs]
            rfl
    · have : fileLinesAux acc (c :: s) = fileLinesAux (acc ++ [c]) s := by
        rw [fileLinesAux]
        · simp [hc, hn]
        · intro rest hx; exact absurd hx hc
      rw [this, csvRowsD_text s (acc ++ [c]) r hs, csvChars_append]
      cases csvCharsD d lim r acc with
      | error e => rfl
      | ok r' =>
        simp only [csvCharsD, csvTextD]
        by_cases h0 : c = 0
        · simp [h0]
        · simp only [h0, if_false, hn]
          cases r'.char d lim c with
          | error e => rfl
          | ok r1 => cases acc <;> rfl

theorem csvTextD_step {b : Bool} {r r' : CsvR} {c : Nat} {s : Str} (h0 : c ≠ 0) (hn : c ≠ 0x0a) (h : r.char d lim c = .ok r') :
    csvTextD d lim b r (c :: s) = csvTextD d lim false r' s := by
  rw [csvTextD, if_neg h0, h]
  simp only [hn, if_false]

theorem csvTextD_newline {b : Bool} {r r' r'' : CsvR} {s : Str} (h : r.char d lim 0x0a = .ok r') (h' : r'.endLine lim = .ok r'') :
    csvTextD d lim b r (0x0a :: s) = if r''.mode = .startRecord then
      (r''.fields :: (csvTextD d lim true CsvR.init s).1, (csvTextD d lim true CsvR.init s).2) else csvTextD d lim true r'' s := by
  rw [csvTextD, if_neg (by decide), h]
  simp only [if_true, h']

/-! ### Line breaks -/

theorem fileLinesAux_oneBreak (s : Str) : ∀ acc : Str, fileLinesAux acc (Spec.oneBreak s) = fileLinesAux acc s := by
  fun_induction Spec.oneBreak s with
  | case1 s ih =>
    intro acc
    rw [fileLinesAux]
    simp [fileLinesAux, ih]
  | case2 c s hne ih =>
    intro acc
    by_cases hc : c = 0x0d
    · subst hc
      simp only [if_true]
      rw [fileLinesAux, fileLinesAux]
      · simp [ih]
      · intro rest _ hx; exact hne _ rfl hx
      · intro rest hx _; simp at hx
    · rw [if_neg hc, fileLinesAux, fileLinesAux]
      · simp only [ih]
      · intro rest hx _; exact absurd hx hc
      · intro rest hx _; exact absurd hx hc
  | case3 => intro acc; rfl

theorem fileLines_oneBreak (s : Str) : fileLines (Spec.oneBreak s) = fileLines s := fileLinesAux_oneBreak s []

theorem oneBreak_cons {c : Nat} (h : c ≠ 0x0d) (s : Str) : Spec.oneBreak (c :: s) = c :: Spec.oneBreak s := by
  rw [Spec.oneBreak]
  · simp [h]
  · intro rest hx _; exact absurd hx h

theorem oneBreak_append (t : Str) : ∀ s : Str, 0x0d ∉ s → Spec.oneBreak (s ++ t) = s ++ Spec.oneBreak t
  | [], _ => rfl
  | c :: s, h => by
    rw [List.cons_append, oneBreak_cons (fun hc => h (by simp [hc])), oneBreak_append t s (fun hc => h (by simp [hc]))]
    rfl

theorem oneBreak_noReturn (s : Str) : 0x0d ∉ Spec.oneBreak s := by
  fun_induction Spec.oneBreak s with
  | case1 s ih => simpa using ih
  | case2 c s hne ih =>
    intro h
    rcases List.mem_cons.1 h with h | h
    · split at h <;> simp_all
    · exact ih h
  | case3 => simp

theorem oneBreak_eq_iff (s : Str) : Spec.oneBreak s = s ↔ 0x0d ∉ s := by
  refine ⟨fun h => h ▸ oneBreak_noReturn s, fun h => ?_⟩
  have := oneBreak_append [] s h
  simpa [Spec.oneBreak] using this


/-! ### Fields -/

theorem csvAdd_ok {r : CsvR} {c : Nat} {m : CsvMode} (h : r.field.length < lim) : r.add lim c m = .ok ⟨m, r.field ++ [c], r.fields⟩ := by
  rw [CsvR.add, if_neg (by omega)]

/-- The condition on a character outside quotes. -/
def OutChar (d : CsvDialect) (x : Nat × Bool) : Prop :=
  x.1 ≠ 0 ∧ x.1 ≠ 0x0d ∧ (x.2 = true → d.escape.isSome) ∧ (x.2 = false → some x.1 ≠ d.escape ∧ x.1 ≠ d.delim ∧ x.1 ≠ 0x0a)

theorem csvOut_one (hd : Spec.CleanDialect d) {b : Bool} {m : CsvMode} {g : Str} {fs : List Str} {x : Nat × Bool} (hx : OutChar d x)
    (hm : m = .startField ∨ m = .inField ∨ m = .afterEscaped)
    (hfirst : m = .startField → x.2 = false → some x.1 ≠ d.quote ∧ (d.skipSpace = true → x.1 ≠ 0x20)) (hl : g.length < lim) (rest : Str) :
    ∃ b' m', (m' = .inField ∨ m' = .afterEscaped) ∧ (b' = true → m' = .afterEscaped) ∧
      csvTextD d lim b ⟨m, g, fs⟩ (Spec.charText d false x ++ rest) = csvTextD d lim b' ⟨m', g ++ [x.1], fs⟩ rest := by
  obtain ⟨c, esc⟩ := x
  obtain ⟨h0, hr, he, hp⟩ := hx
  simp only at h0 hr he hp hfirst
  obtain ⟨⟨hd0, hdn, hdr⟩, hq, hesc, hsp⟩ := hd
  cases esc with
  | true =>
    obtain ⟨e, hee⟩ := Option.isSome_iff_exists.1 (he rfl)
    obtain ⟨he0, hen, her, hed⟩ := hesc e hee
    have htext : Spec.charText d false (c, true) ++ rest = e :: c :: rest := by simp [Spec.charText, hee]
    have h1 : CsvR.char d lim ⟨m, g, fs⟩ e = .ok ⟨.escaped, g, fs⟩ := by
      have hqe : some e ≠ d.quote := fun h => (hq e h.symm).2.2.2.2 hee
      rcases hm with rfl | rfl | rfl
      · simp only [CsvR.char, CsvR.startChar]
        rw [if_neg (by simp [hen, her]), if_neg hqe, if_pos hee.symm]
      · simp only [CsvR.char, CsvR.fieldChar]
        rw [if_neg (by simp [hen, her]), if_pos hee.symm]
      · simp only [CsvR.char, CsvR.fieldChar]
        rw [if_neg (by simp [hen, her]), if_pos hee.symm]
    rw [htext, csvTextD_step he0 hen h1]
    by_cases hn : c = 0x0a
    · subst hn
      refine ⟨true, .afterEscaped, Or.inr rfl, fun _ => rfl, ?_⟩
      rw [csvTextD_newline (r' := ⟨.afterEscaped, g ++ [0x0a], fs⟩) (r'' := ⟨.afterEscaped, g ++ [0x0a], fs⟩) (by
        simp only [CsvR.char]
        exact csvAdd_ok hl) rfl]
      rfl
    · refine ⟨false, .inField, Or.inl rfl, fun h => (by cases h), ?_⟩
      refine csvTextD_step h0 hn ?_
      simp only [CsvR.char]
      rw [if_neg (by simp [hn, hr])]
      exact csvAdd_ok hl
  | false =>
    obtain ⟨hce, hcd, hn⟩ := hp rfl
    have htext : Spec.charText d false (c, false) ++ rest = c :: rest := by simp [Spec.charText]
    rw [htext]
    rcases hm with rfl | rfl | rfl
    · obtain ⟨hcq, hcs⟩ := hfirst rfl rfl
      refine ⟨false, .inField, Or.inl rfl, fun h => (by cases h), csvTextD_step h0 hn ?_⟩
      simp only [CsvR.char, CsvR.startChar]
      rw [if_neg (by simp [hn, hr]), if_neg hcq, if_neg hce, if_neg (fun h => hcs h.2 h.1), if_neg hcd]
      exact csvAdd_ok hl
    · refine ⟨false, .inField, Or.inl rfl, fun h => (by cases h), csvTextD_step h0 hn ?_⟩
      simp only [CsvR.char, CsvR.fieldChar]
      rw [if_neg (by simp [hn, hr]), if_neg hce, if_neg hcd]
      exact csvAdd_ok hl
    · refine ⟨false, .afterEscaped, Or.inr rfl, fun h => (by cases h), csvTextD_step h0 hn ?_⟩
      simp only [CsvR.char, CsvR.fieldChar]
      rw [if_neg (by simp [hn, hr]), if_neg hce, if_neg hcd]
      exact csvAdd_ok hl

theorem csvOut_more (hd : Spec.CleanDialect d) (fs : List Str) (rest : Str) : ∀ (xs : List (Nat × Bool)) (b : Bool) (m : CsvMode) (g : Str),
    (∀ x ∈ xs, OutChar d x) → (m = .inField ∨ m = .afterEscaped) → (b = true → m = .afterEscaped) → g.length + xs.length ≤ lim →
    ∃ b' m', (m' = .inField ∨ m' = .afterEscaped) ∧ (b' = true → m' = .afterEscaped) ∧
      csvTextD d lim b ⟨m, g, fs⟩ (xs.flatMap (Spec.charText d false) ++ rest) = csvTextD d lim b' ⟨m', g ++ xs.map (·.1), fs⟩ rest
  | [], b, m, g, _, hm, hb, _ => ⟨b, m, hm, hb, by simp⟩
  | x :: xs, b, m, g, hx, hm, _, hl => by
    simp only [List.length_cons] at hl
    obtain ⟨b1, m1, hm1, hb1, h1⟩ := csvOut_one (b := b) (fs := fs) hd (hx x (by simp)) (Or.inr hm)
      (fun h => by rcases hm with rfl | rfl <;> cases h) (show g.length < lim by omega) (xs.flatMap (Spec.charText d false) ++ rest)
    obtain ⟨b2, m2, hm2, hb2, h2⟩ := csvOut_more hd fs rest xs b1 m1 (g ++ [x.1]) (fun y hy => hx y (by simp [hy])) hm1 hb1 (by simp; omega)
    refine ⟨b2, m2, hm2, hb2, ?_⟩
    rw [List.flatMap_cons, List.append_assoc, h1, h2]
    simp

/-- The condition on a character between quotes. -/
def InChar (d : CsvDialect) (x : Nat × Bool) : Prop :=
  x.1 ≠ 0 ∧ (x.2 = true → d.escape.isSome) ∧ (x.2 = false → some x.1 ≠ d.escape ∧ (some x.1 = d.quote → d.doubled = true))

theorem csvTextD_inQuoted {b : Bool} {r : CsvR} {g : Str} {fs : List Str} {c : Nat} {s : Str} (h0 : c ≠ 0)
    (h : r.char d lim c = .ok ⟨.inQuoted, g, fs⟩) : ∃ b', csvTextD d lim b r (c :: s) = csvTextD d lim b' ⟨.inQuoted, g, fs⟩ s := by
  by_cases hn : c = 0x0a
  · subst hn
    exact ⟨true, by rw [csvTextD_newline h rfl]; rfl⟩
  · exact ⟨false, csvTextD_step h0 hn h⟩

theorem csvIn_one (hd : Spec.CleanDialect d) {b : Bool} {g : Str} {fs : List Str} {x : Nat × Bool} (hx : InChar d x) (hl : g.length < lim) (rest : Str) :
    ∃ b', csvTextD d lim b ⟨.inQuoted, g, fs⟩ (Spec.charText d true x ++ rest) = csvTextD d lim b' ⟨.inQuoted, g ++ [x.1], fs⟩ rest := by
  obtain ⟨c, esc⟩ := x
  obtain ⟨h0, he, hp⟩ := hx
  simp only at h0 he hp
  obtain ⟨⟨hd0, hdn, hdr⟩, hq, hesc, hsp⟩ := hd
  cases esc with
  | true =>
    obtain ⟨e, hee⟩ := Option.isSome_iff_exists.1 (he rfl)
    obtain ⟨he0, hen, her, hed⟩ := hesc e hee
    have htext : Spec.charText d true (c, true) ++ rest = e :: c :: rest := by simp [Spec.charText, hee]
    have h1 : CsvR.char d lim ⟨.inQuoted, g, fs⟩ e = .ok ⟨.escapeInQuoted, g, fs⟩ := by
      simp only [CsvR.char]
      rw [if_pos hee.symm]
    rw [htext, csvTextD_step he0 hen h1]
    exact csvTextD_inQuoted h0 (csvAdd_ok hl)
  | false =>
    obtain ⟨hce, hcq⟩ := hp rfl
    by_cases hcQ : some c = d.quote
    · have htext : Spec.charText d true (c, false) ++ rest = c :: c :: rest := by simp [Spec.charText, hcQ]
      obtain ⟨_, hqn, _, _, _⟩ := hq c hcQ.symm
      have h1 : CsvR.char d lim ⟨.inQuoted, g, fs⟩ c = .ok ⟨.quoteInQuoted, g, fs⟩ := by
        simp only [CsvR.char]
        rw [if_neg hce, if_pos hcQ, hcq hcQ]
        rfl
      rw [htext, csvTextD_step h0 hqn h1]
      refine csvTextD_inQuoted h0 ?_
      simp only [CsvR.char]
      rw [if_pos hcQ]
      exact csvAdd_ok hl
    · have htext : Spec.charText d true (c, false) ++ rest = c :: rest := by simp [Spec.charText, hcQ]
      rw [htext]
      refine csvTextD_inQuoted h0 ?_
      simp only [CsvR.char]
      rw [if_neg hce, if_neg hcQ]
      exact csvAdd_ok hl

theorem csvIn_all (hd : Spec.CleanDialect d) (fs : List Str) (rest : Str) : ∀ (xs : List (Nat × Bool)) (b : Bool) (g : Str),
    (∀ x ∈ xs, InChar d x) → g.length + xs.length ≤ lim →
    ∃ b', csvTextD d lim b ⟨.inQuoted, g, fs⟩ (xs.flatMap (Spec.charText d true) ++ rest) =
      csvTextD d lim b' ⟨.inQuoted, g ++ xs.map (·.1), fs⟩ rest
  | [], b, g, _, _ => ⟨b, by simp⟩
  | x :: xs, b, g, hx, hl => by
    simp only [List.length_cons] at hl
    obtain ⟨b1, h1⟩ := csvIn_one (b := b) (fs := fs) hd (hx x (by simp)) (show g.length < lim by omega) (xs.flatMap (Spec.charText d true) ++ rest)
    obtain ⟨b2, h2⟩ := csvIn_all hd fs rest xs b1 (g ++ [x.1]) (fun y hy => hx y (by simp [hy])) (by simp; omega)
    refine ⟨b2, ?_⟩
    rw [List.flatMap_cons, List.append_assoc, h1, h2]
    simp

/-- The reader at the end of a field, where a delimiter or the end of the line is expected. -/
def FieldDone (b : Bool) (m : CsvMode) (v : Str) : Prop :=
  (m = .startField ∨ m = .inField ∨ m = .afterEscaped ∨ m = .quoteInQuoted) ∧ (b = true → m = .afterEscaped) ∧ (m = .afterEscaped → v ≠ [])

theorem csvField_start (hd : Spec.CleanDialect d) (f : Spec.WrittenField) (hf : f.Sound d) (hl : f.chars.length ≤ lim) (fs : List Str) (rest : Str) :
    ∃ b m, FieldDone b m f.value ∧ csvTextD d lim false ⟨.startField, [], fs⟩ (Spec.WrittenField.text d ⟨f.quoted, f.chars, 0⟩ ++ rest) =
      csvTextD d lim b ⟨m, f.value, fs⟩ rest := by
  obtain ⟨quoted, chars, pad⟩ := f
  obtain ⟨_, hq, hx, hfirst⟩ := hf
  simp only at hq hx hfirst hl ⊢
  cases quoted with
  | true =>
    obtain ⟨q, hqq⟩ := Option.isSome_iff_exists.1 (hq rfl)
    obtain ⟨hq0, hqn, hqr, hqd, hqe⟩ := hd.2.1 q hqq
    have htext : Spec.WrittenField.text d ⟨true, chars, 0⟩ ++ rest = q :: (chars.flatMap (Spec.charText d true) ++ (q :: rest)) := by
      simp [Spec.WrittenField.text, hqq]
    have h1 : CsvR.char d lim ⟨.startField, [], fs⟩ q = .ok ⟨.inQuoted, [], fs⟩ := by
      simp only [CsvR.char, CsvR.startChar]
      rw [if_neg (by simp [hqn, hqr]), if_pos hqq.symm]
    obtain ⟨b, h2⟩ := csvIn_all (lim := lim) hd fs (q :: rest) chars false [] (fun x h => ⟨(hx x h).1, (hx x h).2.2.1, fun h' =>
      ⟨((hx x h).2.2.2 h').1, ((hx x h).2.2.2 h').2.1 rfl⟩⟩) (by simpa using hl)
    refine ⟨false, if d.doubled then .quoteInQuoted else .inField, ⟨?_, fun h => (by cases h), ?_⟩, ?_⟩
    · cases d.doubled <;> simp
    · cases d.doubled <;> simp
    · rw [htext, csvTextD_step hq0 hqn h1, h2]
      refine csvTextD_step hq0 hqn ?_
      simp only [CsvR.char]
      rw [if_neg (fun h => hqe h.symm), if_pos hqq.symm]
      rfl
  | false =>
    have hx' : ∀ x ∈ chars, OutChar d x := fun x h => ⟨(hx x h).1, (hx x h).2.1, (hx x h).2.2.1, fun h' =>
      ⟨((hx x h).2.2.2 h').1, ((hx x h).2.2.2 h').2.2 rfl⟩⟩
    cases chars with
    | nil => exact ⟨false, .startField, ⟨Or.inl rfl, fun h => (by cases h), fun h => (by cases h)⟩, rfl⟩
    | cons x xs =>
      have htext : Spec.WrittenField.text d ⟨false, x :: xs, 0⟩ ++ rest = Spec.charText d false x ++ (xs.flatMap (Spec.charText d false) ++ rest) := by
        simp [Spec.WrittenField.text]
      simp only [List.length_cons] at hl
      obtain ⟨b1, m1, hm1, hb1, h1⟩ := csvOut_one (lim := lim) (b := false) (g := []) (fs := fs) hd (hx' x (by simp)) (Or.inl rfl)
        (fun _ h => hfirst rfl x.1 (by obtain ⟨c, e⟩ := x; simp at h; simp [h])) (by simp; omega) (xs.flatMap (Spec.charText d false) ++ rest)
      obtain ⟨b2, m2, hm2, hb2, h2⟩ := csvOut_more (lim := lim) hd fs rest xs b1 m1 ([] ++ [x.1]) (fun y hy => hx' y (by simp [hy])) hm1 hb1 (by simp; omega)
      refine ⟨b2, m2, ⟨?_, hb2, fun _ => by simp [Spec.WrittenField.value]⟩, ?_⟩
      · rcases hm2 with rfl | rfl <;> simp
      · rw [htext, h1, h2]
        rfl

/-- Spaces in front are skipped. -/
theorem csvField_pad (hd : Spec.CleanDialect d) (hs : d.skipSpace = true) (hq : d.quote ≠ some c!" ") (he : d.escape ≠ some c!" ") (fs : List Str) (rest : Str) :
    ∀ n, csvTextD d lim false ⟨.startField, [], fs⟩ (List.replicate n c!" " ++ rest) = csvTextD d lim false ⟨.startField, [], fs⟩ rest
  | 0 => rfl
  | n + 1 => by
    rw [List.replicate_succ, List.cons_append, csvTextD_step (r' := ⟨.startField, [], fs⟩) (by decide) (by decide) ?_, csvField_pad hd hs hq he fs rest n]
    simp only [CsvR.char, CsvR.startChar]
    rw [if_neg (by decide), if_neg (fun h => hq h.symm), if_neg (fun h => he h.symm), if_pos ⟨trivial, hs⟩]

theorem text_pad (f : Spec.WrittenField) : f.text d = List.replicate f.pad c!" " ++ Spec.WrittenField.text d ⟨f.quoted, f.chars, 0⟩ := by
  simp [Spec.WrittenField.text]

theorem csvField (hd : Spec.CleanDialect d) (f : Spec.WrittenField) (hf : f.Sound d) (hl : f.chars.length ≤ lim) (fs : List Str) (rest : Str) :
    ∃ b m, FieldDone b m f.value ∧
      csvTextD d lim false ⟨.startField, [], fs⟩ (f.text d ++ rest) = csvTextD d lim b ⟨m, f.value, fs⟩ rest := by
  obtain ⟨b, m, h1, h2⟩ := csvField_start hd f hf hl fs rest
  refine ⟨b, m, h1, ?_⟩
  rw [text_pad, List.append_assoc]
  by_cases hp : f.pad = 0
  · rw [hp]; exact h2
  · obtain ⟨hs, hq, he⟩ := hf.1 hp
    rw [csvField_pad hd hs hq he]; exact h2

theorem csvField_delim (hd : Spec.CleanDialect d) {b : Bool} {m : CsvMode} {v : Str} (h : FieldDone b m v) (fs : List Str) (rest : Str) :
    csvTextD d lim b ⟨m, v, fs⟩ (d.delim :: rest) = csvTextD d lim false ⟨.startField, [], fs ++ [v]⟩ rest := by
  obtain ⟨⟨hd0, hdn, hdr⟩, hq, hesc, hsp⟩ := hd
  have hde : some d.delim ≠ d.escape := fun h => (hesc _ h.symm).2.2.2 rfl
  have hdq : some d.delim ≠ d.quote := fun h => (hq _ h.symm).2.2.2.1 rfl
  refine csvTextD_step hd0 hdn ?_
  rcases h.1 with rfl | rfl | rfl | rfl
  · simp only [CsvR.char, CsvR.startChar]
    rw [if_neg (by simp [hdn, hdr]), if_neg hdq, if_neg hde, if_neg (fun h => hsp h.2 h.1), if_pos trivial]
    rfl
  · simp only [CsvR.char, CsvR.fieldChar]
    rw [if_neg (by simp [hdn, hdr]), if_neg hde, if_pos trivial]
    rfl
  · simp only [CsvR.char, CsvR.fieldChar]
    rw [if_neg (by simp [hdn, hdr]), if_neg hde, if_pos trivial]
    rfl
  · simp only [CsvR.char]
    rw [if_neg hdq, if_pos trivial]
    rfl

theorem csvField_newline (hd : Spec.CleanDialect d) {b : Bool} {m : CsvMode} {v : Str} (h : FieldDone b m v) (fs : List Str) (rest : Str) :
    csvTextD d lim b ⟨m, v, fs⟩ (0x0a :: rest) =
      ((fs ++ [v]) :: (csvTextD d lim true CsvR.init rest).1, (csvTextD d lim true CsvR.init rest).2) := by
  obtain ⟨⟨hd0, hdn, hdr⟩, hq, hesc, hsp⟩ := hd
  have hq : some 0x0a ≠ d.quote := fun h => (hq _ h.symm).2.1 rfl
  have key : CsvR.char d lim ⟨m, v, fs⟩ 0x0a = .ok ⟨.eatCrnl, [], fs ++ [v]⟩ := by
    rcases h.1 with rfl | rfl | rfl | rfl
    · rfl
    · rfl
    · rfl
    · simp only [CsvR.char]
      rw [if_neg hq, if_neg (fun h => hdn h.symm), if_pos (Or.inl trivial)]
      rfl
  rw [csvTextD_newline key rfl]
  rfl

theorem csvField_end (hs : d.strict = false) {b : Bool} {m : CsvMode} {v : Str} (h : FieldDone b m v) (fs : List Str) :
    csvTextD d lim b ⟨m, v, fs⟩ [] = ([fs ++ [v]], none) := by
  have key : m = .afterEscaped → csvRowsD d lim ⟨m, v, fs⟩ [] = ([fs ++ [v]], none) := by
    rintro rfl
    rw [csvRowsD, if_pos (Or.inl (h.2.2 rfl)), hs]
    rfl
  cases b with
  | true => exact key (h.2.1 rfl)
  | false =>
    rcases h.1 with rfl | rfl | rfl | rfl
    · rfl
    · rfl
    · exact key rfl
    · rfl

/-! ### Records -/

theorem csvRecord (hd : Spec.CleanDialect d) (rest : Str) : ∀ (r : List Spec.WrittenField) (fs : List Str), r ≠ [] →
    (∀ f ∈ r, f.Sound d ∧ f.chars.length ≤ lim) → ∃ b m v fs', FieldDone b m v ∧ fs' ++ [v] = fs ++ r.map (·.value) ∧
      csvTextD d lim false ⟨.startField, [], fs⟩ (Spec.recordText d r ++ rest) = csvTextD d lim b ⟨m, v, fs'⟩ rest
  | [], _, h, _ => absurd rfl h
  | [f], fs, _, h => by
    obtain ⟨b, m, hm, h1⟩ := csvField hd f (h f (by simp)).1 (h f (by simp)).2 fs rest
    exact ⟨b, m, f.value, fs, hm, rfl, h1⟩
  | f :: g :: r, fs, _, h => by
    obtain ⟨b, m, hm, h1⟩ := csvField hd f (h f (by simp)).1 (h f (by simp)).2 fs (d.delim :: (Spec.recordText d (g :: r) ++ rest))
    obtain ⟨b', m', v, fs', hm', hv, h2⟩ := csvRecord hd rest (g :: r) (fs ++ [f.value]) (by simp) (fun x hx => h x (List.mem_cons_of_mem _ hx))
    refine ⟨b', m', v, fs', hm', by rw [hv]; simp, ?_⟩
    have : Spec.recordText d (f :: g :: r) ++ rest = f.text d ++ (d.delim :: (Spec.recordText d (g :: r) ++ rest)) := by
      simp [Spec.recordText]
    rw [this, h1, csvField_delim hd hm, h2]

theorem written_head (hd : Spec.CleanDialect d) (f : Spec.WrittenField) (hf : f.Sound d) :
    (f.text d = [] ∧ f.quoted = false ∧ f.pad = 0 ∧ f.value = []) ∨ ∃ c s, f.text d = c :: s ∧ c ≠ 0x0a ∧ c ≠ 0x0d := by
  obtain ⟨quoted, chars, pad⟩ := f
  obtain ⟨_, hq, hx, hfirst⟩ := hf
  simp only at hq hx hfirst
  cases pad with
  | succ n => exact Or.inr ⟨c!" ", _, by rw [text_pad, List.replicate_succ, List.cons_append], by decide, by decide⟩
  | zero =>
  cases quoted with
  | true =>
    obtain ⟨q, hqq⟩ := Option.isSome_iff_exists.1 (hq rfl)
    obtain ⟨hq0, hqn, hqr, hqd, hqe⟩ := hd.2.1 q hqq
    exact Or.inr ⟨q, _, by simp [Spec.WrittenField.text, hqq]; rfl, hqn, hqr⟩
  | false =>
    cases chars with
    | nil => exact Or.inl ⟨rfl, rfl, rfl, rfl⟩
    | cons x xs =>
      obtain ⟨c, esc⟩ := x
      obtain ⟨h0, hr, he, hp⟩ := hx (c, esc) (by simp)
      cases esc with
      | true =>
        obtain ⟨e, hee⟩ := Option.isSome_iff_exists.1 (he rfl)
        obtain ⟨he0, hen, her, hed⟩ := hd.2.2.1 e hee
        exact Or.inr ⟨e, _, by simp [Spec.WrittenField.text, Spec.charText, hee]; rfl, hen, her⟩
      | false => exact Or.inr ⟨c, _, by simp [Spec.WrittenField.text, Spec.charText]; rfl, ((hp rfl).2.2 rfl).2, hr⟩

theorem record_head (hd : Spec.CleanDialect d) (r : List Spec.WrittenField) (hr : r ≠ []) (hf : ∀ f ∈ r, f.Sound d)
    (h1 : ∀ f, r = [f] → f.value = [] → f.quoted = true ∨ f.pad ≠ 0) : ∃ c s, Spec.recordText d r = c :: s ∧ c ≠ 0x0a ∧ c ≠ 0x0d := by
  match r, hr with
  | [f], _ =>
    rcases written_head hd f (hf f (by simp)) with ⟨_, h2, h3, h4⟩ | h
    · rcases h1 f rfl h4 with h | h
      · rw [h] at h2; cases h2
      · exact absurd h3 h
    · exact h
  | f :: g :: r, _ =>
    rcases written_head hd f (hf f (by simp)) with ⟨h2, _, _, _⟩ | ⟨c, s, h2, h3, h4⟩
    · exact ⟨d.delim, _, by simp [Spec.recordText, h2]; rfl, hd.1.2.1, hd.1.2.2⟩
    · exact ⟨c, _, by simp [Spec.recordText, h2]; rfl, h3, h4⟩

theorem csvTextD_init (b : Bool) {c : Nat} (s : Str) (hn : c ≠ 0x0a) (hr : c ≠ 0x0d) :
    csvTextD d lim b CsvR.init (c :: s) = csvTextD d lim false ⟨.startField, [], []⟩ (c :: s) := by
  have : CsvR.init.char d lim c = CsvR.char d lim ⟨.startField, [], []⟩ c := by
    simp only [CsvR.char, CsvR.init]
    rw [if_neg (by simp [hn, hr])]
    rfl
  rw [csvTextD, csvTextD, this]

theorem text_noReturn (hd : Spec.CleanDialect d) (f : Spec.WrittenField) (hf : f.Sound d) : 0x0d ∉ f.text d := by
  obtain ⟨quoted, chars, pad⟩ := f
  obtain ⟨_, hq, hx, hfirst⟩ := hf
  have hbody : 0x0d ∉ chars.flatMap (Spec.charText d quoted) := by
    intro h
    obtain ⟨x, hxm, hxt⟩ := List.mem_flatMap.1 h
    obtain ⟨h0, hr, he, hp⟩ := hx x hxm
    unfold Spec.charText at hxt
    split at hxt
    · rename_i hesc
      obtain ⟨e, hee⟩ := Option.isSome_iff_exists.1 (he hesc)
      obtain ⟨he0, hen, her, hed⟩ := hd.2.2.1 e hee
      simp [hee] at hxt
      rcases hxt with h | h
      · exact her h.symm
      · exact hr h.symm
    · split at hxt
      · simp at hxt; exact hr hxt.symm
      · simp at hxt; exact hr hxt.symm
  unfold Spec.WrittenField.text
  rw [List.mem_append, not_or]
  refine ⟨fun h => absurd (List.eq_of_mem_replicate h) (by decide), ?_⟩
  split
  · rename_i hqt
    obtain ⟨q, hqq⟩ := Option.isSome_iff_exists.1 (hq hqt)
    obtain ⟨hq0, hqn, hqr, hqd, hqe⟩ := hd.2.1 q hqq
    simp only [hqq, Option.toList, List.mem_append, List.mem_singleton, not_or]
    exact ⟨⟨fun h => hqr h.symm, hbody⟩, fun h => hqr h.symm⟩
  · exact hbody

theorem recordText_noReturn (hd : Spec.CleanDialect d) : ∀ r : List Spec.WrittenField, (∀ f ∈ r, f.Sound d) → 0x0d ∉ Spec.recordText d r
  | [], _ => by simp [Spec.recordText]
  | [f], h => text_noReturn hd f (h f (by simp))
  | f :: g :: r, h => by
    have h1 := text_noReturn hd f (h f (by simp))
    have h2 := recordText_noReturn hd (g :: r) (fun x hx => h x (List.mem_cons_of_mem _ hx))
    simp only [Spec.recordText, List.mem_append, List.mem_singleton, not_or]
    exact ⟨⟨h1, fun h => hd.1.2.2 h.symm⟩, h2⟩

/-- Reading the text of a table, line breaks unified. -/
theorem csvTable (hd : Spec.CleanDialect d) {table : List (List Spec.WrittenField)} {text : Str} (ht : Spec.TableText d table text)
    (hf : ∀ r ∈ table, ∀ f ∈ r, f.Sound d ∧ f.chars.length ≤ lim)
    (h1 : ∀ r ∈ table, ∀ f, r = [f] → f.value = [] → f.quoted = true ∨ f.pad ≠ 0) :
    csvTextD d lim true CsvR.init (Spec.oneBreak text) = (table.map (fun r => r.map (·.value)), none) := by
  induction ht with
  | nil => rfl
  | last ne hs =>
    rename_i r
    have hr : r ≠ [] := by rintro rfl; exact ne rfl
    have hfr := hf r (by simp)
    rw [(oneBreak_eq_iff _).2 (recordText_noReturn hd r (fun f h => (hfr f h).1))]
    obtain ⟨c, s, hcs, hn, hcr⟩ := record_head hd r hr (fun f h => (hfr f h).1) (h1 r (by simp))
    obtain ⟨b, m, v, fs, hdone, hv, hread⟩ := csvRecord (lim := lim) hd [] r [] hr hfr
    rw [List.append_nil] at hread
    rw [hcs] at hread ⊢
    rw [csvTextD_init true s hn hcr, hread, csvField_end hs hdone, hv]
    simp
  | cons he hm ht ih =>
    rename_i r rs e text
    have hfr := hf r (by simp)
    have ih := ih (fun r hr => hf r (List.mem_cons_of_mem _ hr)) (fun r hr => h1 r (List.mem_cons_of_mem _ hr))
    have hbreak : Spec.oneBreak (Spec.recordText d r ++ e ++ text) = Spec.recordText d r ++ 0x0a :: Spec.oneBreak text := by
      rw [List.append_assoc, oneBreak_append _ _ (recordText_noReturn hd r (fun f h => (hfr f h).1))]
      congr 1
      cases he with
      | unix => rw [show u!"\n" ++ text = 0x0a :: text from rfl, oneBreak_cons (by decide)]
      | windows => rw [show u!"\r\n" ++ text = 0x0d :: 0x0a :: text from rfl, Spec.oneBreak]
      | mac =>
        rw [show u!"\r" ++ text = 0x0d :: text from rfl, Spec.oneBreak]
        · rfl
        · intro rest _ hx; exact hm rfl (by rw [hx]; rfl)
    rw [hbreak]
    by_cases hr : r = []
    · subst hr
      rw [show Spec.recordText d [] ++ 0x0a :: Spec.oneBreak text = 0x0a :: Spec.oneBreak text from rfl,
        csvTextD_newline (r' := ⟨.eatCrnl, [], []⟩) (r'' := ⟨.startRecord, [], []⟩) rfl rfl, if_pos rfl, ih]
      rfl
    · obtain ⟨c, s, hcs, hn, hcr⟩ := record_head hd r hr (fun f h => (hfr f h).1) (h1 r (by simp))
      obtain ⟨b, m, v, fs, hdone, hv, hread⟩ := csvRecord (lim := lim) hd (0x0a :: Spec.oneBreak text) r [] hr hfr
      rw [hcs, List.cons_append] at hread ⊢
      rw [csvTextD_init true _ hn hcr, hread, csvField_newline hd hdone, hv, ih]
      simp

theorem csvRowsD_fileLines (text : Str) : csvRowsD d lim CsvR.init (fileLines text) = csvTextD d lim true CsvR.init (Spec.oneBreak text) := by
  rw [← fileLines_oneBreak]
  exact csvRowsD_text (Spec.oneBreak text) [] CsvR.init (oneBreak_noReturn text)

end

/-- C125: without options `load_file` reads as it always does. -/
theorem C125_default (lim : Nat) (lines : List Str) : loadFileWith lim {} lines = loadFile lim lines := csvRowsD_excel 0x09 lim lines

theorem getD_false_iff (b : Option Bool) : b.getD true = false ↔ b = some false := by
  cases b with
  | none => simp
  | some b => cases b <;> simp

theorem getD_true_iff (b : Option Bool) : b.getD false = true ↔ b = some true := by
  cases b with
  | none => simp
  | some b => cases b <;> simp

theorem getD_some_iff (b : Option (Option Nat)) (c : Nat) : b.getD none = some c ↔ b = some (some c) := by
  cases b <;> simp

/-- What the keyword arguments mean is unique. -/
theorem means_unique {o : CsvOptions} {d d' : CsvDialect} (h : Spec.Means o d) (h' : Spec.Means o d') : d = d' := by
  have opt : ∀ {a b : Option Nat} {P : Nat → Prop}, (∀ c, a = some c ↔ P c) → (∀ c, b = some c ↔ P c) → a = b := by
    intro a b P ha hb
    cases a with
    | some x => exact ((hb x).2 ((ha x).1 rfl)).symm
    | none =>
      cases b with
      | none => rfl
      | some y => cases (ha y).2 ((hb y).1 rfl)
  have bool : ∀ {a b v : Bool} {P : Prop}, (a = v ↔ P) → (b = v ↔ P) → a = b := by
    intro a b v P ha hb
    have := ha.trans hb.symm
    revert this; clear ha hb
    cases a <;> cases b <;> cases v <;> simp
  obtain ⟨delim, quote, doubled, escape, skipSpace, strict⟩ := d
  obtain ⟨delim', quote', doubled', escape', skipSpace', strict'⟩ := d'
  have e1 : delim = delim' := by
    cases hd : o.delimiter with
    | none => exact (h.delimiter.1 hd).trans (h'.delimiter.1 hd).symm
    | some c => exact (h.delimiter.2 c hd).trans (h'.delimiter.2 c hd).symm
  have e2 : quote = quote' := opt h.quotechar h'.quotechar
  have e3 : doubled = doubled' := bool h.doublequote h'.doublequote
  have e4 : escape = escape' := opt h.escapechar h'.escapechar
  have e5 : skipSpace = skipSpace' := bool h.skipinitialspace h'.skipinitialspace
  have e6 : strict = strict' := bool h.strict h'.strict
  rw [e1, e2, e3, e4, e5, e6]

/-- The options that are used are the ones that are meant. -/
theorem dialect_means {o : CsvOptions} (hc : ¬ Spec.Contradictory o) : ∃ d, o.dialect = .ok d ∧ Spec.Means o d := by
  have mk : ∀ q : Option Nat,
      (∀ c, q = some c ↔ o.quoting ≠ some .none ∧ (o.quotechar = some (some c) ∨ o.quotechar = none ∧ c = c!"\"")) →
      Spec.Means o ⟨o.delimiter.getD 0x09, q, o.doublequote.getD true, o.escapechar.getD none, o.skipinitialspace.getD false, o.strict.getD false⟩ :=
    fun q hq => ⟨⟨fun h => by rw [h]; rfl, fun c h => by rw [h]; rfl⟩, getD_false_iff _, getD_some_iff _, getD_true_iff _, getD_true_iff _, hq⟩
  unfold CsvOptions.dialect
  cases hq : o.quoting with
  | none =>
    cases hch : o.quotechar with
    | none => exact ⟨_, rfl, mk _ (fun c => by simp [hq, hch, eq_comm])⟩
    | some q =>
      cases q with
      | none => exact ⟨_, rfl, mk _ (fun c => by simp [hch])⟩
      | some q => exact ⟨_, rfl, mk _ (fun c => by simp [hq, hch])⟩
  | some m =>
    cases m with
    | none => exact ⟨_, rfl, mk _ (fun c => by simp [hq])⟩
    | minimal =>
      cases hch : o.quotechar with
      | none => exact ⟨_, rfl, mk _ (fun c => by simp [hq, hch, eq_comm])⟩
      | some q =>
        cases q with
        | none => exact absurd ⟨Or.inl hq, hch⟩ hc
        | some q => exact ⟨_, rfl, mk _ (fun c => by simp [hq, hch])⟩
    | all =>
      cases hch : o.quotechar with
      | none => exact ⟨_, rfl, mk _ (fun c => by simp [hq, hch, eq_comm])⟩
      | some q =>
        cases q with
        | none => exact absurd ⟨Or.inr hq, hch⟩ hc
        | some q => exact ⟨_, rfl, mk _ (fun c => by simp [hq, hch])⟩

/-- C125: the reader follows the options that are given and the defaults for the others, and only contradictory ones are refused, whatever the file is. -/
theorem C125_options (lim : Nat) (o : CsvOptions) (lines : List Str) :
    (Spec.Contradictory o → loadFileWith lim o lines = ([], some .typeError)) ∧
    (¬ Spec.Contradictory o → ∃ d, Spec.Means o d ∧ loadFileWith lim o lines = csvRowsD d lim CsvR.init lines) := by
  refine ⟨fun h => ?_, fun h => ?_⟩
  · unfold loadFileWith CsvOptions.dialect
    rcases h.1 with h1 | h1 <;> rw [h1, h.2] <;> rfl
  · obtain ⟨d, h1, h2⟩ := dialect_means h
    exact ⟨d, h2, by rw [loadFileWith, h1]⟩

/-- C125: whatever the options are, a table that was written accordingly is read back, whichever fields have quotes around them and whichever
characters are escaped: delimiters, quotes and line feeds inside of fields as well as spaces in front, records without fields, any line endings and a
last line without one. -/
theorem C125_written (lim : Nat) (o : CsvOptions) (d : CsvDialect) (ho : Spec.Means o d) (hc : ¬ Spec.Contradictory o) (hd : Spec.CleanDialect d)
    (table : List (List Spec.WrittenField)) (text : Str) (ht : Spec.TableText d table text)
    (hf : ∀ r ∈ table, ∀ f ∈ r, f.Sound d ∧ f.value.length ≤ lim)
    (h1 : ∀ r ∈ table, ∀ f, r = [f] → f.value = [] → f.quoted = true ∨ f.pad ≠ 0) :
    loadFileWith lim o (fileLines text) = (table.map (fun r => r.map (·.value)), none) := by
  obtain ⟨d', hm, hr⟩ := (C125_options lim o (fileLines text)).2 hc
  rw [hr, means_unique hm ho]
  rw [csvRowsD_fileLines]
  exact csvTable hd ht (fun r hr f hfm => ⟨(hf r hr f hfm).1, by simpa [Spec.WrittenField.value] using (hf r hr f hfm).2⟩) h1

/-! ### Fields as they stand -/

/-- A field without quotes or escapes. -/
def plainWritten (f : Str) : Spec.WrittenField := ⟨false, f.map (fun c => (c, false)), 0⟩

theorem plainWritten_value (f : Str) : (plainWritten f).value = f := by
  simp [plainWritten, Spec.WrittenField.value, Function.comp_def]

theorem flatMap_plain (d : CsvDialect) (f : Str) : (f.map (fun c => (c, false))).flatMap (Spec.charText d false) = f := by
  induction f with
  | nil => rfl
  | cons c f ih => simp [Spec.charText] at ih ⊢; exact ih

theorem plainWritten_text (d : CsvDialect) (f : Str) : (plainWritten f).text d = f := by
  simp only [plainWritten, Spec.WrittenField.text, Bool.false_eq_true, if_false]
  exact flatMap_plain d f

theorem recordText_plain (d : CsvDialect) : ∀ r : List Str, Spec.recordText d (r.map plainWritten) = join [d.delim] r
  | [] => rfl
  | [f] => plainWritten_text d f
  | f :: g :: r => by
    have := recordText_plain d (g :: r)
    simp only [List.map_cons] at this ⊢
    rw [Spec.recordText, this, plainWritten_text, join_cons_cons]

theorem tableText_plain {d : CsvDialect} (hs : d.strict = false) {ls : List Str} {text : Str} (ht : Spec.TextOf ls text) :
    ∀ rows : List (List Str), rows.map (join [d.delim]) = ls → Spec.TableText d (rows.map (fun r => r.map plainWritten)) text := by
  induction ht with
  | nil =>
    intro rows h
    rw [List.map_eq_nil_iff.1 h]
    exact .nil
  | last ne h =>
    intro rows hr
    match rows, hr with
    | [r], hr =>
      simp only [List.map_cons, List.map_nil, List.cons.injEq, and_true] at hr
      rw [← hr, ← recordText_plain]
      exact .last (by rw [recordText_plain, hr]; exact ne) hs
  | cons h he hm ht ih =>
    intro rows hr
    match rows, hr with
    | r :: rows, hr =>
      simp only [List.map_cons, List.cons.injEq] at hr
      rw [← hr.1, ← recordText_plain]
      exact .cons he hm (ih rows hr.2)

/-- C125: with `quoting=csv.QUOTE_NONE` every field is read exactly as it stands, also where quotes stand in front; rows of any length, any
delimiter, any line endings. -/
theorem C125_verbatim (lim : Nat) (o : CsvOptions) (hq : o.quoting = some .none) (he : o.escapechar.getD none = none)
    (hs : o.skipinitialspace.getD false = false) (hst : o.strict.getD false = false)
    (hdel : o.delimiter.getD c!"\t" ≠ 0 ∧ o.delimiter.getD c!"\t" ≠ c!"\n" ∧ o.delimiter.getD c!"\t" ≠ c!"\r")
    (rows : List (List Str)) (text : Str) (ht : Spec.TextOf (rows.map (join [o.delimiter.getD c!"\t"])) text)
    (hf : ∀ r ∈ rows, r ≠ [[]] ∧ ∀ f ∈ r, f.length ≤ lim ∧ ∀ c ∈ f, c ≠ 0 ∧ c ≠ c!"\n" ∧ c ≠ c!"\r" ∧ c ≠ o.delimiter.getD c!"\t") :
    loadFileWith lim o (fileLines text) = (rows, none) := by
  have hc : ¬ Spec.Contradictory o := by rintro ⟨h | h, _⟩ <;> rw [hq] at h <;> cases h
  have hd : o.dialect = .ok ⟨o.delimiter.getD c!"\t", none, o.doublequote.getD true, none, false, false⟩ := by
    simp only [CsvOptions.dialect, hq, he, hs, hst]
  have ho : Spec.Means o ⟨o.delimiter.getD c!"\t", none, o.doublequote.getD true, none, false, false⟩ := by
    obtain ⟨d, h1, h2⟩ := dialect_means hc
    rw [hd] at h1
    cases h1
    exact h2
  have key := C125_written lim o _ ho hc ⟨hdel, fun q h => (by cases h), fun q h => (by cases h), fun h => (by cases h)⟩
    (rows.map (fun r => r.map plainWritten)) text (tableText_plain rfl ht rows rfl) ?_ ?_
  · rw [key]
    simp [Function.comp_def, plainWritten_value]
  · intro r hr f hfm
    obtain ⟨r', hr', rfl⟩ := List.mem_map.1 hr
    obtain ⟨f', hf', rfl⟩ := List.mem_map.1 hfm
    obtain ⟨hlen, hch⟩ := (hf r' hr').2 f' hf'
    refine ⟨⟨fun h => absurd rfl h, fun h => (by cases h), ?_, ?_⟩, by rw [plainWritten_value]; exact hlen⟩
    · intro x hx
      obtain ⟨c, hc, rfl⟩ := List.mem_map.1 hx
      obtain ⟨h0, hn, hr, hd⟩ := hch c hc
      exact ⟨h0, hr, fun h => (by cases h), fun _ => ⟨fun h => (by cases h), fun h => (by cases h), fun _ => ⟨hd, hn⟩⟩⟩
    · intro _ c hc
      exact ⟨fun h => (by cases h), fun h => (by cases h)⟩
  · intro r hr f h hv
    obtain ⟨r', hr', rfl⟩ := List.mem_map.1 hr
    exfalso
    match r', h with
    | [g], h =>
      simp only [List.map_cons, List.map_nil, List.cons.injEq, and_true] at h
      rw [← h, plainWritten_value] at hv
      subst hv
      exact (hf _ hr').1 rfl

/-! ### `csv.writer` -/

theorem oneBreak_sep {c : Nat} (hn : c ≠ 0x0a) (hr : c ≠ 0x0d) (b : Str) (a : Str) :
    Spec.oneBreak (a ++ c :: b) = Spec.oneBreak a ++ c :: Spec.oneBreak b := by
  fun_induction Spec.oneBreak a with
  | case1 s ih =>
    simp only [List.cons_append]
    rw [Spec.oneBreak, ih]
  | case2 x s hne ih =>
    simp only [List.cons_append]
    rw [Spec.oneBreak, ih]
    intro rest hx hs
    cases s with
    | nil => simp at hs; exact hn hs.1
    | cons y s => simp at hs; exact hne s hx (by rw [hs.1])
  | case3 => exact oneBreak_cons hr b

/-- Doubling quotes. -/
def doubleQuotes (f : Str) : Str := f.flatMap (fun c => if c = c!"\"" then u!"\"\"" else [c])

theorem doubleQuotes_cons {c : Nat} (h : c ≠ c!"\"") (s : Str) : doubleQuotes (c :: s) = c :: doubleQuotes s := by
  simp [doubleQuotes, h]

theorem doubleQuotes_head (s : Str) (rest : Str) (h : doubleQuotes s = 0x0a :: rest) : ∃ t, s = 0x0a :: t := by
  cases s with
  | nil => simp [doubleQuotes] at h
  | cons c s =>
    by_cases hc : c = c!"\""
    · simp [doubleQuotes, hc] at h
    · rw [doubleQuotes_cons hc] at h
      exact ⟨s, by rw [(List.cons.inj h).1]⟩

theorem oneBreak_doubleQuotes (f : Str) : Spec.oneBreak (doubleQuotes f) = doubleQuotes (Spec.oneBreak f) := by
  fun_induction Spec.oneBreak f with
  | case1 s ih =>
    rw [doubleQuotes_cons (by decide), doubleQuotes_cons (by decide), doubleQuotes_cons (by decide), Spec.oneBreak, ih]
  | case2 x s hne ih =>
    by_cases hr : x = 0x0d
    · subst hr
      rw [doubleQuotes_cons (by decide), if_pos rfl, doubleQuotes_cons (by decide), Spec.oneBreak, ih]
      · rfl
      · intro rest _ hx
        obtain ⟨t, ht⟩ := doubleQuotes_head _ _ hx
        exact hne t rfl ht
    · rw [if_neg hr]
      by_cases hc : x = c!"\""
      · subst hc
        have : ∀ t : Str, doubleQuotes (c!"\"" :: t) = c!"\"" :: c!"\"" :: doubleQuotes t := fun t => by simp [doubleQuotes]
        rw [this, this, oneBreak_cons (by decide), oneBreak_cons (by decide), ih]
      · rw [doubleQuotes_cons hc, doubleQuotes_cons hc, oneBreak_cons hr, ih]
  | case3 => rfl

/-- What `csv.writer` writes, with the line breaks that are read. -/
def writerWritten (alone : Bool) (f : Str) : Spec.WrittenField := ⟨Spec.writerQuotes alone f, (Spec.oneBreak f).map (fun c => (c, false)), 0⟩

theorem writerWritten_value (alone : Bool) (f : Str) : (writerWritten alone f).value = Spec.oneBreak f := by
  simp [writerWritten, Spec.WrittenField.value, Function.comp_def]

theorem flatMap_quoted (f : Str) : (f.map (fun c => (c, false))).flatMap (Spec.charText (.excel 0x09) true) = doubleQuotes f := by
  induction f with
  | nil => rfl
  | cons c f ih =>
    rw [List.map_cons, List.flatMap_cons, ih]
    by_cases hc : c = c!"\""
    · subst hc; rfl
    · simp [doubleQuotes, hc, Spec.charText, CsvDialect.excel]

theorem writerQuotes_false {alone : Bool} {f : Str} (h : Spec.writerQuotes alone f = false) :
    (∀ c ∈ f, c ≠ 0x09 ∧ c ≠ 0x22 ∧ c ≠ 0x0d ∧ c ≠ 0x0a) ∧ (alone = true → f ≠ []) := by
  simp only [Spec.writerQuotes, Bool.or_eq_false_iff, List.any_eq_false, Bool.and_eq_false_iff] at h
  refine ⟨fun c hc => ?_, fun ha hf => ?_⟩
  · have := h.1 c hc
    simp at this
    exact ⟨this.1.1.1, this.1.1.2, this.1.2, this.2⟩
  · subst hf; simp [ha] at h

theorem oneBreak_writerField {c : Nat} (alone : Bool) (f : Str) (rest : Str) :
    Spec.oneBreak (Spec.writerField alone f ++ c :: rest) = (writerWritten alone f).text (.excel 0x09) ++ Spec.oneBreak (c :: rest) := by
  cases h : Spec.writerQuotes alone f with
  | true =>
    have h1 : Spec.writerField alone f ++ c :: rest = [c!"\""] ++ (doubleQuotes f ++ c!"\"" :: c :: rest) := by
      simp [Spec.writerField, h, doubleQuotes]
    rw [h1, oneBreak_append _ _ (by decide), oneBreak_sep (by decide) (by decide), oneBreak_doubleQuotes, ← flatMap_quoted]
    simp [writerWritten, Spec.WrittenField.text, h, CsvDialect.excel]
  | false =>
    obtain ⟨h1, _⟩ := writerQuotes_false h
    have hr : 0x0d ∉ f := fun hc => (h1 _ hc).2.2.1 rfl
    have h2 : Spec.writerField alone f = f := by simp [Spec.writerField, h]
    have h3 : (writerWritten alone f).text (.excel 0x09) = f := by
      simp only [writerWritten, h, (oneBreak_eq_iff f).2 hr]
      exact plainWritten_text _ f
    rw [h2, h3, oneBreak_append _ _ hr]

theorem oneBreak_writerRow (alone : Bool) (rest : Str) : ∀ r : List Str,
    Spec.oneBreak (join u!"\t" (r.map (Spec.writerField alone)) ++ 0x0d :: 0x0a :: rest) =
      Spec.recordText (.excel 0x09) (r.map (writerWritten alone)) ++ 0x0a :: Spec.oneBreak rest
  | [] => by
    show Spec.oneBreak (0x0d :: 0x0a :: rest) = _
    rw [Spec.oneBreak]; rfl
  | [f] => by
    show Spec.oneBreak (Spec.writerField alone f ++ 0x0d :: 0x0a :: rest) = _
    rw [oneBreak_writerField, Spec.oneBreak]
    rfl
  | f :: g :: r => by
    have ih := oneBreak_writerRow alone rest (g :: r)
    simp only [List.map_cons] at ih ⊢
    rw [join_cons_cons, Spec.recordText, List.append_assoc, List.append_assoc]
    show Spec.oneBreak (Spec.writerField alone f ++ 0x09 :: (join u!"\t" (Spec.writerField alone g :: r.map (Spec.writerField alone)) ++
      0x0d :: 0x0a :: rest)) = _
    rw [oneBreak_writerField, oneBreak_cons (by decide), ih]
    simp [CsvDialect.excel]

theorem oneBreak_length (s : Str) : (Spec.oneBreak s).length ≤ s.length := by
  fun_induction Spec.oneBreak s with
  | case1 s ih => simp; omega
  | case2 c s hne ih => simp; exact ih
  | case3 => simp

theorem oneBreak_mem (s : Str) : ∀ c ∈ Spec.oneBreak s, c ∈ s ∨ c = 0x0a := by
  fun_induction Spec.oneBreak s with
  | case1 s ih =>
    intro c hc
    rcases List.mem_cons.1 hc with h | h
    · exact Or.inr h
    · rcases ih c h with h | h <;> simp [h]
  | case2 x s hne ih =>
    intro c hc
    rcases List.mem_cons.1 hc with h | h
    · split at h
      · exact Or.inr h
      · simp [h]
    · rcases ih c h with h | h <;> simp [h]
  | case3 => simp

/-- The text that is read. -/
theorem writerText_breaks : ∀ rows : List (List Str), ∃ text, Spec.oneBreak (Spec.writerText rows) = text ∧
    Spec.TableText (.excel 0x09) (rows.map (fun r => r.map (writerWritten (r.length == 1)))) text
  | [] => ⟨[], rfl, .nil⟩
  | r :: rows => by
    obtain ⟨text, h1, h2⟩ := writerText_breaks rows
    refine ⟨_, rfl, ?_⟩
    have : Spec.writerText (r :: rows) =
        join u!"\t" (r.map (Spec.writerField (r.length == 1))) ++ 0x0d :: 0x0a :: Spec.writerText rows := by
      simp [Spec.writerText]
    rw [this, oneBreak_writerRow, h1]
    have := Spec.TableText.cons (r := r.map (writerWritten (r.length == 1))) .unix (fun h => (by cases h)) h2
    simpa using this

/-- C125: what `csv.writer(f, delimiter='\t')` wrote is read back by `load_file` without any option, whatever is in the fields, except that carriage
returns come back as line feeds (the file is opened without `newline=''`). -/
theorem C125_writer (lim : Nat) (rows : List (List Str)) (h : ∀ r ∈ rows, ∀ f ∈ r, 0 ∉ f ∧ f.length ≤ lim) :
    loadFile lim (fileLines (Spec.writerText rows)) = (rows.map (fun r => r.map Spec.oneBreak), none) := by
  obtain ⟨text, h1, h2⟩ := writerText_breaks rows
  have hd : Spec.CleanDialect (.excel 0x09) :=
    ⟨by decide, fun q hq => (by cases hq; decide), fun e he => (by cases he), fun h => (by cases h)⟩
  have key : loadFile lim (fileLines (Spec.writerText rows)) = csvRowsD (.excel 0x09) lim CsvR.init (fileLines text) := by
    rw [← h1, fileLines_oneBreak, csvRowsD_excel]
    rfl
  rw [key, csvRowsD_fileLines, csvTable hd h2]
  · simp [Function.comp_def, writerWritten_value]
  · intro r hr f hf
    obtain ⟨r', hr', rfl⟩ := List.mem_map.1 hr
    obtain ⟨f', hf', rfl⟩ := List.mem_map.1 hf
    obtain ⟨h0, hl⟩ := h r' hr' f' hf'
    refine ⟨⟨fun h => absurd rfl h, fun _ => rfl, ?_, ?_⟩, ?_⟩
    · intro x hx
      obtain ⟨c, hc, rfl⟩ := List.mem_map.1 hx
      refine ⟨?_, fun h => oneBreak_noReturn f' (h ▸ hc), fun h => (by cases h), fun _ => ⟨fun h => (by cases h), fun _ _ => rfl, fun hq => ?_⟩⟩
      · intro hz
        rcases oneBreak_mem f' c hc with h | h
        · exact h0 (hz ▸ h)
        · simp only [] at hz; omega
      · obtain ⟨g1, _⟩ := writerQuotes_false hq
        have hr : 0x0d ∉ f' := fun hc => (g1 _ hc).2.2.1 rfl
        rw [(oneBreak_eq_iff f').2 hr] at hc
        exact ⟨(g1 c hc).1, (g1 c hc).2.2.2⟩
    · intro hq c hc
      obtain ⟨g1, _⟩ := writerQuotes_false hq
      have hr : 0x0d ∉ f' := fun hc => (g1 _ hc).2.2.1 rfl
      have hmem : c ∈ f' := by
        have := List.mem_of_mem_head? hc
        simp only [writerWritten, (oneBreak_eq_iff f').2 hr, List.mem_map] at this
        obtain ⟨c', hc', h⟩ := this
        cases h; exact hc'
      exact ⟨fun h => (g1 c hmem).2.1 (by simpa [CsvDialect.excel] using h), fun h => (by cases h)⟩
    · simp only [writerWritten, List.length_map]
      exact Nat.le_trans (oneBreak_length f') hl
  · intro r hr f hf hv
    obtain ⟨r', hr', rfl⟩ := List.mem_map.1 hr
    match r', hf with
    | [g], hf =>
      simp only [List.map_cons, List.map_nil, List.cons.injEq, and_true] at hf
      subst hf
      rw [writerWritten_value] at hv
      have hg : g = [] := by
        cases g with
        | nil => rfl
        | cons c g =>
          exfalso
          by_cases hne : ∃ t, c :: g = 0x0d :: 0x0a :: t
          · obtain ⟨t, ht⟩ := hne
            rw [ht, Spec.oneBreak] at hv
            cases hv
          · rw [Spec.oneBreak] at hv
            · cases hv
            · intro t h1 h2; exact hne ⟨t, by rw [h1, h2]⟩
      subst hg
      exact Or.inl rfl

/-- C125: it is read back exactly if and only if no field contains a carriage return. -/
theorem C125_writer_iff (lim : Nat) (rows : List (List Str)) (h : ∀ r ∈ rows, ∀ f ∈ r, 0 ∉ f ∧ f.length ≤ lim) :
    loadFile lim (fileLines (Spec.writerText rows)) = (rows, none) ↔ ∀ r ∈ rows, ∀ f ∈ r, c!"\r" ∉ f := by
  rw [C125_writer lim rows h]
  simp only [Prod.mk.injEq, and_true]
  have map_self : ∀ {α : Type} (g : α → α) (l : List α), l.map g = l ↔ ∀ a ∈ l, g a = a := by
    intro α g l
    induction l with
    | nil => simp
    | cons a l ih => simp [ih]
  rw [map_self]
  refine forall_congr' fun r => forall_congr' fun _ => ?_
  rw [map_self]
  exact forall_congr' fun f => forall_congr' fun _ => oneBreak_eq_iff f

/-! ### Instances -/

/-- A table with quotes, tabs and line feeds in fields, a record without fields and one with an empty field is written and read back. -/
example : loadFile 131072 (fileLines (Spec.writerText [[u!"1", u!"say \"hi\"", u!"a\tb\nc"], [], [[]], [u!"\"", []]])) =
    ([[u!"1", u!"say \"hi\"", u!"a\tb\nc"], [], [[]], [u!"\"", []]], none) :=
  (C125_writer_iff _ _ (by decide)).2 (by decide)

/-- A carriage return is not. -/
example : loadFile 131072 (fileLines (Spec.writerText [[u!"a\rb"]])) = ([[u!"a\nb"]], none) := C125_writer _ _ (by decide)

/-- A sentence that begins with a quote, read with quoting off. -/
example : loadFileWith 131072 { quoting := some .none } (fileLines u!"1\teng\t\"Hi\" he said.\r\n2\teng\t\"Oh\n") =
    ([[u!"1", u!"eng", u!"\"Hi\" he said."], [u!"2", u!"eng", u!"\"Oh"]], none) :=
  C125_verbatim _ _ rfl rfl rfl rfl (by decide) _ _
    (.cons (s := u!"1\teng\t\"Hi\" he said.") (by decide) .windows (by decide) (.cons (s := u!"2\teng\t\"Oh") (by decide) .unix (by decide) .nil))
    (by decide)

/-- Commas, single quotes and backslashes: a quoted field with a comma, an escaped quote and a line feed, and an unquoted one with an escaped comma and an
escaped line feed at its end, on the last line. -/
def commas : CsvOptions := { delimiter := some c!",", quotechar := some (some c!"'"), escapechar := some (some c!"\\"), doublequote := some false }

theorem means_commas : Spec.Means commas ⟨c!",", some c!"'", false, some c!"\\", false, false⟩ := by
  obtain ⟨d, h1, h2⟩ := dialect_means (o := commas) (by rintro ⟨_, h⟩; cases h)
  cases h1
  exact h2

example : loadFileWith 100 commas (fileLines u!"'a,\\'\nb',x\\,y\\\n") = ([[u!"a,'\nb", u!"x,y\n"]], none) := by
  let d : CsvDialect := ⟨c!",", some c!"'", false, some c!"\\", false, false⟩
  have ht : Spec.TableText d [[⟨true, [(c!"a", false), (c!",", false), (c!"'", true), (c!"\n", false), (c!"b", false)], 0⟩,
      ⟨false, [(c!"x", false), (c!",", true), (c!"y", false), (c!"\n", true)], 0⟩]] u!"'a,\\'\nb',x\\,y\\\n" := .last (by decide) rfl
  refine C125_written 100 commas d means_commas (by rintro ⟨_, h⟩; cases h) ⟨by decide, fun q h => ?_, fun e h => ?_, fun h => (by cases h)⟩ _ _ ht ?_ ?_
  · cases h; decide
  · cases h; decide
  · intro r hr f hf
    simp only [List.mem_singleton] at hr
    subst hr
    simp only [List.mem_cons, List.not_mem_nil, or_false] at hf
    rcases hf with rfl | rfl
    · exact ⟨⟨fun h => absurd rfl h, by decide, by decide, fun h => (by cases h)⟩, by decide⟩
    · refine ⟨⟨fun h => absurd rfl h, fun h => (by cases h), by decide, fun _ c h => ?_⟩, by decide⟩
      simp at h
      subst h
      decide
  · intro r hr f hf hv
    simp only [List.mem_singleton] at hr
    subst hr
    simp at hf

/-- Spaces behind the commas are skipped, also in front of quotes and of nothing. -/
def spaced : CsvOptions := { delimiter := some c!",", skipinitialspace := some true }

theorem means_spaced : Spec.Means spaced ⟨c!",", some c!"\"", true, none, true, false⟩ := by
  obtain ⟨d, h1, h2⟩ := dialect_means (o := spaced) (by rintro ⟨h | h, _⟩ <;> cases h)
  cases h1
  exact h2

example : loadFileWith 100 spaced (fileLines u!"a,  \"b,\", c\n  \n") = ([[u!"a", u!"b,", u!"c"], [[]]], none) := by
  let d : CsvDialect := ⟨c!",", some c!"\"", true, none, true, false⟩
  have ht : Spec.TableText d [[⟨false, [(c!"a", false)], 0⟩, ⟨true, [(c!"b", false), (c!",", false)], 2⟩, ⟨false, [(c!"c", false)], 1⟩],
      [⟨false, [], 2⟩]] u!"a,  \"b,\", c\n  \n" := .cons .unix (by decide) (.cons .unix (by decide) .nil)
  have hs : d.skipSpace = true ∧ d.quote ≠ some c!" " ∧ d.escape ≠ some c!" " := by decide
  refine C125_written 100 spaced d means_spaced (by rintro ⟨_, h⟩; cases h)
    ⟨by decide, fun q h => ?_, fun e h => (by cases h), fun _ => (by decide)⟩ _ _ ht ?_ ?_
  · cases h; decide
  · intro r hr f hf
    simp only [List.mem_cons, List.not_mem_nil, or_false] at hr
    rcases hr with rfl | rfl
    · simp only [List.mem_cons, List.not_mem_nil, or_false] at hf
      rcases hf with rfl | rfl | rfl
      · refine ⟨⟨fun h => absurd rfl h, fun h => (by cases h), by decide, fun _ c h => ?_⟩, by decide⟩
        simp at h; subst h; decide
      · exact ⟨⟨fun _ => hs, by decide, by decide, fun h => (by cases h)⟩, by decide⟩
      · refine ⟨⟨fun _ => hs, fun h => (by cases h), by decide, fun _ c h => ?_⟩, by decide⟩
        simp at h; subst h; decide
    · simp only [List.mem_singleton] at hf
      subst hf
      exact ⟨⟨fun _ => hs, fun h => (by cases h), by decide, fun _ c h => (by cases h)⟩, by decide⟩
  · intro r hr f hf hv
    simp only [List.mem_cons, List.not_mem_nil, or_false] at hr
    rcases hr with rfl | rfl
    · simp at hf
    · cases hf; exact Or.inr (by decide)

/-- Quotes around everything without a quote character is refused. -/
example (lines : List Str) : loadFileWith 100 { quoting := some .all, quotechar := some none } lines = ([], some .typeError) :=
  (C125_options 100 _ lines).1 ⟨Or.inr rfl, rfl⟩

end Cjk
