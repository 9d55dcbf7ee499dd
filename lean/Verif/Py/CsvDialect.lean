import Verif.Py.Csv
/-!
# `csv.reader` with its formatting options

The whole automaton of CPython's `_csv.c` (`parse_process_char`, `Reader_iternext`, Python 3.7 to 3.9), for `quoting` other than
`QUOTE_NONNUMERIC`.  `Py/Csv.lean` has the part of it that can be reached without options; `csvRowsD_excel` shows that it is the same there.
-/

namespace Py

/-- The options that a reader uses; `quote` is `none` for `QUOTE_NONE`. -/
structure CsvDialect where
  delim : Nat
  quote : Option Nat
  doubled : Bool
  escape : Option Nat
  skipSpace : Bool
  strict : Bool
deriving DecidableEq

/-- The states of the reader. -/
inductive CsvMode where
  | startRecord | startField | escaped | afterEscaped | inField | inQuoted | escapeInQuoted | quoteInQuoted | eatCrnl
deriving DecidableEq

/-- The reader: state, current field, fields of the record so far. -/
structure CsvR where
  mode : CsvMode
  field : Str
  fields : List Str
deriving DecidableEq

/-- `parse_reset` -/
def CsvR.init : CsvR := ⟨.startRecord, [], []⟩

/-- `parse_save_field` -/
def CsvR.save (r : CsvR) (m : CsvMode) : CsvR := ⟨m, [], r.fields ++ [r.field]⟩

/-- `parse_add_char` -/
def CsvR.add (lim : Nat) (r : CsvR) (c : Nat) (m : CsvMode) : Except PyErr CsvR :=
  if lim ≤ r.field.length then .error .genericException else .ok ⟨m, r.field ++ [c], r.fields⟩

/-- The case `START_FIELD` of `parse_process_char` for a character. -/
def CsvR.startChar (d : CsvDialect) (lim : Nat) (r : CsvR) (c : Nat) : Except PyErr CsvR :=
  if c = 0x0a ∨ c = 0x0d then .ok (r.save .eatCrnl)
  else if some c = d.quote then .ok { r with mode := .inQuoted }
  else if some c = d.escape then .ok { r with mode := .escaped }
  else if c = 0x20 ∧ d.skipSpace = true then .ok { r with mode := .startField }
  else if c = d.delim then .ok (r.save .startField)
  else r.add lim c .inField

/-- The case `IN_FIELD`; `AFTER_ESCAPED_CRNL` falls through to it and keeps its state on a normal character. -/
def CsvR.fieldChar (d : CsvDialect) (lim : Nat) (r : CsvR) (c : Nat) : Except PyErr CsvR :=
  if c = 0x0a ∨ c = 0x0d then .ok (r.save .eatCrnl)
  else if some c = d.escape then .ok { r with mode := .escaped }
  else if c = d.delim then .ok (r.save .startField)
  else r.add lim c r.mode

/-- `parse_process_char` for a character. -/
def CsvR.char (d : CsvDialect) (lim : Nat) (r : CsvR) (c : Nat) : Except PyErr CsvR :=
  match r.mode with
  | .startRecord =>
    if c = 0x0a ∨ c = 0x0d then .ok { r with mode := .eatCrnl }
    else r.startChar d lim c
  | .startField => r.startChar d lim c
  | .escaped => r.add lim c (if c = 0x0a ∨ c = 0x0d then .afterEscaped else .inField)
  | .afterEscaped => r.fieldChar d lim c
  | .inField => r.fieldChar d lim c
  | .inQuoted =>
    if some c = d.escape then .ok { r with mode := .escapeInQuoted }
    else if some c = d.quote then .ok { r with mode := if d.doubled then .quoteInQuoted else .inField }
    else r.add lim c .inQuoted
  | .escapeInQuoted => r.add lim c .inQuoted
  | .quoteInQuoted =>
    if some c = d.quote then r.add lim c .inQuoted
    else if c = d.delim then .ok (r.save .startField)
    else if c = 0x0a ∨ c = 0x0d then .ok (r.save .eatCrnl)
    else if d.strict = false then r.add lim c .inField
    else .error .genericException
  | .eatCrnl => if c = 0x0a ∨ c = 0x0d then .ok r else .error .genericException

/-- `parse_process_char` for the end of a line. -/
def CsvR.endLine (lim : Nat) (r : CsvR) : Except PyErr CsvR :=
  match r.mode with
  | .startRecord => .ok r
  | .startField => .ok (r.save .startRecord)
  | .escaped => r.add lim 0x0a .inField
  | .afterEscaped => .ok r
  | .inField => .ok (r.save .startRecord)
  | .inQuoted => .ok r
  | .escapeInQuoted => r.add lim 0x0a .inQuoted
  | .quoteInQuoted => .ok (r.save .startRecord)
  | .eatCrnl => .ok { r with mode := .startRecord }

/-- One line; a NUL character is an error. -/
def CsvR.line (d : CsvDialect) (lim : Nat) (r : CsvR) : Str → Except PyErr CsvR
  | [] => r.endLine lim
  | c :: s =>
    if c = 0 then .error .genericException
    else
      match r.char d lim c with
      | .error e => .error e
      | .ok r' => r'.line d lim s

/-- `Reader_iternext` again and again over the lines; at the end of the lines it gives out a record that was begun, or, if `strict`, raises. -/
def csvRowsD (d : CsvDialect) (lim : Nat) : CsvR → List Str → Rows
  | r, [] =>
    if r.field ≠ [] ∨ r.mode = .inQuoted then
      (if d.strict then ([], some .genericException) else ([(r.save .startRecord).fields], none))
    else ([], none)
  | r, l :: ls =>
    match r.line d lim l with
    | .error e => ([], some e)
    | .ok r' =>
      if r'.mode = .startRecord then
        let rest := csvRowsD d lim CsvR.init ls
        (r'.fields :: rest.1, rest.2)
      else csvRowsD d lim r' ls

/-- The dialect `excel` with another delimiter, which is what a reader uses without further options. -/
def CsvDialect.excel (delim : Nat) : CsvDialect := ⟨delim, some 0x22, true, none, false, false⟩

/-- The states of the smaller automaton. -/
def CsvState.toMode : CsvState → CsvMode
  | .startRecord => .startRecord
  | .startField => .startField
  | .inField => .inField
  | .inQuoted => .inQuoted
  | .quoteInQuoted => .quoteInQuoted
  | .eatCrnl => .eatCrnl

/-- The readers of the smaller automaton. -/
def Csv.toR (r : Csv) : CsvR := ⟨r.st.toMode, r.field, r.fields⟩

theorem Csv.toR_add (lim : Nat) (r : Csv) (c : Nat) (st : CsvState) (m : CsvMode) (hm : st.toMode = m) :
    r.toR.add lim c m = (r.add lim c st).map Csv.toR := by
  unfold CsvR.add Csv.add Csv.toR
  split <;> simp_all [Except.map]

theorem Csv.toR_startChar (delim lim : Nat) (r : Csv) (c : Nat) :
    r.toR.startChar (.excel delim) lim c = (r.startFieldChar delim lim c).map Csv.toR := by
  unfold CsvR.startChar Csv.startFieldChar
  by_cases h1 : c = 0x0a ∨ c = 0x0d
  · simp only [h1, if_true]; rfl
  · by_cases h2 : c = 0x22
    · simp only [h2]; rfl
    · by_cases h3 : c = delim
      · subst h3
        simp only [h1, h2, CsvDialect.excel, if_false, if_true, Option.some.injEq, reduceCtorEq, Bool.false_eq_true, and_false]
        rfl
      · simp only [h1, h2, h3, CsvDialect.excel, if_false, Option.some.injEq, reduceCtorEq, Bool.false_eq_true, and_false]
        exact Csv.toR_add lim r c _ _ rfl

theorem Csv.toR_char (delim lim : Nat) (r : Csv) (c : Nat) :
    r.toR.char (.excel delim) lim c = (r.char delim lim c).map Csv.toR := by
  obtain ⟨st, field, fields⟩ := r
  cases st
  · show (if c = 0x0a ∨ c = 0x0d then _ else _) = _
    simp only [Csv.char]
    split
    · rfl
    · exact Csv.toR_startChar delim lim ⟨.startRecord, field, fields⟩ c
  · exact Csv.toR_startChar delim lim ⟨.startField, field, fields⟩ c
  · show CsvR.fieldChar _ _ _ _ = _
    simp only [Csv.char, CsvR.fieldChar, CsvDialect.excel, reduceCtorEq, if_false]
    by_cases h1 : c = 0x0a ∨ c = 0x0d
    · simp only [h1, if_true]; rfl
    · by_cases h2 : c = delim
      · simp only [h2, if_true]
        rw [if_neg (h2 ▸ h1), if_neg (h2 ▸ h1)]
        rfl
      · simp only [h1, h2, if_false]
        exact Csv.toR_add lim ⟨.inField, field, fields⟩ c .inField _ rfl
  · simp only [Csv.char, CsvR.char, Csv.toR, CsvState.toMode, CsvDialect.excel, reduceCtorEq, if_false, Option.some.injEq]
    split
    · rfl
    · exact Csv.toR_add lim ⟨.inQuoted, field, fields⟩ c _ _ rfl
  · simp only [Csv.char, CsvR.char, Csv.toR, CsvState.toMode, CsvDialect.excel, Option.some.injEq, if_true]
    split
    · exact Csv.toR_add lim ⟨.quoteInQuoted, field, fields⟩ c _ _ rfl
    · split
      · rfl
      · split
        · rfl
        · exact Csv.toR_add lim ⟨.quoteInQuoted, field, fields⟩ c _ _ rfl
  · simp only [Csv.char, CsvR.char, Csv.toR, CsvState.toMode]
    split <;> rfl

theorem Csv.toR_endLine (lim : Nat) (r : Csv) : r.toR.endLine lim = .ok r.endLine.toR := by
  obtain ⟨st, field, fields⟩ := r
  cases st <;> rfl

theorem Csv.toR_line (delim lim : Nat) : ∀ (s : Str) (r : Csv),
    r.toR.line (.excel delim) lim s = (r.line delim lim s).map Csv.toR
  | [], r => Csv.toR_endLine lim r
  | c :: s, r => by
    simp only [CsvR.line, Csv.line, Csv.toR_char]
    split
    · rfl
    · cases r.char delim lim c with
      | error e => rfl
      | ok r' => exact Csv.toR_line delim lim s r'

theorem CsvState.toMode_startRecord (st : CsvState) : st.toMode = .startRecord ↔ st = .startRecord := by
  cases st <;> simp [CsvState.toMode]

theorem CsvState.toMode_inQuoted (st : CsvState) : st.toMode = .inQuoted ↔ st = .inQuoted := by
  cases st <;> simp [CsvState.toMode]

theorem csvRowsD_toR (delim lim : Nat) : ∀ (ls : List Str) (r : Csv),
    csvRowsD (.excel delim) lim r.toR ls = csvRows delim lim r ls
  | [], r => by
    simp only [csvRowsD, csvRows, CsvDialect.excel, Csv.toR, CsvState.toMode_inQuoted, Bool.false_eq_true, if_false]
    rfl
  | l :: ls, r => by
    simp only [csvRowsD, csvRows, Csv.toR_line]
    cases r.line delim lim l with
    | error e => rfl
    | ok r' =>
      simp only [Except.map, Csv.toR, CsvState.toMode_startRecord]
      split
      · have := csvRowsD_toR delim lim ls Csv.init
        rw [show CsvR.init = Csv.init.toR from rfl, this]
      · exact csvRowsD_toR delim lim ls r'

/-- Without options the whole automaton is the smaller one. -/
theorem csvRowsD_excel (delim lim : Nat) (ls : List Str) :
    csvRowsD (.excel delim) lim CsvR.init ls = csvReader delim lim ls := csvRowsD_toR delim lim ls Csv.init

end Py
