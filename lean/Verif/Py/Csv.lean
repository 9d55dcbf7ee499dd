import Verif.Py.Base
import Verif.Py.Split
/-!
# `csv.reader`

The automaton of CPython's `_csv.c` (`parse_process_char`, `Reader_iternext`, Python 3.7 to 3.9) for the `excel` dialect with
another delimiter: quote character `"`, doubled quotes, no escape character, not strict.  `lim` is
`csv.field_size_limit()` (131072 by default).
-/

namespace Py

/-- The states that can occur without an escape character. -/
inductive CsvState where
  | startRecord | startField | inField | inQuoted | quoteInQuoted | eatCrnl
deriving DecidableEq

/-- The reader: state, current field, fields of the record so far. -/
structure Csv where
  st : CsvState
  field : Str
  fields : List Str
deriving DecidableEq

/-- `parse_reset` -/
def Csv.init : Csv := ⟨.startRecord, [], []⟩

/-- `parse_save_field` -/
def Csv.save (r : Csv) (st : CsvState) : Csv := ⟨st, [], r.fields ++ [r.field]⟩

/-- `parse_add_char` -/
def Csv.add (lim : Nat) (r : Csv) (c : Nat) (st : CsvState) : Except PyErr Csv :=
  if lim ≤ r.field.length then .error .genericException else .ok ⟨st, r.field ++ [c], r.fields⟩

/-- The case `START_FIELD` of `parse_process_char` for a character. -/
def Csv.startFieldChar (delim lim : Nat) (r : Csv) (c : Nat) : Except PyErr Csv :=
  if c = 0x0a ∨ c = 0x0d then .ok (r.save .eatCrnl)
  else if c = 0x22 then .ok { r with st := .inQuoted }
  else if c = delim then .ok (r.save .startField)
  else r.add lim c .inField

/-- `parse_process_char` for a character. -/
def Csv.char (delim lim : Nat) (r : Csv) (c : Nat) : Except PyErr Csv :=
  match r.st with
  | .startRecord =>
    if c = 0x0a ∨ c = 0x0d then .ok { r with st := .eatCrnl }
    else r.startFieldChar delim lim c
  | .startField => r.startFieldChar delim lim c
  | .inField =>
    if c = 0x0a ∨ c = 0x0d then .ok (r.save .eatCrnl)
    else if c = delim then .ok (r.save .startField)
    else r.add lim c .inField
  | .inQuoted =>
    if c = 0x22 then .ok { r with st := .quoteInQuoted } else r.add lim c .inQuoted
  | .quoteInQuoted =>
    if c = 0x22 then r.add lim c .inQuoted
    else if c = delim then .ok (r.save .startField)
    else if c = 0x0a ∨ c = 0x0d then .ok (r.save .eatCrnl)
    else r.add lim c .inField
  | .eatCrnl => if c = 0x0a ∨ c = 0x0d then .ok r else .error .genericException

/-- `parse_process_char` for the end of a line. -/
def Csv.endLine (r : Csv) : Csv :=
  match r.st with
  | .startRecord => r
  | .startField => r.save .startRecord
  | .inField => r.save .startRecord
  | .inQuoted => r
  | .quoteInQuoted => r.save .startRecord
  | .eatCrnl => { r with st := .startRecord }

/-- One line; a NUL character is an error. -/
def Csv.line (delim lim : Nat) (r : Csv) : Str → Except PyErr Csv
  | [] => .ok r.endLine
  | c :: s =>
    if c = 0 then .error .genericException
    else
      match r.char delim lim c with
      | .error e => .error e
      | .ok r' => r'.line delim lim s

/-- What a consumer of the reader sees: rows, and the exception that ends them if any. -/
abbrev Rows := List (List Str) × Option PyErr

/-- `Reader_iternext` again and again over the lines. -/
def csvRows (delim lim : Nat) : Csv → List Str → Rows
  | r, [] =>
    if r.field ≠ [] ∨ r.st = .inQuoted then ([(r.save .startRecord).fields], none) else ([], none)
  | r, l :: ls =>
    match r.line delim lim l with
    | .error e => ([], some e)
    | .ok r' =>
      if r'.st = .startRecord then
        let rest := csvRows delim lim Csv.init ls
        (r'.fields :: rest.1, rest.2)
      else csvRows delim lim r' ls

/-- `csv.reader(lines, delimiter=delim)` -/
def csvReader (delim lim : Nat) (lines : List Str) : Rows := csvRows delim lim Csv.init lines

end Py
