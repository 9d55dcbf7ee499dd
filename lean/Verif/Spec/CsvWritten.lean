import Verif.Model.LoadOptions
import Verif.Spec.TextFile
/-!
# Ways of writing a table as delimiter-separated text

A field is written with or without quotes around it.  Every one of its characters can be escaped, if there is an escape character; a quote between
quotes is escaped or doubled.  Spaces can stand in front of a field if they are skipped.
-/

namespace Cjk.Spec
open Py

/-- The special characters of a dialect are different and no line breaks; spaces that are skipped do not separate. -/
def CleanDialect (d : CsvDialect) : Prop :=
  (d.delim ≠ 0 ∧ d.delim ≠ c!"\n" ∧ d.delim ≠ c!"\r") ∧
  (∀ q, d.quote = some q → q ≠ 0 ∧ q ≠ c!"\n" ∧ q ≠ c!"\r" ∧ q ≠ d.delim ∧ d.escape ≠ some q) ∧
  (∀ e, d.escape = some e → e ≠ 0 ∧ e ≠ c!"\n" ∧ e ≠ c!"\r" ∧ e ≠ d.delim) ∧
  (d.skipSpace = true → d.delim ≠ c!" ")

/-- What the keyword arguments mean: the delimiter is the tab and the quote character is `"` unless given; a backslash or the like is only special if given;
quotes are doubled unless it is said otherwise; quotes are not special if `quoting` says so or if there is no quote character and `quoting` is not given. -/
structure Means (o : CsvOptions) (d : CsvDialect) : Prop where
  delimiter : (o.delimiter = none → d.delim = c!"\t") ∧ (∀ c, o.delimiter = some c → d.delim = c)
  doublequote : d.doubled = false ↔ o.doublequote = some false
  escapechar : ∀ c, d.escape = some c ↔ o.escapechar = some (some c)
  skipinitialspace : d.skipSpace = true ↔ o.skipinitialspace = some true
  strict : d.strict = true ↔ o.strict = some true
  quotechar : ∀ c, d.quote = some c ↔ o.quoting ≠ some .none ∧ (o.quotechar = some (some c) ∨ o.quotechar = none ∧ c = c!"\"")

/-- The keyword arguments contradict each other: quotes are asked for, but there is no quote character. -/
def Contradictory (o : CsvOptions) : Prop := (o.quoting = some .minimal ∨ o.quoting = some .all) ∧ o.quotechar = some none

/-- How a field is written: whether it has quotes around it, its characters, each with whether it is escaped, and the number of spaces in front. -/
structure WrittenField where
  quoted : Bool
  chars : List (Nat × Bool)
  pad : Nat := 0

/-- The field itself. -/
def WrittenField.value (f : WrittenField) : Str := f.chars.map (·.1)

/-- A character as it is written. -/
def charText (d : CsvDialect) (quoted : Bool) (x : Nat × Bool) : Str :=
  if x.2 then d.escape.toList ++ [x.1] else if quoted = true ∧ some x.1 = d.quote then [x.1, x.1] else [x.1]

/-- A field as it is written. -/
def WrittenField.text (d : CsvDialect) (f : WrittenField) : Str :=
  List.replicate f.pad c!" " ++
    if f.quoted then d.quote.toList ++ f.chars.flatMap (charText d f.quoted) ++ d.quote.toList else f.chars.flatMap (charText d f.quoted)

/-- Everything that must be is quoted, doubled or escaped; there are only spaces in front if they are skipped.  Carriage returns and NUL characters are left out. -/
def WrittenField.Sound (d : CsvDialect) (f : WrittenField) : Prop :=
  (f.pad ≠ 0 → d.skipSpace = true ∧ d.quote ≠ some c!" " ∧ d.escape ≠ some c!" ") ∧
  (f.quoted = true → d.quote.isSome) ∧
  (∀ x ∈ f.chars, x.1 ≠ 0 ∧ x.1 ≠ c!"\r" ∧
    (x.2 = true → d.escape.isSome) ∧
    (x.2 = false → some x.1 ≠ d.escape ∧
      (f.quoted = true → some x.1 = d.quote → d.doubled = true) ∧
      (f.quoted = false → x.1 ≠ d.delim ∧ x.1 ≠ c!"\n"))) ∧
  (f.quoted = false → ∀ c, f.chars.head? = some (c, false) → some c ≠ d.quote ∧ (d.skipSpace = true → c ≠ c!" "))

/-- A record as it is written. -/
def recordText (d : CsvDialect) : List WrittenField → Str
  | [] => []
  | [f] => f.text d
  | f :: g :: fs => f.text d ++ [d.delim] ++ recordText d (g :: fs)

/-- `text` is a way of writing the records: each one is followed by a line ending; the last one can lack it unless the dialect is strict. -/
inductive TableText (d : CsvDialect) : List (List WrittenField) → Str → Prop where
  | nil : TableText d [] []
  | last {r : List WrittenField} (ne : recordText d r ≠ []) (hs : d.strict = false) : TableText d [r] (recordText d r)
  | cons {r : List WrittenField} {rs : List (List WrittenField)} {e text : Str} (he : Ending e) (hm : e = u!"\r" → text.head? ≠ some c!"\n")
      (ht : TableText d rs text) : TableText d (r :: rs) (recordText d r ++ e ++ text)

/-- All line breaks made line feeds. -/
def oneBreak : Str → Str
  | 0x0d :: 0x0a :: s => 0x0a :: oneBreak s
  | c :: s => (if c = 0x0d then 0x0a else c) :: oneBreak s
  | [] => []

/-! ### `csv.writer` -/

/-- Whether `csv.writer(f, delimiter='\t')` puts quotes around a field: the field contains a tab, a quote or a character of the line ending `\r\n`, or it
is empty and alone. -/
def writerQuotes (alone : Bool) (f : Str) : Bool :=
  f.any (fun c => c == c!"\t" || c == c!"\"" || c == c!"\r" || c == c!"\n") || (f.isEmpty && alone)

/-- A field as it writes it. -/
def writerField (alone : Bool) (f : Str) : Str :=
  if writerQuotes alone f then u!"\"" ++ f.flatMap (fun c => if c = c!"\"" then u!"\"\"" else [c]) ++ u!"\"" else f

/-- The text that `csv.writer(f, delimiter='\t').writerows(rows)` writes. -/
def writerText (rows : List (List Str)) : Str :=
  rows.flatMap (fun r => join u!"\t" (r.map (writerField (r.length == 1))) ++ u!"\r\n")

end Cjk.Spec
