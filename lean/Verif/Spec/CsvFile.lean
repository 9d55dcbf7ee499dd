import Verif.Spec.CsvWritten
/-!
# What stands in a tab-separated file

Every text can be taken apart into records, and a record into fields.  A field that begins with a double quote reaches to the next quote that is not
doubled, over tabs and line ends, and then to the next tab or line end; a quote that is not closed reaches to the end of the file.
-/

namespace Cjk.Spec
open Py

/-- A field as it stands in a file: without a quote in front, or with the text between the quotes (doubled quotes stand for one) and the text behind. -/
inductive RawField where
  | plain (s : Str)
  | quoted (inside behind : Str)

/-- The inside of quotes as it is written. -/
def doubledQuotes (s : Str) : Str := s.flatMap (fun c => if c = c!"\"" then u!"\"\"" else [c])

/-- The characters of the file. -/
def RawField.text : RawField → Str
  | .plain s => s
  | .quoted inside behind => u!"\"" ++ doubledQuotes inside ++ u!"\"" ++ behind

/-- The field that is meant. -/
def RawField.value : RawField → Str
  | .plain s => s
  | .quoted inside behind => inside ++ behind

/-- Outside quotes there is no tab and no line end; a quote in front belongs to a quoted field, one behind the closing quote would be a doubled one. -/
def RawField.Ok : RawField → Prop
  | .plain s => (∀ c ∈ s, c ≠ c!"\t" ∧ c ≠ c!"\n") ∧ s.head? ≠ some c!"\""
  | .quoted _ behind => (∀ c ∈ behind, c ≠ c!"\t" ∧ c ≠ c!"\n") ∧ behind.head? ≠ some c!"\""

/-- A record: its fields, and the inside of a last field whose quote is not closed. -/
structure RawRecord where
  fields : List RawField
  unclosed : Option Str

/-- The characters of the file. -/
def RawRecord.text (r : RawRecord) : Str :=
  join u!"\t" (r.fields.map RawField.text ++ r.unclosed.toList.map (fun s => u!"\"" ++ doubledQuotes s))

/-- There is a field, and all fields are in order. -/
def RawRecord.Ok (r : RawRecord) : Prop := (r.fields ≠ [] ∨ r.unclosed ≠ none) ∧ ∀ f ∈ r.fields, f.Ok

/-- The fields that are meant; an empty line has none. -/
def RawRecord.row (r : RawRecord) : List Str := if r.text = [] then [] else r.fields.map RawField.value ++ r.unclosed.toList

/-- No field is too long and none contains NUL. -/
def RawRecord.Good (lim : Nat) (r : RawRecord) : Prop := ∀ v ∈ r.row, 0 ∉ v ∧ v.length ≤ lim

instance (lim : Nat) (r : RawRecord) : Decidable (r.Good lim) := by unfold RawRecord.Good; infer_instance

/-- The file consists of these records. -/
inductive FileOf : List RawRecord → Str → Prop where
  | nil : FileOf [] []
  | last {r : RawRecord} (ok : r.Ok) (ne : r.text ≠ []) : FileOf [r] r.text
  | cons {r : RawRecord} {rs : List RawRecord} {text : Str} (ok : r.Ok) (closed : r.unclosed = none) (h : FileOf rs text) :
      FileOf (r :: rs) (r.text ++ u!"\n" ++ text)

end Cjk.Spec
