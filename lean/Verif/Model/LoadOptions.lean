import Verif.Model.Tatoeba
import Verif.Py.CsvDialect
/-!
# Model of `load_file` with options for the `csv` module (tatoeba.py:53-84)

Options that are no characters or truth values, `dialect` and `quoting=csv.QUOTE_NONNUMERIC` (which makes numbers of fields) are not modelled;
`lineterminator` has no effect on reading.
-/

namespace Cjk
open Py

/-- The values of `quoting`. -/
inductive CsvQuoting where
  | minimal | all | none
deriving DecidableEq

/-- `csv_kwargs`: the keyword arguments given, if they are. -/
structure CsvOptions where
  delimiter : Option Nat := .none
  quotechar : Option (Option Nat) := .none
  doublequote : Option Bool := .none
  escapechar : Option (Option Nat) := .none
  skipinitialspace : Option Bool := .none
  strict : Option Bool := .none
  quoting : Option CsvQuoting := .none

/-- `reader_kwargs` (tatoeba.py:65-66) and what `csv.reader` makes of it: the delimiter of `load_file` is the tab, the other defaults are those of the
`csv` module; without a quote character quoting is off if `quoting` is not given and a TypeError otherwise. -/
def CsvOptions.dialect (o : CsvOptions) : Except PyErr CsvDialect :=
  let d (q : Option Nat) : CsvDialect :=
    ⟨o.delimiter.getD 0x09, q, o.doublequote.getD true, o.escapechar.getD .none, o.skipinitialspace.getD false, o.strict.getD false⟩
  match o.quoting, o.quotechar.getD (some 0x22) with
  | some .none, _ => .ok (d .none)
  | .none, .none => .ok (d .none)
  | some _, .none => .error .typeError
  | _, some q => .ok (d (some q))

/-- `load_file(f, **csv_kwargs)` (tatoeba.py:53-84) on an open file. -/
def loadFileWith (lim : Nat) (o : CsvOptions) (lines : List Str) : Rows :=
  match o.dialect with
  | .error e => ([], some e)
  | .ok d => csvRowsD d lim CsvR.init lines

end Cjk
