import Verif.Model.DictFormat
import Verif.Model.IndexObjects
/-!
# A dictionary from a file as the dictionary of an index reader
-/

namespace Cjk
open Py

/-- What `adjust_details` sees of a `BilingualDictionary` that `load_dictionary` returned (tatoeba.py:642-653): `headword in edict` and
`edict[headword].readings` (bilingual_dict.py:20-33, where the dictionary is a `dict` of entries by word). -/
def readingsOf (d : Dict Str Entry) : Dict Str (List Str) := d.map (fun p => (p.1, p.2.readings))

/-- `TatoebaIndexReader(rows, edict=load_dictionary(lines), sentence_ids=subset)` (auto_format.py:22-35, tatoeba.py:523-590): the
dictionary is loaded first; if that fails there is no reader. -/
def indexWithFile (lines : List Str) (subset : Option (List Int)) (rows : Rows) : Except PyErr IndexData :=
  match loadDictionary lines with
  | .error e => .error e
  | .ok d => indexLoad (some (readingsOf d)) subset rows

end Cjk
