import Verif.Model.Place
import Verif.Py.Lines
/-!
# `Place.dump` and `Place.from_file` on the text of the file (`cjktools/resources/place.py`)

`sopen(filename, 'w')` and `sopen(filename, mode='r')` open a text file (common.py:30-72) unless the name ends with `.gz` or `.bz2` or is `-`;
those names are not modelled here.
-/

namespace Cjk
open Py

/-- `Place.dump` (place.py:63-66): the text of the file. -/
def placeDumpText (r : Str → Str) (p : Place) : Str := (placeDump r p).flatten

/-- `Place.from_file` (place.py:68-106) on the text of the file. -/
def placeFromText (text : Str) : Except PyErr PStore := placeFromFile (fileLines text)

end Cjk
