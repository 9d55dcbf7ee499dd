import Verif.Py.Dict
import Verif.Py.Set
/-!
# Model of `cjktools/kana_table.py`

Keys and values of the dictionaries are strings, as in the code (`'か'` is the one-character string).
The class is built from an arbitrary ordering of the rows of `_table`, because the code iterates over
a dictionary.
-/

namespace Cjk
open Py

/-- `self._table` (kana_table.py:43-57) in source order. -/
def kanaRows : Dict Str Str :=
  [ (u!"あ", u!"あいうえお"), (u!"か", u!"かきくけこ"), (u!"が", u!"がぎぐげご"),
    (u!"さ", u!"さしすせそ"), (u!"ざ", u!"ざじずぜぞ"), (u!"た", u!"たちつてと"),
    (u!"だ", u!"だぢづでど"), (u!"ま", u!"まみむめも"), (u!"は", u!"はひふへほ"),
    (u!"ば", u!"ばびぶべぼ"), (u!"ぱ", u!"ぱぴぷぺぽ"), (u!"な", u!"なにぬねの"),
    (u!"ら", u!"らりるれろ") ]

/-- `self.vowels` (kana_table.py:36). -/
def kanaVowels : Str := u!"あいうえお"

/-- The attributes of a `KanaTable` that its methods read. -/
structure KanaTable where
  table : Dict Str Str
  toConsonant : Dict Str Str
  toVowel : Dict Str Str

/-- Length of the shortest row (`zip` stops there); 0 without rows. -/
def minLen : List Str → Nat
  | [] => 0
  | [r] => r.length
  | r :: rs => min r.length (minLen rs)

/-- `zip(*rows)`: the columns (every index below `minLen` is valid, so the default 0 is never used). -/
def zipStar (rows : List Str) : List Str :=
  (List.range (minLen rows)).map (fun i => rows.map (fun r => r.getD i 0))

/-- Insertion into a sorted list. -/
def insertChr (c : Chr) : Str → Str
  | [] => [c]
  | d :: s => if c ≤ d then c :: d :: s else d :: insertChr c s

/-- `sorted(chars)`. -/
def sortChrs (s : Str) : Str := s.foldr insertChr []

/-- The second loop of `_build_dicts` (kana_table.py:64-69) for one column.  `vowel_line[0]` of an
empty column would be an `IndexError`; a column is never empty since there is a row. -/
def addColumn (d : Dict Str Str) (column : Str) : Dict Str Str :=
  match sortChrs column with
  | [] => d
  | v :: rest => d.update ((v :: rest).map (fun k => ([k], [v])))

/-- `_build_dicts` (kana_table.py:42-69) on the rows in the order in which the dictionary iterates. -/
def KanaTable.build (rows : Dict Str Str) : KanaTable where
  table := rows
  toConsonant := rows.foldl (fun d row => d.update (row.2.map (fun e => ([e], row.1)))) []
  toVowel := (zipStar rows.values).foldl addColumn []

/-- `KanaTable()` (kana_table.py:31-40) with the rows in source order. -/
def kanaTable : KanaTable := KanaTable.build kanaRows

/-- `get_coords` (kana_table.py:71-76). -/
def KanaTable.getCoords (t : KanaTable) (kana : Str) : Except PyErr (Str × Str) := do
  let c ← t.toConsonant.getItem kana
  let v ← t.toVowel.getItem kana
  .ok (c, v)

/-- `from_coords` (kana_table.py:78-83).  `str.index` searches for a substring. -/
def KanaTable.fromCoords (t : KanaTable) (consonant vowel : Str) : Except PyErr Str := do
  let row ← t.table.getItem consonant
  let i ← index kanaVowels vowel
  let k ← getItem row i
  .ok [k]

/-- `to_vowel_line` (kana_table.py:85-90). -/
def KanaTable.toVowelLine (t : KanaTable) (kana : Str) : Option Str :=
  if kana = u!"わ" then some u!"あ" else t.toVowel.get? kana

/-- `to_consonant_line` (kana_table.py:92-94). -/
def KanaTable.toConsonantLine (t : KanaTable) (kana : Str) : Option Str := t.toConsonant.get? kana

/-- The characters whose canonical decomposition (NFD) is a base character followed by U+3099 (voiced
sound mark).  These are all such characters of Unicode. -/
def voicedChars : Str :=
  u!"がぎぐげござじずぜぞだぢづでどばびぶべぼゔゞガギグゲゴザジズゼゾダヂヅデドバビブベボヴヷヸヹヺヾ"

/-- Likewise for U+309A (semi-voiced sound mark). -/
def semivoicedChars : Str := u!"ぱぴぷぺぽパピプペポ"

/-- `is_voiced` (kana_table.py:96-100) on a one-character string; `unicodedata.normalize('NFD', .)` is
represented by the two tables (the code base only passes one character).  `isVoicedText` in `Model/KanaVoiced.lean` takes any text; `C136_character`
shows that they agree. -/
def isVoiced (c : Chr) : Bool := voicedChars.contains c || semivoicedChars.contains c

/-- `is_semivoiced` (kana_table.py:102-106) on a one-character string. -/
def isSemivoiced (c : Chr) : Bool := semivoicedChars.contains c

end Cjk
