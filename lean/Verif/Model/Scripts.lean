import Verif.Py.Dict
import Verif.Py.Set
/-!
# Model of `cjktools/scripts.py`
-/

namespace Cjk
open Py

/-- `class Script(Enum)` (scripts.py:20-27). -/
inductive Script where
  | hiragana | katakana | kanji | ascii | fullAscii | halfKatakana | unknown
deriving DecidableEq, Repr

/-- `_known_bands` (scripts.py:29-36), in source order. -/
def knownBands : Dict Script (Chr × Chr) :=
  [ (.ascii,        (0x0021, 0x00ff)),
    (.hiragana,     (0x3041, 0x3096)),
    (.katakana,     (0x30a1, 0x30f6)),
    (.kanji,        (0x4e00, 0x9fa5)),
    (.fullAscii,    (0xff01, 0xff5f)),
    (.halfKatakana, (0xff61, 0xff9f)) ]

/-- `six.unichr` (Python 3 `chr`): `ValueError` outside `range(0x110000)`. -/
def unichr (i : Int) : Except PyErr Chr :=
  if 0 ≤ i ∧ i < 0x110000 then .ok i.toNat else .error .valueError

/-- Instances of `class ScriptMapping` (scripts.py:41-61): the attributes used by `__call__`. -/
structure ScriptMapping where
  fromStart : Chr
  fromEnd : Chr
  ordDiff : Int

/-- `ScriptMapping.__init__` (scripts.py:53-61), including the `KeyError` for `Script.Unknown` and the
assertion on the band lengths. -/
def ScriptMapping.init (fromScript toScript : Script) : Except PyErr ScriptMapping := do
  let (fs, fe) ← knownBands.getItem fromScript
  let (ts, te) ← knownBands.getItem toScript
  if (fe : Int) - fs ≤ (te : Int) - ts then
    .ok { fromStart := fs, fromEnd := fe, ordDiff := (ts : Int) - fs }
  else .error .assertionError

/-- `ScriptMapping.__call__` (scripts.py:63-76). -/
def ScriptMapping.call (m : ScriptMapping) : Str → Except PyErr Str
  | [] => .ok []
  | c :: s => do
    let d ← if m.fromStart ≤ c ∧ c ≤ m.fromEnd then unichr ((c : Int) + m.ordDiff) else .ok c
    let r ← m.call s
    .ok (d :: r)

/-- `to_hiragana = ScriptMapping(Katakana, Hiragana)` (scripts.py:78) with its total result; the theorem
`Cjk.toHiragana_eq_call` shows that the class-level model computes exactly this. -/
def toHiragana (s : Str) : Str := s.map (fun c => if 0x30a1 ≤ c ∧ c ≤ 0x30f6 then c - 96 else c)

/-- `to_katakana = ScriptMapping(Hiragana, Katakana)` (scripts.py:79); see `Cjk.toKatakana_eq_call`. -/
def toKatakana (s : Str) : Str := s.map (fun c => if 0x3041 ≤ c ∧ c ≤ 0x3096 then c + 96 else c)

/-- `_mapped_chars` (scripts.py:82-86). -/
def mappedChars : Dict Chr Chr := [(0x3000, 0x0020), (0x3001, 0x002c), (0x3002, 0x002e)]

/-- `_to_ascii = ScriptMapping(FullAscii, Ascii)` (scripts.py:88); see `Cjk.toAscii_eq_call`. -/
def toAscii (s : Str) : Str := s.map (fun c => if 0xff01 ≤ c ∧ c ≤ 0xff5f then c - 0xfee0 else c)

/-- `normalize_ascii` (scripts.py:91-106). -/
def normalizeAscii (s : Str) : Str := toAscii (s.map (fun c => (mappedChars.get? c).getD c))

/-- `_full_width_kana` (scripts.py:109-110). -/
def fullWidthKana : Str :=
  u!"。「」、・ヲァィゥェォャュョッーアイウエオカキクケコサシスセソタチツテトナニヌネノハヒフヘホマミムメモヤユヨラリルレロワン゛゜"

/-- `normalize_kana` (scripts.py:113-136), with the `IndexError` of the table lookup kept. -/
def normalizeKana : Str → Except PyErr Str
  | [] => .ok []
  | c :: s => do
    let (start, stop) ← knownBands.getItem .halfKatakana
    let d ← if start ≤ c ∧ c ≤ stop then getItemI fullWidthKana ((c : Int) - 0xff61) else .ok c
    let r ← normalizeKana s
    .ok (d :: r)

/-- `normalize` (scripts.py:139-154). -/
def normalize (s : Str) : Except PyErr Str := do
  let k ← normalizeKana s
  .ok (normalizeAscii k)

/-- `get_script` (scripts.py:157-168); `KeyError` for `Script.Unknown`.  (`unichr` cannot fail on the
bands of the table, so the characters are listed directly.) -/
def getScript (x : Script) : Except PyErr Str := do
  let (a, b) ← knownBands.getItem x
  .ok ((List.range (b + 1 - a)).map (fun i => a + i))

/-- `compare_kana` (scripts.py:171-187): `(a > b) - (a < b)` on the katakana forms. -/
def compareKana (s t : Str) : Int :=
  let a := toKatakana s
  let b := toKatakana t
  (if strLt b a then 1 else 0) - (if strLt a b then 1 else 0)

/-- The loop of `script_type` (scripts.py:239-243) over the bands table in a given iteration order. -/
def scriptTypeLoop : List (Script × (Chr × Chr)) → Chr → Script
  | [], _ => .unknown
  | (x, (a, b)) :: rest, c => if a ≤ c ∧ c ≤ b then x else scriptTypeLoop rest c

/-- `script_type` (scripts.py:210-243) for an arbitrary iteration order of the bands table. -/
def scriptTypeIn (bands : List (Script × (Chr × Chr))) : Str → Script
  | [] => .unknown
  | c :: _ => scriptTypeLoop bands c

/-- `script_type` (scripts.py:210-243) with the table in source order. -/
def scriptType (s : Str) : Script := scriptTypeIn knownBands s

/-- The for loop of `script_boundaries` (scripts.py:269-281).  `ty`, `cur` are `current_seg_type` and
`current_seg`; the result is the segments produced from here on. -/
def boundariesLoop (ty : Script) (cur : Str) : Str → List Str
  | [] => if cur.isEmpty then [] else [cur]
  | c :: s =>
    if scriptType [c] = ty ∨ c = c!"ー" then boundariesLoop ty (cur ++ [c]) s
    else cur :: boundariesLoop (scriptType [c]) [c] s

/-- `script_boundaries` (scripts.py:246-281). -/
def scriptBoundaries : Str → List Str
  | [] => [[]]
  | c :: s => boundariesLoop (scriptType (c :: s)) [c] s

/-- `script_types` (scripts.py:284-302): a set, used through membership. -/
def scriptTypes (s : Str) : List Script := s.map (fun c => scriptType [c])

/-- `contains_script` (scripts.py:190-207). -/
def containsScript (x : Script) (s : Str) : Bool := (scriptTypes s).contains x

/-- `unique_kanji` (scripts.py:305-320): `set(s)` without the characters that are not kanji. -/
def uniqueKanji (s : Str) : List Chr :=
  (dedup s).filter (fun c => !(scriptType [c] != .kanji))

end Cjk
