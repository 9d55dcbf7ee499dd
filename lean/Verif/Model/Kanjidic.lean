import Verif.Model.Scripts
import Verif.Model.Alternations
import Verif.Py.Re
/-!
# Model of `cjktools/resources/kanjidic.py`
-/

namespace Cjk
open Py

/-- `remappings` (kanjidic.py:34-57). -/
def kanjidicRemappings : Dict Str Str := [
  (u!"B", u!"radical_index"), (u!"C", u!"classical_radical_index"), (u!"F", u!"frequency"),
  (u!"G", u!"jyouyou_grade"), (u!"H", u!"halpern_index"), (u!"N", u!"nelson_index"),
  (u!"V", u!"new_nelson_index"), (u!"D", u!"dictionary_code"), (u!"P", u!"skip_code"),
  (u!"S", u!"stroke_count"), (u!"U", u!"unicode"), (u!"I", u!"spahn_code"),
  (u!"Q", u!"four_corner_code"), (u!"M", u!"morohashi_index"), (u!"E", u!"henshall_code"),
  (u!"K", u!"gakken_code"), (u!"L", u!"heisig_code"), (u!"O", u!"oneill_code"),
  (u!"W", u!"korean_reading"), (u!"Y", u!"pinyin_reading"), (u!"X", u!"cross_references"),
  (u!"Z", u!"misclassified_as")]

/-- The remainder of a code: an integer if `int` accepts it, else the text (kanjidic.py:177-181). -/
inductive CodeVal where
  | num (i : Int)
  | text (s : Str)
deriving DecidableEq, Repr

/-- The lists `info` collects (kanjidic.py:143-149); `codes` are its entries made by `setdefault`
(none of their names equals one of the five initial keys). -/
structure KInfo where
  gloss : List Str
  on : List Str
  kun : List Str
  codes : Dict Str (List CodeVal)
deriving DecidableEq

/-- `KanjidicEntry` (kanjidic.py:60-66): the attributes.  `codes` holds every attribute made from
codes except the three that are turned into single values. -/
structure KEntry where
  kanji : Str
  jisCode : Int
  gloss : List Str
  onReadings : List Str
  kunReadings : List Str
  strokeCount : CodeVal
  frequency : Option CodeVal
  skipCode : List Int
  codes : Dict Str (List CodeVal)
deriving DecidableEq

/-- The body of the loop of `get_all_readings` (kanjidic.py:73-80). -/
def readingStem (reading : Str) : Except PyErr Str :=
  let r := if isInfix u!"-" reading then replaceChr 0x2d [] reading else reading
  if isInfix u!"." r then
    match splitChr 0x2e r with
    | [stem, _suffix] => .ok stem
    | _ => .error .valueError
  else .ok r

/-- `KanjidicEntry.get_all_readings` (kanjidic.py:68-84); the result is a set. -/
def allReadings (e : KEntry) : Except PyErr (List Str) := do
  let l ← mapE readingStem (e.kunReadings ++ e.onReadings.map toHiragana)
  .ok (dedup l)

/-- `'[^ {]+|{.*?}'` (kanjidic.py:137). -/
def segmentPattern : Re :=
  .alt (Re.plus (fun c => c != 0x20 && c != 0x7b)) (Re.cat [Re.lit u!"{", .few Re.dot, Re.lit u!"}"])

/-- `segment_pattern.findall(s)`: the pattern has no groups, so whole matches are returned. -/
def segments (s : Str) : List Str := (segmentPattern.finditer s).map Prod.fst

/-- `try: remainder = int(remainder)  except: pass` (kanjidic.py:177-181). -/
def codeVal (s : Str) : CodeVal :=
  match pyInt 10 s with
  | .ok i => .num i
  | .error _ => .text s

/-- One round of the loop of `_parse_line` (kanjidic.py:152-184). -/
def segmentStep (info : KInfo) (s : Str) : Except PyErr KInfo :=
  if startsWith s u!"{" then
    .ok { info with gloss := info.gloss ++ [s.tail.dropLast] }
  else if scriptType s ≠ .ascii ∨ startsWith s u!"-" = true then do
    let c0 ← getItem s 0
    let char ← if c0 = 0x2d then getItem s 1 else .ok c0
    if scriptType [char] = .katakana then .ok { info with on := info.on ++ [s] }
    else if scriptType [char] = .hiragana then .ok { info with kun := info.kun ++ [s] }
    else .error .genericException
  else if s = u!"T1" ∨ s = u!"T2" then .ok info
  else do
    let code ← getItem s 0
    let name := (Dict.get? kanjidicRemappings [code]).getD [code]
    .ok { info with codes := Dict.set info.codes name ((Dict.get? info.codes name).getD [] ++ [codeVal s.tail]) }

/-- The loop of `_parse_line` (kanjidic.py:151-184). -/
def segmentLoop (info : KInfo) : List Str → Except PyErr KInfo
  | [] => .ok info
  | s :: ss => do
    let i ← segmentStep info s
    segmentLoop i ss

/-- `info[name][0]`; the lists are never empty. -/
def firstCode (info : KInfo) (name : Str) : Except PyErr CodeVal := do
  let l ← Dict.getItem info.codes name
  getItem l 0

/-- `if 'frequency' in info: info['frequency'] = info['frequency'][0]` (kanjidic.py:187-188). -/
def frequencyOf (info : KInfo) : Except PyErr (Option CodeVal) :=
  if Dict.contains info.codes u!"frequency" then (do
    let f ← firstCode info u!"frequency"
    .ok (some f))
  else .ok none

/-- `Kanjidic._parse_line` (kanjidic.py:135-193). -/
def kanjidicLine (line : Str) : Except PyErr KEntry :=
  match segments (strip line) with
  | [] => .error .indexError              -- `pop` from an empty list
  | [_] => .error .indexError
  | kanji :: jis :: rest => do
    let jisCode ← pyInt 16 jis
    let info ← segmentLoop ⟨[], [], [], []⟩ rest
    let strokes ← firstCode info u!"stroke_count"
    let frequency ← frequencyOf info
    let skip ← firstCode info u!"skip_code"
    match skip with
    | .num _ => .error .attributeError    -- an int has no `split`
    | .text s => do
      let skipCode ← mapE (pyInt 10) (splitChr 0x2d s)
      .ok ⟨kanji, jisCode, info.gloss, info.on, info.kun, strokes, frequency, skipCode,
        Dict.del (Dict.del (Dict.del info.codes u!"stroke_count") u!"frequency") u!"skip_code"⟩

/-- `Kanjidic._parse_kanjidic` (kanjidic.py:119-133) on the lines of all files. -/
def kanjidicLoop (d : Dict Str KEntry) : List Str → Except PyErr (Dict Str KEntry)
  | [] => .ok d
  | l :: ls =>
    if startsWith l u!"#" then kanjidicLoop d ls
    else do
      let e ← kanjidicLine l
      kanjidicLoop (Dict.set d e.kanji e) ls

/-- `Kanjidic(files)` (kanjidic.py:96-110): the files are read one after the other; `reduce` of no file at all
is a `TypeError`. -/
def kanjidic (files : List (List Str)) : Except PyErr (Dict Str KEntry) :=
  if files = [] then .error .typeError else kanjidicLoop [] files.flatten

end Cjk
