import Verif.Model.Zhuyin
import Verif.Py.Re
/-!
# Model of cjktools/resources/pinyin_table.py

`str.lower` is a parameter `lower` (its full Unicode table is not modelled); what is used of it is stated where it is used.
The compiled patterns are modelled as expressions, not as pattern strings: this agrees with the code for syllables without
characters that are special in patterns (`Model/PatternText.lean` and theorem `C69_pattern_text`).
-/

namespace Cjk
open Py

/-- `vowels` (pinyin_table.py:19). -/
def pinyinVowels : Str := u!"aeiouü"

/-- `tone_to_vowels` (pinyin_table.py:21-27). -/
def toneToVowels : Dict Int Str :=
  [(0, u!"aeiouü"), (1, u!"āēīōūǖ"), (2, u!"áéíóúǘ"), (3, u!"ǎěǐǒǔǚ"), (4, u!"àèìòùǜ")]

/-- `normalize` (pinyin_table.py:143-148). -/
def pinyinNormalize (lower : Str → Str) (s : Str) : Str := replaceChr 0x76 u!"ü" (replaceChr 0x20 [] (lower s))

/-- `a|b|c` for literal strings. -/
def litAlts : List Str → Re
  | [] => .eps
  | [a] => Re.lit a
  | a :: as => .alt (Re.lit a) (litAlts as)

/-- `[0-5]` -/
def isToneDigit (c : Nat) : Bool := decide (0x30 ≤ c) && decide (c ≤ 0x35)

/-- `base_pattern`, that is `((a|b|c)([0-5]?)|#)` (pinyin_table.py:109-115, zhuyin_table.py:71).  The three groups are
named `block`, `pinyin` and `tone`. -/
def pinyinRe (syllables : List Str) : Re :=
  .group u!"block" (.alt (.seq (.group u!"pinyin" (litAlts syllables)) (.group u!"tone" (Re.opt (.chr isToneDigit)))) (Re.lit u!"#"))

/-- A segmenter, with the syllables in the order of its pattern (`PinyinSegmenter.__init__`, pinyin_table.py:108-116). -/
def newSegmenter (lines : List Str) : Except PyErr (List Str) :=
  match getAllPinyin lines with
  | .error e => .error e
  | .ok all => .ok (longestFirst all)

/-- The tone of a match (pinyin_table.py:124-128). -/
def toneOf (tone : Str) : Except PyErr Int := if tone = [] then .ok 0 else pyInt 10 tone

/-- The short form of 儿 (pinyin_table.py:130-132). -/
def readSyllable (pinyin : Str) : Str := if pinyin = u!"r" then u!"er" else pinyin

/-- The loop of `segment_pinyin` (pinyin_table.py:122-136); a group that takes no part in the match is the empty string. -/
def correctMatches : List (Str × Caps) → Except PyErr (List (Str × Int))
  | [] => .ok []
  | m :: ms =>
    match toneOf ((Dict.get? m.2 u!"tone").getD []) with
    | .error e => .error e
    | .ok tone =>
      match correctMatches ms with
      | .error e => .error e
      | .ok rest => .ok ((readSyllable ((Dict.get? m.2 u!"pinyin").getD []), tone) :: rest)

/-- `segment_pinyin` (pinyin_table.py:118-136). -/
def segmentPinyin (lower : Str → Str) (syllables : List Str) (s : Str) : Except PyErr (List (Str × Int)) :=
  correctMatches ((pinyinRe syllables).finditer (pinyinNormalize lower s))

/-- What can remain after one or more repetitions of an expression, longest first; the number bounds the repetitions, and a
repetition that consumes nothing is not repeated. -/
def rePlus (r : Re) : Nat → Str → List Str
  | 0, _ => []
  | fuel + 1, s => (r.run s []).flatMap (fun m => (if m.1.length < s.length then rePlus r fuel m.1 else []) ++ [m.1])

/-- `is_pinyin` (pinyin_table.py:138-140), with `string_pattern` (pinyin_table.py:116). -/
def isPinyin (lower : Str → Str) (syllables : List Str) (s : Str) : Bool :=
  let n := pinyinNormalize lower s
  !(rePlus (pinyinRe syllables) (n.length + 1) n).isEmpty

/-- `vowels.index(char)` -/
def vowelIndex (c : Nat) : Option Nat := findChr c pinyinVowels

/-- The loop of `_apply_tone` (pinyin_table.py:96-102); the first argument is `used_tone`. -/
def applyToneLoop (tone : Int) : Bool → Str → Except PyErr Str
  | _, [] => .ok []
  | used, c :: s =>
    match (if used then none else vowelIndex c) with
    | some i =>
      match Dict.getItem toneToVowels tone with
      | .error e => .error e
      | .ok marked =>
        match Py.getItem marked i with
        | .error e => .error e
        | .ok c' => (applyToneLoop tone true s).map (fun t => c' :: t)
    | none => (applyToneLoop tone used s).map (fun t => c :: t)

/-- `_apply_tone` (pinyin_table.py:88-104). -/
def applyTone (syllable : Str) (tone : Int) : Except PyErr Str :=
  let tone := if tone = 5 then 0 else tone
  match syllable with
  | [] => .error .indexError
  | c :: s => (applyToneLoop tone false s).map (fun t => c :: t)

/-- The comprehension of `from_ascii` (pinyin_table.py:79), with the final `''.join`. -/
def applyTones : List (Str × Int) → Except PyErr Str
  | [] => .ok []
  | (p, t) :: chunks =>
    match applyTone p t with
    | .error e => .error e
    | .ok s => (applyTones chunks).map (fun r => s ++ r)

/-- `from_ascii` (pinyin_table.py:71-80). -/
def fromAscii (lower : Str → Str) (syllables : List Str) (s : Str) : Except PyErr Str :=
  match segmentPinyin lower syllables (pinyinNormalize lower s) with
  | .error e => .error e
  | .ok chunks => applyTones chunks

/-- `strip_tones` (pinyin_table.py:82-86). -/
def stripTones (lower : Str → Str) (syllables : List Str) (s : Str) : Except PyErr Str :=
  match segmentPinyin lower syllables (pinyinNormalize lower s) with
  | .error e => .error e
  | .ok chunks => .ok (chunks.map Prod.fst).flatten

/-- The loop of `PinyinTable.__init__` (pinyin_table.py:45-51). -/
def pinyinTableLoop (table : Dict Str (List Str)) : List Str → Except PyErr (Dict Str (List Str))
  | [] => .ok table
  | line :: lines =>
    if startsWith line u!"#" then pinyinTableLoop table lines
    else
      match splitWs (rstrip line) with
      | [] => .error .indexError
      | hanzi :: readings => pinyinTableLoop (Dict.set table hanzi readings) lines

/-- `PinyinTable.__init__` (pinyin_table.py:39-51), on the lines of the table. -/
def newPinyinTable (lines : List Str) : Except PyErr (Dict Str (List Str)) := pinyinTableLoop [] lines

/-- One character in `from_hanzi` (pinyin_table.py:60-67); `inline` and `use_tones` as after line 56. -/
def fromHanziChar (lower : Str → Str) (syllables : List Str) (table : Dict Str (List Str)) (inline useTones : Bool) (c : Nat) :
    Except PyErr Str :=
  match Py.getItem ((Dict.get? table [c]).getD [[c]]) 0 with
  | .error e => .error e
  | .ok reading =>
    if inline then fromAscii lower syllables reading
    else if !useTones then stripTones lower syllables reading
    else .ok reading

/-- The loop of `from_hanzi` (pinyin_table.py:58-69). -/
def fromHanziLoop (lower : Str → Str) (syllables : List Str) (table : Dict Str (List Str)) (inline useTones : Bool) :
    Str → Except PyErr Str
  | [] => .ok []
  | c :: s =>
    match fromHanziChar lower syllables table inline useTones c with
    | .error e => .error e
    | .ok x => (fromHanziLoop lower syllables table inline useTones s).map (fun r => x ++ r)

/-- `from_hanzi` (pinyin_table.py:53-69). -/
def fromHanzi (lower : Str → Str) (syllables : List Str) (table : Dict Str (List Str)) (inline useTones : Bool) (s : Str) :
    Except PyErr Str :=
  fromHanziLoop lower syllables table (if !useTones then false else inline) useTones s

end Cjk
