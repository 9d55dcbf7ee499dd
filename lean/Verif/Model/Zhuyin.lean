import Verif.Py.Base
import Verif.Py.Dict
/-!
# Model of cjktools/resources/zhuyin_table.py

The stream is the list of its lines (with their line ends).  `stream_codec` is the identity on Python 3 (common.py:75-84) and
`_get_stream_context` only chooses the stream (common.py:87-106), so neither appears.
-/

namespace Cjk
open Py

/-- `parse_lines` (zhuyin_table.py:23-28). -/
def zhuyinLines : List Str → List (List Str)
  | [] => []
  | line :: lines =>
    if !startsWith line u!"#" then splitWs (rstrip line) :: zhuyinLines lines else zhuyinLines lines

/-- The unpacking `for zhuyin, pinyin in ...` (zhuyin_table.py:35, 45, 56, 81). -/
def unpack2 : List Str → Except PyErr (Str × Str)
  | [a, b] => .ok (a, b)
  | _ => .error .valueError

/-- The loop of `zhuyin_to_pinyin_table` (zhuyin_table.py:35-36). -/
def zhuyinToPinyinLoop (table : Dict Str Str) : List (List Str) → Except PyErr (Dict Str Str)
  | [] => .ok table
  | row :: rows =>
    match unpack2 row with
    | .error e => .error e
    | .ok (zhuyin, pinyin) => zhuyinToPinyinLoop (Dict.set table zhuyin pinyin) rows

/-- `zhuyin_to_pinyin_table` (zhuyin_table.py:31-38). -/
def zhuyinToPinyinTable (lines : List Str) : Except PyErr (Dict Str Str) := zhuyinToPinyinLoop [] (zhuyinLines lines)

/-- The loop of `pinyin_to_zhuyin_table` (zhuyin_table.py:45-46). -/
def pinyinToZhuyinLoop (table : Dict Str Str) : List (List Str) → Except PyErr (Dict Str Str)
  | [] => .ok table
  | row :: rows =>
    match unpack2 row with
    | .error e => .error e
    | .ok (zhuyin, pinyin) => pinyinToZhuyinLoop (Dict.set table pinyin zhuyin) rows

/-- `pinyin_to_zhuyin_table` (zhuyin_table.py:41-48). -/
def pinyinToZhuyinTable (lines : List Str) : Except PyErr (Dict Str Str) := pinyinToZhuyinLoop [] (zhuyinLines lines)

/-- The loops that collect pinyin (zhuyin_table.py:56-57 and 81-82). -/
def collectPinyin (all : List Str) : List (List Str) → Except PyErr (List Str)
  | [] => .ok all
  | row :: rows =>
    match unpack2 row with
    | .error e => .error e
    | .ok (_, pinyin) => collectPinyin (all ++ [pinyin]) rows

/-- `get_all_pinyin` (zhuyin_table.py:51-59). -/
def getAllPinyin (lines : List Str) : Except PyErr (List Str) := collectPinyin [u!"r"] (zhuyinLines lines)

/-- Insertion in front of the strings that are not longer. -/
def insertLongest (a : Str) : List Str → List Str
  | [] => [a]
  | b :: l => if b.length ≤ a.length then a :: b :: l else b :: insertLongest a l

/-- `sorted(all_pinyin, key=len, reverse=True)` (zhuyin_table.py:68).  Python's sort is stable, also with `reverse`. -/
def longestFirst : List Str → List Str
  | [] => []
  | a :: l => insertLongest a (longestFirst l)

/-- `pinyin_regex_pattern` (zhuyin_table.py:62-73). -/
def pinyinRegexPattern (lines : List Str) : Except PyErr Str :=
  match getAllPinyin lines with
  | .error e => .error e
  | .ok all => .ok (u!"(" ++ join u!"|" (longestFirst all) ++ u!")([0-5]?)")

/-- `zhuyin_regex_pattern` (zhuyin_table.py:76-86); despite the name it collects pinyin. -/
def zhuyinRegexPattern (lines : List Str) : Except PyErr Str :=
  match collectPinyin [] (zhuyinLines lines) with
  | .error e => .error e
  | .ok all => .ok (u!"(" ++ join u!"|" all ++ u!")[0-4]?")

end Cjk
