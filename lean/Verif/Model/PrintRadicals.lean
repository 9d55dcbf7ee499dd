import Verif.Model.Radkdict
/-!
# Model of `print_radicals` (cjktools/resources/radkdict.py:90-97)
-/

namespace Cjk
open Py

/-- Insertion into a sorted list of strings. -/
def insertStr (x : Str) : List Str → List Str
  | [] => [x]
  | y :: l => if strLt y x then y :: insertStr x l else x :: y :: l

/-- `sorted(strings)` -/
def sortStrs (l : List Str) : List Str := l.foldr insertStr []

/-- All the radicals of a kanji as strings.  `sorted` and `join` raise `TypeError` when `None` is among them: either for comparing it
with a string or for joining it. -/
def radicalNames : List (Option Str) → Except PyErr (List Str)
  | [] => .ok []
  | none :: _ => .error .typeError
  | some r :: rs =>
    match radicalNames rs with
    | .error e => .error e
    | .ok names => .ok (r :: names)

/-- `radical_dict[kanji]` for an argument string: the keys of the dictionary are single characters (radkdict.py:95). -/
def radicalsOf (rd : RadkDict) (kanji : Str) : Except PyErr (List (Option Str)) :=
  match kanji with
  | [c] => Dict.getItem rd.dict c
  | _ => .error .keyError

/-- The line printed for one kanji: `'%s: '`, the separator of `print`, the sorted radicals (radkdict.py:97). -/
def radicalLine (rd : RadkDict) (kanji : Str) : Except PyErr Str := do
  let rs ← radicalsOf rd kanji
  let names ← radicalNames rs
  .ok (kanji ++ u!": " ++ u!" " ++ join u!" " (sortStrs names))

/-- The loop of `print_radicals` (radkdict.py:93-97): the lines printed, and the exception that ended it, if any. -/
def printLoop (rd : RadkDict) : List Str → List Str × Option PyErr
  | [] => ([], none)
  | k :: ks =>
    match radicalLine rd k with
    | .error e => ([], some e)
    | .ok line => (line :: (printLoop rd ks).1, (printLoop rd ks).2)

/-- `print_radicals` (radkdict.py:90-97); `lines` is the content of the default radical file. -/
def printRadicals (lines : List Str) (kanji : List Str) : List Str × Option PyErr :=
  match radkDict lines with
  | .error e => ([], some e)
  | .ok rd => printLoop rd kanji

end Cjk
