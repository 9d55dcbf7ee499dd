import Verif.Model.Common
import Verif.Model.Maps
import Verif.Model.Scripts
/-!
# Model of cjktools/resources/kanji_list.py and cjktools/resources/languages.py
-/

namespace Cjk
open Py

/-- `get_list` (kanji_list.py:24-28); `read` gives the decoded content of a file. -/
def getKanjiList (env : DataEnv) (read : Str → Except PyErr Str) (name : Str) : Except PyErr (List Chr) :=
  match getResource env (u!"lists/char/" ++ name) with
  | .error e => .error e
  | .ok f =>
    match read f with
    | .error e => .error e
    | .ok content => .ok (uniqueKanji content)

/-- `get_lists` (kanji_list.py:19-21). -/
def getKanjiLists (env : DataEnv) (listdir : Str → Except PyErr (List Str)) : Except PyErr (List Str) :=
  match getResource env u!"lists/char" with
  | .error e => .error e
  | .ok f => listdir f

/-- `to_one_char_code` (languages.py:13-21). -/
def toOneCharCode : Dict Str Str :=
  [(u!"English", u!"e"), (u!"Chinese", u!"c"), (u!"Japanese", u!"j"), (u!"German", u!"g"), (u!"French", u!"f"), (u!"Spanish", u!"s"),
   (u!"Portugese", u!"p")]

/-- `from_one_char_code` (languages.py:23). -/
def fromOneCharCode : Except PyErr (Dict Str Str) := invertInjectiveMapping toOneCharCode

/-- `to_two_char_code` (languages.py:25-29). -/
def toTwoCharCode : Dict Str Str := [(u!"English", u!"en"), (u!"Chinese", u!"cn"), (u!"Japanese", u!"jp")]

/-- `from_two_char_code` (languages.py:31). -/
def fromTwoCharCode : Except PyErr (Dict Str Str) := invertInjectiveMapping toTwoCharCode

end Cjk
