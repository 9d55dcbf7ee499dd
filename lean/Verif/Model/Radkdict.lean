import Verif.Model.Maps
/-!
# Model of `cjktools/resources/radkdict.py`

The stream is the list of its (decoded) lines.  `get_cached` is modelled in Model/Cached.lean and `print_radicals` in
Model/PrintRadicals.lean.
-/

namespace Cjk
open Py

/-- The local variables of `_parse_radkfile` (radkdict.py:49-53); `cur` is `current_radical`. -/
structure RadkState where
  cur : Option Str
  radicalToKanji : Dict (Option Str) (List Chr)
  radicalToStrokeCount : Dict Str Int

/-- One round of the loop of `_parse_radkfile` (radkdict.py:55-73). -/
def radkStep (st : RadkState) (line0 : Str) : Except PyErr RadkState :=
  let line := rstrip line0
  if startsWith line u!"#" then .ok st
  else if startsWith line u!"$" then
    match splitWs line with
    | [_, radical, strokes] | [_, radical, strokes, _] => do
      let n ← pyInt 10 strokes
      .ok { st with cur := some radical, radicalToStrokeCount := Dict.set st.radicalToStrokeCount radical n }
    | _ => .error .genericException
  else
    let kanji := strip line
    .ok { st with radicalToKanji :=
            Dict.set st.radicalToKanji st.cur ((Dict.get? st.radicalToKanji st.cur).getD [] ++ kanji) }

/-- The loop of `_parse_radkfile` (radkdict.py:55-73). -/
def radkLoop (st : RadkState) : List Str → Except PyErr RadkState
  | [] => .ok st
  | l :: ls => do
    let st' ← radkStep st l
    radkLoop st' ls

/-- A `RadkDict`: the dictionary itself and its two attributes. -/
structure RadkDict where
  dict : Dict Chr (List (Option Str))
  radicalToStrokeCount : Dict Str Int
  radicalToKanji : Dict (Option Str) (List Chr)

/-- `RadkDict(istream)` (radkdict.py:34-79): the dictionary is filled by `invert_mapping`, then its values are
turned into tuples in place. -/
def radkDict (lines : List Str) : Except PyErr RadkDict := do
  let st ← radkLoop ⟨none, [], []⟩ lines
  let inverted := Dict.update [] (invertMapping st.radicalToKanji)
  .ok ⟨(mapDictInPlace (fun l => .ok l) inverted).1, st.radicalToStrokeCount, st.radicalToKanji⟩

end Cjk
