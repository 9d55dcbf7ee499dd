import Verif.Py.Unicode
import Verif.Py.Base

/-!
# `KanaTable.is_voiced` and `is_semivoiced` on any text

`Model/KanaTable.lean` has both for one character, with the normal forms of kana as tables; here the argument is any text and the Unicode database a
parameter.
-/

namespace Cjk

open Py

/-- `is_voiced(kana)` (kana_table.py:96-100). -/
def isVoicedText (U : Ucd) (kana : Str) : Bool :=
  let k := nfd U kana
  decide (k.length = 2) && (k.getD 1 0 == 0x3099 || k.getD 1 0 == 0x309a)

/-- `is_semivoiced(kana)` (kana_table.py:102-106). -/
def isSemivoicedText (U : Ucd) (kana : Str) : Bool :=
  let k := nfd U kana
  decide (k.length = 2) && k.getD 1 0 == 0x309a

end Cjk
