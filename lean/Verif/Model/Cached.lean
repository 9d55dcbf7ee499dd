import Verif.Py.Base
/-!
# Model of the memory-cached getters

`KanaTable.get_cached` (kana_table.py:112-118), `get_pinyin_table` and `get_pinyin_segmenter` (pinyin_table.py:151-169) construct the
object on the first call only.  `RadkDict.get_cached` (radkdict.py:81-87) and `Kanjidic.get_cached` (kanjidic.py:112-117) evaluate
`cls()` as the default argument of `getattr`, that is on every call.

What a constructor does depends on the data files at the time of the call, so every call comes with the outcome the constructor would
have if it ran now.  A successful constructor gives a new object: a client can tell objects apart with `is`.
-/

namespace Cjk
open Py

/-- One call of a getter: what it returns or raises, whether the constructor ran, and the cached object afterwards. -/
structure Got (O : Type) where
  result : Except PyErr O
  constructed : Bool
  cache : Option O

/-- The getters with `if not hasattr(cls, '_cached')` (kana_table.py:115-118) or `is None` (pinyin_table.py:155-158, 165-169). -/
def lazyGet {O : Type} (cache : Option O) (make : Except PyErr O) : Got O :=
  match cache with
  | some o => ⟨.ok o, false, some o⟩
  | none =>
    match make with
    | .ok o => ⟨.ok o, true, some o⟩
    | .error e => ⟨.error e, true, none⟩

/-- The getters with `cached = getattr(cls, '_cached', cls())` (radkdict.py:84-87, kanjidic.py:114-117). -/
def eagerGet {O : Type} (cache : Option O) (make : Except PyErr O) : Got O :=
  match make with
  | .error e => ⟨.error e, true, cache⟩
  | .ok o => ⟨.ok (cache.getD o), true, some (cache.getD o)⟩

/-- A sequence of calls. -/
def getRun {O : Type} (get : Option O → Except PyErr O → Got O) : Option O → List (Except PyErr O) → List (Except PyErr O × Bool)
  | _, [] => []
  | cache, m :: ms => ((get cache m).result, (get cache m).constructed) :: getRun get (get cache m).cache ms

/-! ### The two caches of pinyin_table.py

Objects are numbered in the order of their construction. -/

/-- `_cached_pinyin_segmenter`, `_cached_pinyin_table` (a table and its `_segmenter`), and the number of the next object. -/
structure PinyinCaches where
  seg : Option Nat
  table : Option (Nat × Nat)
  next : Nat

/-- A call; `mkSeg` and `mkTab` are the errors that reading the two files would raise now. -/
inductive PinyinCall where
  | segmenter (mkSeg : Option PyErr)
  | table (mkSeg mkTab : Option PyErr)
  /-- `PinyinTable()` called directly (pinyin_table.py:39-51) -/
  | newTable (mkSeg mkTab : Option PyErr)

/-- What a call returns. -/
inductive PinyinGot where
  | segmenter (id : Nat)
  /-- a table and the segmenter it uses -/
  | table (id seg : Nat)
deriving DecidableEq

/-- `get_pinyin_segmenter` (pinyin_table.py:161-169). -/
def getSegmenter (s : PinyinCaches) (mkSeg : Option PyErr) : Except PyErr Nat × PinyinCaches :=
  match s.seg with
  | some i => (.ok i, s)
  | none =>
    match mkSeg with
    | some e => (.error e, s)
    | none => (.ok s.next, ⟨some s.next, s.table, s.next + 1⟩)

/-- `PinyinTable.__init__` (pinyin_table.py:39-51): the segmenter first, then the table file. -/
def constructTable (s : PinyinCaches) (mkSeg mkTab : Option PyErr) : Except PyErr (Nat × Nat) × PinyinCaches :=
  match getSegmenter s mkSeg with
  | (.error e, s') => (.error e, s')
  | (.ok i, s') =>
    match mkTab with
    | some e => (.error e, s')
    | none => (.ok (s'.next, i), ⟨s'.seg, s'.table, s'.next + 1⟩)

/-- `get_pinyin_table` (pinyin_table.py:151-158). -/
def getTable (s : PinyinCaches) (mkSeg mkTab : Option PyErr) : Except PyErr (Nat × Nat) × PinyinCaches :=
  match s.table with
  | some t => (.ok t, s)
  | none =>
    match constructTable s mkSeg mkTab with
    | (.error e, s') => (.error e, s')
    | (.ok t, s') => (.ok t, ⟨s'.seg, some t, s'.next⟩)

/-- One call. -/
def PinyinCall.step (s : PinyinCaches) : PinyinCall → Except PyErr PinyinGot × PinyinCaches
  | .segmenter m => ((getSegmenter s m).1.map .segmenter, (getSegmenter s m).2)
  | .table m n => ((getTable s m n).1.map (fun t => .table t.1 t.2), (getTable s m n).2)
  | .newTable m n => ((constructTable s m n).1.map (fun t => .table t.1 t.2), (constructTable s m n).2)

/-- A sequence of calls: the calls with what they gave. -/
def pinyinRun : PinyinCaches → List PinyinCall → List (PinyinCall × Except PyErr PinyinGot)
  | _, [] => []
  | s, c :: cs => (c, (c.step s).1) :: pinyinRun (c.step s).2 cs

/-- The state after importing the module (pinyin_table.py:29-30). -/
def PinyinCaches.start : PinyinCaches := ⟨none, none, 0⟩

end Cjk
