import Verif.Py.Dict
/-!
# Model of `cjktools/resources/bilingual_dict.py`

An entry owns its two lists: it is assumed that callers do not pass one list object to two entries
(`parse_line`, the only caller in cjktools, builds fresh lists).
-/

namespace Cjk
open Py

/-- `DictionaryEntry` (bilingual_dict.py:45-57). -/
structure Entry where
  word : Str
  readings : List Str
  senses : List Str
deriving DecidableEq, Repr

/-- `DictionaryEntry.__init__` (bilingual_dict.py:52-57). -/
def Entry.new (word : Str) (readings senses : List Str) : Except PyErr Entry :=
  if readings.length = 1 ∨ readings.length = senses.length then .ok ⟨word, readings, senses⟩
  else .error .assertionError

/-- `n * xs` for lists. -/
def repeatList {α : Type} (n : Nat) (xs : List α) : List α := (List.replicate n xs).flatten

/-- Padding a single reading to the number of senses (bilingual_dict.py:70-76). -/
def Entry.padded (e : Entry) : List Str :=
  if e.readings.length = 1 then repeatList e.senses.length e.readings else e.readings

/-- `DictionaryEntry.update` (bilingual_dict.py:59-81): the entry and its argument afterwards (the
argument's readings are padded in place). -/
def Entry.update (self rhs : Entry) : Except PyErr (Entry × Entry) :=
  if self.word = rhs.word then
    .ok (⟨self.word, self.padded ++ rhs.padded, self.senses ++ rhs.senses⟩,
      ⟨rhs.word, rhs.padded, rhs.senses⟩)
  else .error .genericException

/-- `result.setdefault(reading, []).append(sense)` (bilingual_dict.py:89-90). -/
def appendUnder (d : Dict Str (List Str)) (reading sense : Str) : Dict Str (List Str) :=
  Dict.set d reading (((Dict.get? d reading).getD []) ++ [sense])

/-- `DictionaryEntry.senses_by_reading` (bilingual_dict.py:83-95). -/
def Entry.sensesByReading (e : Entry) : Except PyErr (Dict Str (List Str)) :=
  if e.readings.length > 1 then
    if e.senses.length = e.readings.length then
      .ok ((e.readings.zip e.senses).foldl (fun d rs => appendUnder d rs.1 rs.2) [])
    else .error .assertionError
  else match e.readings with
    | [r] => .ok [(r, e.senses)]
    | _ => .error .valueError      -- unpacking an empty list

/-- `ClashPolicy` (bilingual_dict.py:18-20). -/
inductive ClashPolicy where
  | overwrite | merge
deriving DecidableEq

/-- `BilingualDictionary.update` (bilingual_dict.py:37-42). -/
def bilingualUpdate (d rhs : Dict Str Entry) (policy : ClashPolicy) : Except PyErr (Dict Str Entry) :=
  match policy with
  | .merge => .error .notYetImplementedError
  | .overwrite => .ok (d.update rhs)

/-! ### Programs over several entries -/

/-- Something a client does with entries, which it refers to by number. -/
inductive EntryOp where
  /-- construct an entry -/
  | new (word : Str) (readings senses : List Str)
  /-- `entries[i].update(entries[j])` (possibly with `i = j`) -/
  | update (i j : Nat)

/-- One step; an operation that raises leaves all entries as they were. -/
def EntryOp.step (es : List Entry) : EntryOp → List Entry
  | .new w r s => match Entry.new w r s with
    | .ok e => es ++ [e]
    | .error _ => es
  | .update i j => match es[i]?, es[j]? with
    | some a, some b => match a.update b with
      | .ok (a', b') => (es.set j b').set i a'
      | .error _ => es
    | _, _ => es

/-- A whole program. -/
def EntryOp.run (ops : List EntryOp) : List Entry := ops.foldl EntryOp.step []

end Cjk
