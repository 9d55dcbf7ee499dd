import Verif.Model.DictFormat
import Verif.Py.Set
/-!
# Model of `cjktools/resources/split_by_codes.py`

Entries are mutable and shared between the sub-dictionaries, so they live in a store and the
dictionaries hold references (positions in the store).
-/

namespace Cjk
open Py

/-- `_known_codes` (split_by_codes.py:67-79). -/
def knownCodes : List Str := [
  u!"Buddh", u!"MA", u!"X", u!"abbr", u!"adj", u!"adj-f", u!"adj-i", u!"adj-na", u!"adj-no",
  u!"adj-pn", u!"adj-t", u!"adv", u!"adv-n", u!"adv-to", u!"arch", u!"ateji", u!"aux",
  u!"aux-adj", u!"aux-v", u!"chn", u!"col", u!"comp", u!"conj", u!"ctr", u!"derog", u!"eK",
  u!"ek", u!"exp", u!"fam", u!"fem", u!"food", u!"geom", u!"gikun", u!"gram", u!"hon", u!"hum",
  u!"iK", u!"id", u!"int", u!"io", u!"iv", u!"ling", u!"m-sl", u!"male", u!"male-sl", u!"math",
  u!"mil", u!"n", u!"n-adv", u!"n-pref", u!"n-suf", u!"n-t", u!"ng", u!"num", u!"oK", u!"obs",
  u!"obsc", u!"ok", u!"on-mim", u!"physics", u!"pn", u!"poet", u!"pol", u!"pref", u!"prt",
  u!"rare", u!"sens", u!"sl", u!"suf", u!"uK", u!"uk", u!"v1", u!"v5", u!"v5aru", u!"v5b",
  u!"v5g", u!"v5k", u!"v5k-s", u!"v5m", u!"v5n", u!"v5r", u!"v5r-i", u!"v5s", u!"v5t", u!"v5u",
  u!"v5u-s", u!"v5uru", u!"v5z", u!"vi", u!"vk", u!"vn", u!"vs", u!"vs-i", u!"vs-s", u!"vt",
  u!"vulg", u!"vz", u!"s", u!"p", u!"u", u!"g", u!"f", u!"m", u!"h", u!"pr", u!"co", u!"st"]

/-- The class `[a-zA-Z0-9,-]`. -/
def codeChr : Nat → Bool := fun c =>
  (0x61 ≤ c && c ≤ 0x7a) || (0x41 ≤ c && c ≤ 0x5a) || (0x30 ≤ c && c ≤ 0x39) || c == 0x2c || c == 0x2d

/-- `_code_pattern = '\(([a-zA-Z0-9,-]+)\)'` (split_by_codes.py:61-64). -/
def codePattern : Re := Re.cat [Re.lit u!"(", .group u!"1" (Re.plus codeChr), Re.lit u!")"]

/-- `_code_pattern.findall(sense)`: the text of the only group of every match. -/
def codeGroups (sense : Str) : List Str :=
  (codePattern.finditer sense).map (fun m => (Dict.get? m.2 u!"1").getD [])

/-- `get_codes` (split_by_codes.py:82-90). -/
def getCodes (sense : Str) : List Str :=
  dedup ((codeGroups sense).flatMap (fun m => (splitChr 0x2c m).filter (fun c => knownCodes.contains c)))

/-- `codes = set(); for sense in entry.senses: codes.update(get_codes(sense))`
(split_by_codes.py:37-39, 56-58). -/
def entryCodes (e : Entry) : List Str := dedup (e.senses.flatMap getCodes)

/-- The variables of `load_coded_dictionary` and the entry objects. -/
structure Coded where
  /-- the entry objects -/
  store : List Entry
  /-- `word_to_entry` -/
  words : Dict Str Nat
  /-- `coded_dict` -/
  coded : Dict Str (Dict Str Nat)
deriving DecidableEq

/-- `coded_dict[code][word] = entry` on a `defaultdict(dict)` (split_by_codes.py:45). -/
def fileUnder (d : Dict Str (Dict Str Nat)) (word : Str) (ref : Nat) (code : Str) : Dict Str (Dict Str Nat) :=
  Dict.set d code (Dict.set ((Dict.get? d code).getD []) word ref)

/-- One round of the loop (split_by_codes.py:26-45).  `order` is the iteration order of the set of
codes. -/
def codedStep (order : List Str → List Str) (st : Coded) (entry : Entry) : Except PyErr Coded :=
  match Dict.get? st.words entry.word with
  | some ref => do
    let e ← getItem st.store ref
    let r ← e.update entry
    .ok ⟨st.store.set ref r.1, st.words,
      (order (entryCodes r.1)).foldl (fun d c => fileUnder d entry.word ref c) st.coded⟩
  | none =>
    let ref := st.store.length
    .ok ⟨st.store ++ [entry], Dict.set st.words entry.word ref,
      (order (entryCodes entry)).foldl (fun d c => fileUnder d entry.word ref c) st.coded⟩

/-- The loop over the entries a generator yields. -/
def codedLoop (order : List Str → List Str) (st : Coded) : List Entry → Except PyErr Coded
  | [] => .ok st
  | e :: es => do
    let st' ← codedStep order st e
    codedLoop order st' es

/-- `load_coded_dictionary` (split_by_codes.py:16-47) on a stream of lines. -/
def loadCodedDictionary (order : List Str → List Str) (lines : List Str) : Except PyErr Coded := do
  let r ← iterFile lines
  let st ← codedLoop order ⟨[], [], []⟩ r.1
  match r.2 with
  | some e => .error e
  | none => .ok st

/-- `iter_coded_entries` (split_by_codes.py:50-59), a generator: what it yields and the exception that
ends it.  (On an empty stream Python reports the StopIteration as a RuntimeError, PEP 479; `.error`
stands for an exception before anything is yielded.) -/
def iterCodedEntries (lines : List Str) : Except PyErr (List (Entry × List Str) × Option PyErr) := do
  let r ← iterFile lines
  .ok (r.1.map (fun e => (e, entryCodes e)), r.2)

end Cjk
