import Verif.Model.KanaTable
/-!
# `KanaTable` objects and the tables they hand out

`_table` is a dictionary object, and so is what `get_table` returns.  Dictionaries live in a store, so that the model can say which of them are one object.
-/

namespace Cjk
open Py

/-- A `KanaTable` object: `_table` is the dictionary at this place of the store (kana_table.py:43); `_to_consonant_line` and `_to_vowel_line` are not handed
out by any method, so their contents are kept here (kana_table.py:59-69). -/
structure KanaObj where
  table : Nat
  toConsonant : Dict Str Str
  toVowel : Dict Str Str

/-- The dictionaries, the `KanaTable` objects, and what the program got from `get_table`, in this order. -/
structure KanaWorld where
  dicts : List (Dict Str Str)
  objs : List KanaObj
  held : List Nat

/-- `copy.deepcopy` of a dictionary of strings: a new dictionary with the same items (strings are not copied). -/
def deepCopyTable (dicts : List (Dict Str Str)) (r : Nat) : List (Dict Str Str) × Nat := (dicts ++ [dicts.getD r []], dicts.length)

/-- A question to a `KanaTable`. -/
inductive KanaQuery where
  | coords (kana : Str)
  | fromCoords (consonant vowel : Str)
  | vowelLine (kana : Str)
  | consonantLine (kana : Str)

/-- The answer of the four methods (kana_table.py:71-94); a missing line is `None`. -/
def KanaTable.answer (t : KanaTable) : KanaQuery → Except PyErr (List (Option Str))
  | .coords k => (t.getCoords k).map (fun p => [some p.1, some p.2])
  | .fromCoords c v => (t.fromCoords c v).map (fun s => [some s])
  | .vowelLine k => .ok [t.toVowelLine k]
  | .consonantLine k => .ok [t.toConsonantLine k]

/-- What a program does: it makes a `KanaTable`, asks it for its table, asks a question, looks at a table it holds, or changes it. -/
inductive KanaStep where
  | new
  | getTable (obj : Nat)
  | ask (obj : Nat) (q : KanaQuery)
  | look (n : Nat)
  | put (n : Nat) (k v : Str)
  | del (n : Nat) (k : Str)
  | clear (n : Nat)

/-- What it sees. -/
inductive KanaSeen where
  | nothing
  | answer (a : Except PyErr (List (Option Str)))
  | items (d : Dict Str Str)
deriving DecidableEq

/-- `KanaTable()` (kana_table.py:31-69). -/
def KanaWorld.new (w : KanaWorld) : KanaWorld where
  dicts := w.dicts ++ [kanaTable.table]
  objs := w.objs ++ [⟨w.dicts.length, kanaTable.toConsonant, kanaTable.toVowel⟩]
  held := w.held

/-- The attributes of an object, as its methods see them. -/
def KanaWorld.view (w : KanaWorld) (o : KanaObj) : KanaTable := ⟨w.dicts.getD o.table [], o.toConsonant, o.toVowel⟩

/-- `get_table` (kana_table.py:108-110). -/
def KanaWorld.getTable (w : KanaWorld) (o : KanaObj) : KanaWorld :=
  let (dicts, r) := deepCopyTable w.dicts o.table
  ⟨dicts, w.objs, w.held ++ [r]⟩

/-- A change of the n-th table the program got. -/
def KanaWorld.change (w : KanaWorld) (n : Nat) (f : Dict Str Str → Dict Str Str) : KanaWorld :=
  match w.held[n]? with
  | none => w
  | some r => { w with dicts := w.dicts.modify r f }

/-- One step; steps that name an object or a table that does not exist do nothing. -/
def KanaWorld.step (w : KanaWorld) : KanaStep → KanaWorld × KanaSeen
  | .new => (w.new, .nothing)
  | .getTable i =>
    match w.objs[i]? with
    | none => (w, .nothing)
    | some o => (w.getTable o, .nothing)
  | .ask i q =>
    match w.objs[i]? with
    | none => (w, .nothing)
    | some o => (w, .answer ((w.view o).answer q))
  | .look n =>
    match w.held[n]? with
    | none => (w, .nothing)
    | some r => (w, .items (w.dicts.getD r []))
  | .put n k v => (w.change n (fun d => d.set k v), .nothing)
  | .del n k => (w.change n (fun d => d.del k), .nothing)
  | .clear n => (w.change n (fun _ => []), .nothing)

def KanaWorld.run : KanaWorld → List KanaStep → List KanaSeen
  | _, [] => []
  | w, s :: ss => (w.step s).2 :: KanaWorld.run (w.step s).1 ss

end Cjk
