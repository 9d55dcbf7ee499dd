import Verif.Model.Tatoeba
/-!
# Index readers as objects: sentences that are changed in place (tatoeba.py:514-671)

`reader[i]` and `parse_sentence` give out lists of words that `adjust_details` changes in place, and `edict` and `sentence_id_subset` can be
assigned at any time.  A list of words is named by its number in the order in which the lists were made.  Words are not shared between lists:
`parse_sentence` makes all of them.
-/

namespace Cjk
open Py

/-- The loop of `adjust_details` on the words themselves (tatoeba.py:638-656): an exception leaves the words before it changed. -/
def adjustInPlace (edict : Dict Str (List Str)) : List Tanaka → List Tanaka × Option PyErr
  | [] => ([], none)
  | w :: ws =>
    match adjustWord edict w with
    | .error e => (w :: ws, some e)
    | .ok x =>
      match adjustInPlace edict ws with
      | (xs, o) => (x :: xs, o)

/-- An index reader with all lists of words that were made (tatoeba.py:523-538). -/
structure IndexObj where
  lists : List (List Tanaka)
  subset : Option (List Int)
  edict : Option (Dict Str (List Str))
  src : Str
  sent : Dict Int Nat
  link : Dict Int Int

/-- The two dictionaries that the `jpn_indices` setter fills, with the lists made so far (tatoeba.py:571-572). -/
structure IndexFill where
  lists : List (List Tanaka)
  sent : Dict Int Nat
  link : Dict Int Int

/-- The end of the loop body of the setter (tatoeba.py:582-587). -/
def fillEnter (edict : Option (Dict Str (List Str))) (f : IndexFill) (i m : Int) (text : Str) : Except PyErr IndexFill :=
  match parseSentence text with
  | .error e => .error e
  | .ok ws =>
    match edict with
    | none => .ok ⟨f.lists ++ [ws], Dict.set f.sent i f.lists.length, Dict.set f.link i m⟩
    | some d =>
      match adjustInPlace d ws with
      | (_, some e) => .error e
      | (ws', none) => .ok ⟨f.lists ++ [ws'], Dict.set f.sent i f.lists.length, Dict.set f.link i m⟩

/-- The loop body of the setter (tatoeba.py:574-587). -/
def fillRow (edict : Option (Dict Str (List Str))) (subset : Option (List Int)) (f : IndexFill) (row : List Str) : Except PyErr IndexFill :=
  match row with
  | [a, b, text] =>
    match pyInt 10 a with
    | .error e => .error e
    | .ok i =>
      match pyInt 10 b with
      | .error e => .error e
      | .ok m =>
        match subset with
        | none => fillEnter edict f i m text
        | some ids => if i ∈ ids then fillEnter edict f i m text else .ok f
  | _ => .error .valueError

/-- The loop of the setter. -/
def fillRows (edict : Option (Dict Str (List Str))) (subset : Option (List Int)) (f : IndexFill) : List (List Str) → Except PyErr IndexFill
  | [] => .ok f
  | row :: rows =>
    match fillRow edict subset f row with
    | .error e => .error e
    | .ok f' => fillRows edict subset f' rows

/-- `reader.jpn_indices = src` (tatoeba.py:565-590).  The lists made by an assignment that raises cannot be reached and are left out. -/
def IndexObj.load (r : IndexObj) (src : Str) (rows : Rows) : IndexObj × Option PyErr :=
  match fillRows r.edict r.subset ⟨r.lists, [], []⟩ rows.1 with
  | .error e => ({ r with src := src }, some e)
  | .ok f =>
    match rows.2 with
    | some e => ({ r with src := src }, some e)
    | none => ({ r with src := src, lists := f.lists, sent := f.sent, link := f.link }, none)

/-- `reader.adjust_details(words)` for the list with number `a` (tatoeba.py:622-658). -/
def IndexObj.adjust (r : IndexObj) (a : Nat) : IndexObj × Option PyErr :=
  match r.edict with
  | none => (r, none)
  | some d =>
    match adjustInPlace d (r.lists.getD a []) with
    | (ws, o) => ({ r with lists := r.lists.set a ws }, o)

/-- `reader.parse_sentence(text)`, which makes a new list (tatoeba.py:592-620). -/
def IndexObj.parse (r : IndexObj) (text : Str) : IndexObj × Option PyErr :=
  match parseSentence text with
  | .error e => (r, some e)
  | .ok ws => ({ r with lists := r.lists ++ [ws] }, none)

/-- What a program does with a reader. -/
inductive IndexOp
  | setEdict (d : Option (Dict Str (List Str)))
  | setSubset (s : Option (List Int))
  | load (src : Str) (rows : Rows)
  | parse (text : Str)
  | adjust (a : Nat)

/-- One step (tatoeba.py:565-590, 592-658, 665-667; `edict` is an attribute). -/
def IndexObj.step (r : IndexObj) : IndexOp → IndexObj × Option PyErr
  | .setEdict d => ({ r with edict := d }, none)
  | .setSubset s => ({ r with subset := s }, none)
  | .load src rows => r.load src rows
  | .parse text => r.parse text
  | .adjust a => r.adjust a

/-- A program that catches the exceptions. -/
def IndexObj.run (r : IndexObj) : List IndexOp → IndexObj
  | [] => r
  | op :: ops => IndexObj.run (r.step op).1 ops

/-- `reader[i]`: the number of a list (tatoeba.py:34-35, 669-671). -/
def IndexObj.item (r : IndexObj) (i : Int) : Except PyErr Nat := Dict.getItem r.sent i

/-- The words of a list. -/
def IndexObj.words (r : IndexObj) (a : Nat) : List Tanaka := r.lists.getD a []

/-- What the reader answers with. -/
def IndexObj.view (r : IndexObj) : IndexData := ⟨r.sent.map (fun p => (p.1, r.words p.2)), r.link⟩

end Cjk
