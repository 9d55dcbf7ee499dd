import Verif.Model.Tatoeba
/-!
# Model of the Tatoeba readers as objects: the dictionary interface, and assignments one after the other

The readers inherit from `TatoebaDict` (tatoeba.py:29-41), which defines `__getitem__`, `__iter__` and `__len__` and takes all other
methods from `collections.Mapping`.  Those are modelled as they are written in the standard library (`_collections_abc.py`).
-/

namespace Cjk
open Py

/-- The three methods that a `Mapping` is made of. -/
structure PyMapping (V : Type) where
  getItem : Int → Except PyErr V
  iter : List Int
  len : Nat

/-- `Mapping.__contains__`: `try: self[key]`, `except KeyError: return False`, `else: return True`. -/
def PyMapping.contains {V : Type} (m : PyMapping V) (k : Int) : Except PyErr Bool :=
  match m.getItem k with
  | .ok _ => .ok true
  | .error .keyError => .ok false
  | .error e => .error e

/-- `Mapping.get`: `try: return self[key]`, `except KeyError: return default`. -/
def PyMapping.get {V : Type} (m : PyMapping V) (k : Int) (default : V) : Except PyErr V :=
  match m.getItem k with
  | .ok v => .ok v
  | .error .keyError => .ok default
  | .error e => .error e

/-- The loop of `ItemsView.__iter__`: `for key in self._mapping: yield (key, self._mapping[key])`. -/
def itemsLoop {V : Type} (getItem : Int → Except PyErr V) : List Int → Except PyErr (List (Int × V))
  | [] => .ok []
  | k :: ks =>
    match getItem k with
    | .error e => .error e
    | .ok v =>
      match itemsLoop getItem ks with
      | .error e => .error e
      | .ok l => .ok ((k, v) :: l)

/-- `Mapping.items`, read to the end. -/
def PyMapping.items {V : Type} (m : PyMapping V) : Except PyErr (List (Int × V)) := itemsLoop m.getItem m.iter

/-- `Mapping.values`, read to the end. -/
def PyMapping.values {V : Type} (m : PyMapping V) : Except PyErr (List V) := m.items.map (fun l => l.map Prod.snd)

/-- `d == e` for dictionaries, `veq` compares the values. -/
def dictsEq {V : Type} (veq : V → V → Bool) (a b : Dict Int V) : Bool :=
  a.length == b.length && a.all (fun kv => match Dict.get? b kv.1 with | some v => veq kv.2 v | none => false)

/-- `Mapping.__eq__`: `dict(self.items()) == dict(other.items())`. -/
def PyMapping.eq {V : Type} (veq : V → V → Bool) (m n : PyMapping V) : Except PyErr Bool :=
  match m.items, n.items with
  | .ok a, .ok b => .ok (dictsEq veq (Dict.ofList a) (Dict.ofList b))
  | .error e, _ => .error e
  | .ok _, .error e => .error e

/-- `==` of frozensets. -/
def setsEq (a b : List Int) : Bool := a.all (fun x => decide (x ∈ b)) && b.all (fun x => decide (x ∈ a))

/-- `==` of lists of words: element by element with `TanakaWord.__eq__` (tatoeba.py:489-508). -/
def wordsEq : List Tanaka → List Tanaka → Bool
  | [], [] => true
  | v :: vs, w :: ws => v.eq w && wordsEq vs ws
  | _, _ => false

/-- A sentence reader as a dictionary (tatoeba.py:34-41, 250-252). -/
def SentData.mapping {D : Type} (a : SentData D) : PyMapping Str := ⟨Dict.getItem a.sent, Dict.keys a.sent, a.sent.length⟩

/-- A links reader as a dictionary (tatoeba.py:37-41, 403-408): `_link_dict` gives the ids, `__getitem__` the groups. -/
def LinkData.mapping (d : LinkData) : PyMapping (List Int) := ⟨d.getItem, Dict.keys d.link, d.link.length⟩

/-- An index reader as a dictionary (tatoeba.py:34-41, 669-671). -/
def IndexData.mapping (d : IndexData) : PyMapping (List Tanaka) := ⟨d.getItem, Dict.keys d.sent, d.sent.length⟩

/-! ### Assignments -/

/-- `reader.sentences = src` (or `links`, `jpn_indices`) several times; a `ValueError` and the like is caught by the caller.  Gives the
reader afterwards and, for each assignment, the exception it raised. -/
def assignAll {R : Type} (assign : R → Str → Rows → R × Option PyErr) (r : R) : List (Str × Rows) → R × List (Option PyErr)
  | [] => (r, [])
  | (src, rows) :: l => ((assignAll assign (assign r src rows).1 l).1, (assign r src rows).2 :: (assignAll assign (assign r src rows).1 l).2)

end Cjk
