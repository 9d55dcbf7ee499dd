import Verif.Model.Readers
/-!
# What a Tatoeba reader hands out, and files that are assigned later

`sentence_ids` and `iter(reader)` are those of the dictionary that the reader holds at the time (tatoeba.py:37-38, 244-248); an assignment makes a new dictionary and leaves the old one as it
is (tatoeba.py:214-241, 335-369, 568-590).  `keys()`, `items()` and `values()` come from `collections.Mapping` and hold the reader; their iterators are generators (`_collections_abc.py`:
`yield from self._mapping`, `for key in self._mapping: yield (key, self._mapping[key])`, `for key in self._mapping: yield self._mapping[key]`).

The dictionaries are in a store.  Simplified: the data of a dictionary are those of a `PyMapping` (for a links reader its two dictionaries together).
-/

namespace Cjk
open Py

/-- Which of the three views of `Mapping`. -/
inductive ViewKind where
  | keys
  | items
  | values
deriving DecidableEq

/-- What a program has got from the reader. -/
inductive ViewObj where
  /-- the view of the ids of dictionary `d` (`sentence_ids`) -/
  | ids (d : Nat)
  /-- an iterator of dictionary `d` that has given `n` ids -/
  | dictIter (d n : Nat)
  /-- an iterator of a view that has not been asked -/
  | fresh (kind : ViewKind)
  /-- one in its loop, with the iterator of dictionary `d` -/
  | loop (kind : ViewKind) (d n : Nat)
  /-- one that has ended or raised -/
  | ended

/-- What a step shows. -/
inductive ViewSeen (V : Type) where
  | nothing
  | key (k : Int)
  | item (k : Int) (v : V)
  | value (v : V)
  | stop
  | raised (e : PyErr)
  | ids (l : List Int)
  | number (n : Nat)
  | truth (b : Bool)

/-- All dictionaries there are, the one that the reader holds, and the objects it has handed out. -/
structure ViewWorld (V : Type) where
  dicts : List (PyMapping V)
  cur : Nat
  objs : List ViewObj

/-- What a program does. -/
inductive ViewOp where
  /-- `reader.sentences = src` (or `links`, `jpn_indices`) -/
  | load (rows : Rows)
  /-- `reader.sentence_ids` -/
  | takeIds
  /-- `iter(reader)` -/
  | iter
  /-- `iter` of the i-th object, if it is a view of ids -/
  | iterIds (i : Nat)
  /-- `iter(reader.keys())`, `iter(reader.items())`, `iter(reader.values())` -/
  | iterView (kind : ViewKind)
  /-- `next` of the i-th object -/
  | next (i : Nat)
  /-- `list` of the i-th object, if it is a view of ids -/
  | list (i : Nat)
  /-- `reader[k]` -/
  | get (k : Int)
  /-- `k in view` for a view `keys()` taken at any time -/
  | inKeys (k : Int)
  /-- `len(view)` for a view `keys()`, `items()` or `values()` taken at any time -/
  | len

variable {V : Type}

/-- The dictionary at an address. -/
def ViewWorld.at (w : ViewWorld V) (d : Nat) : PyMapping V := w.dicts.getD d ⟨fun _ => .error .keyError, [], 0⟩

/-- The reader as a `Mapping`. -/
def ViewWorld.reader (w : ViewWorld V) : PyMapping V := w.at w.cur

/-- The i-th object is now this one. -/
def ViewWorld.put (w : ViewWorld V) (i : Nat) (o : ViewObj) : ViewWorld V := { w with objs := w.objs.set i o }

/-- The reader hands out an object. -/
def ViewWorld.give (w : ViewWorld V) (o : ViewObj) : ViewWorld V := { w with objs := w.objs ++ [o] }

/-- One turn of the loop of a view's iterator: the ids come from dictionary `d`, the values from the reader. -/
def ViewWorld.turn (w : ViewWorld V) (i : Nat) (kind : ViewKind) (d n : Nat) : ViewWorld V × ViewSeen V :=
  match (w.at d).iter[n]? with
  | none => (w.put i .ended, .stop)
  | some k =>
    match kind with
    | .keys => (w.put i (.loop kind d (n + 1)), .key k)
    | .items =>
      match w.reader.getItem k with
      | .error e => (w.put i .ended, .raised e)
      | .ok v => (w.put i (.loop kind d (n + 1)), .item k v)
    | .values =>
      match w.reader.getItem k with
      | .error e => (w.put i .ended, .raised e)
      | .ok v => (w.put i (.loop kind d (n + 1)), .value v)

/-- `next` of an object. -/
def ViewWorld.ask (w : ViewWorld V) (i : Nat) : ViewObj → ViewWorld V × ViewSeen V
  | .ids _ => (w, .raised .typeError)
  | .dictIter d n =>
    match (w.at d).iter[n]? with
    | none => (w, .stop)
    | some k => (w.put i (.dictIter d (n + 1)), .key k)
  | .fresh kind => w.turn i kind w.cur 0
  | .loop kind d n => w.turn i kind d n
  | .ended => (w, .stop)

/-- One step; `ld` is what the assignment makes of the rows of a file. -/
def ViewWorld.step (ld : Rows → Except PyErr (PyMapping V)) (w : ViewWorld V) : ViewOp → ViewWorld V × ViewSeen V
  | .load rows =>
    match ld rows with
    | .error e => (w, .raised e)
    | .ok m => ({ w with dicts := w.dicts ++ [m], cur := w.dicts.length }, .nothing)
  | .takeIds => (w.give (.ids w.cur), .nothing)
  | .iter => (w.give (.dictIter w.cur 0), .nothing)
  | .iterIds i =>
    match w.objs[i]? with
    | some (.ids d) => (w.give (.dictIter d 0), .nothing)
    | _ => (w.give .ended, .nothing)
  | .iterView kind => (w.give (.fresh kind), .nothing)
  | .next i =>
    match w.objs[i]? with
    | none => (w, .nothing)
    | some o => w.ask i o
  | .list i =>
    match w.objs[i]? with
    | some (.ids d) => (w, .ids (w.at d).iter)
    | _ => (w, .nothing)
  | .get k =>
    match w.reader.getItem k with
    | .error e => (w, .raised e)
    | .ok v => (w, .value v)
  | .inKeys k =>
    match w.reader.contains k with
    | .error e => (w, .raised e)
    | .ok b => (w, .truth b)
  | .len => (w, .number w.reader.len)

/-- What a program sees, step by step. -/
def ViewWorld.run (ld : Rows → Except PyErr (PyMapping V)) : ViewWorld V → List ViewOp → List (ViewOp × ViewSeen V)
  | _, [] => []
  | w, op :: ops => (op, (w.step ld op).2) :: ViewWorld.run ld (w.step ld op).1 ops

/-- The state after it. -/
def ViewWorld.final (ld : Rows → Except PyErr (PyMapping V)) : ViewWorld V → List ViewOp → ViewWorld V
  | w, [] => w
  | w, op :: ops => ViewWorld.final ld (w.step ld op).1 ops

/-- A reader that has just been made from the data `m`. -/
def ViewWorld.start (m : PyMapping V) : ViewWorld V := ⟨[m], 0, []⟩

end Cjk
