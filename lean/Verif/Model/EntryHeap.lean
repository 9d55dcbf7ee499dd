import Verif.Model.DictFormat
/-!
# Dictionary entries and their list objects

`Model/BilingualDict` treats an entry as a value that owns its lists.  In the code an entry refers to two list objects, which the caller of the constructor
made, and `update` changes list objects in place (`+=`).  Here the list objects are explicit: an entry holds two references.
A reference to a list is a number below `next`; entries are referred to by their number in order of construction.
-/

namespace Cjk
open Py

/-- A `DictionaryEntry` object: its word and references to its two lists (bilingual_dict.py:50-57). -/
structure ERef where
  word : Str
  readings : Nat
  senses : Nat
deriving DecidableEq

/-- The list objects and the entry objects. -/
structure EHeap where
  lists : Nat → List Str
  next : Nat
  entries : List ERef

/-- The start: nothing has been made. -/
def EHeap.empty : EHeap := ⟨fun _ => [], 0, []⟩

/-- Give a list object a new content. -/
def EHeap.put (h : EHeap) (a : Nat) (xs : List Str) : EHeap := { h with lists := fun b => if b = a then xs else h.lists b }

/-- Make a list object; its reference is `h.next`. -/
def EHeap.alloc (h : EHeap) (xs : List Str) : EHeap := { h.put h.next xs with next := h.next + 1 }

/-- `xs += ys` and `xs.extend(ys)` for list objects. -/
def EHeap.extend (h : EHeap) (a b : Nat) : EHeap := h.put a (h.lists a ++ h.lists b)

/-- What an entry looks like. -/
def EHeap.view (h : EHeap) (e : ERef) : Entry := ⟨e.word, h.lists e.readings, h.lists e.senses⟩

/-- All entries. -/
def EHeap.views (h : EHeap) : List Entry := h.entries.map h.view

/-- `DictionaryEntry(word, readings, senses)` (bilingual_dict.py:52-57): the lists are kept, not copied. -/
def EHeap.newEntry (h : EHeap) (w : Str) (r s : Nat) : Except PyErr EHeap :=
  if (h.lists r).length = 1 ∨ (h.lists r).length = (h.lists s).length then .ok { h with entries := h.entries ++ [⟨w, r, s⟩] }
  else .error .assertionError

/-- `if len(e.readings) == 1: e.readings = len(e.senses)*e.readings` (bilingual_dict.py:70-76): a new list object. -/
def EHeap.padAt (h : EHeap) (i : Nat) : EHeap :=
  match h.entries[i]? with
  | none => h
  | some e =>
    if (h.lists e.readings).length = 1 then
      let h' := h.alloc (repeatList (h.lists e.senses).length (h.lists e.readings))
      { h' with entries := h.entries.set i { e with readings := h.next } }
    else h

/-- `self.readings += rhs.readings; self.senses += rhs.senses` (bilingual_dict.py:79-80). -/
def EHeap.join (h : EHeap) (i j : Nat) : EHeap :=
  match h.entries[i]?, h.entries[j]? with
  | some e, some f => (h.extend e.readings f.readings).extend e.senses f.senses
  | _, _ => h

/-- `entries[i].update(entries[j])` (bilingual_dict.py:59-80). -/
def EHeap.update (h : EHeap) (i j : Nat) : Except PyErr EHeap :=
  match h.entries[i]?, h.entries[j]? with
  | some e, some f => if e.word = f.word then .ok (((h.padAt i).padAt j).join i j) else .error .genericException
  | _, _ => .error .indexError

/-- One round of the loop of `senses_by_reading` (bilingual_dict.py:88-90): a new list object for a new reading, then `append`. -/
def EHeap.appendUnder (st : EHeap × Dict Str Nat) (rs : Str × Str) : EHeap × Dict Str Nat :=
  match Dict.get? st.2 rs.1 with
  | some a => (st.1.put a (st.1.lists a ++ [rs.2]), st.2)
  | none => (st.1.alloc [rs.2], Dict.set st.2 rs.1 st.1.next)

/-- `entries[i].senses_by_reading()` (bilingual_dict.py:82-95): the dictionary maps readings to list objects. -/
def EHeap.sensesByReading (h : EHeap) (i : Nat) : Except PyErr (EHeap × Dict Str Nat) :=
  match h.entries[i]? with
  | none => .error .indexError
  | some e =>
    if (h.lists e.readings).length > 1 then
      if (h.lists e.senses).length = (h.lists e.readings).length then
        .ok (((h.lists e.readings).zip (h.lists e.senses)).foldl EHeap.appendUnder (h, []))
      else .error .assertionError
    else
      match h.lists e.readings with
      | [r] => .ok (h.alloc (h.lists e.senses), [(r, h.next)])
      | _ => .error .valueError

/-- The end of `parse_line` (dict_format.py:107-119) for a line with this content: two new lists and a new entry. -/
def EHeap.make (h : EHeap) (x : Entry) : EHeap :=
  let h1 := h.alloc x.readings
  let h2 := h1.alloc x.senses
  { h2 with entries := h.entries ++ [⟨x.word, h.next, h.next + 1⟩] }

/-- The body of the loop of `parse_dictionary` (dict_format.py:64-69): the dictionary holds references to entries. -/
def EHeap.addEntry (h : EHeap) (b : Dict Str Nat) (x : Entry) : Except PyErr (EHeap × Dict Str Nat) :=
  let h1 := h.make x
  match Dict.get? b x.word with
  | some i =>
    match h1.update i h.entries.length with
    | .error e => .error e
    | .ok h2 => .ok (h2, b)
  | none => .ok (h1, Dict.set b x.word h.entries.length)

/-- `parse_dictionary` (dict_format.py:57-71), for any `parse_line`. -/
def EHeap.parseLoop (parse : Str → Except PyErr Entry) (h : EHeap) (b : Dict Str Nat) : List Str → Except PyErr (EHeap × Dict Str Nat)
  | [] => .ok (h, b)
  | l :: ls =>
    match parse l with
    | .error e => .error e
    | .ok x =>
      match h.addEntry b x with
      | .error e => .error e
      | .ok (h', b') => EHeap.parseLoop parse h' b' ls

/-! ### Programs over entries and lists -/

/-- Something a program does. -/
inductive HeapOp where
  /-- make a list -/
  | list (xs : List Str)
  /-- give a list it holds another content (`append`, `sort`, ...) -/
  | write (a : Nat) (xs : List Str)
  /-- make an entry from two lists -/
  | new (w : Str) (r s : Nat)
  /-- `entries[i].update(entries[j])` -/
  | update (i j : Nat)
  /-- `entries[i].senses_by_reading()` -/
  | byReading (i : Nat)

/-- One step; an operation that raises changes nothing. -/
def HeapOp.step (h : EHeap) : HeapOp → EHeap
  | .list xs => h.alloc xs
  | .write a xs => h.put a xs
  | .new w r s => match h.newEntry w r s with
    | .ok h' => h'
    | .error _ => h
  | .update i j => match h.update i j with
    | .ok h' => h'
    | .error _ => h
  | .byReading i => match h.sensesByReading i with
    | .ok (h', _) => h'
    | .error _ => h

/-- A whole program. -/
def HeapOp.run (h : EHeap) (ops : List HeapOp) : EHeap := ops.foldl HeapOp.step h

end Cjk
