import Verif.Model.Tatoeba
import Verif.Model.Tree
/-!
# Comparing words and nodes with other objects, and hashing

`Tanaka.eq` and `nodeEq` model `==` between two words and between two nodes.  Here one side is any other object.  It is described by what Python can do with
it: read its attributes, call the value of one, compare something with a value, and ask its own `__eq__`.

Simplifications: the other object's class is not a subclass of the class in question (then Python would ask it first), and reading attributes has no effects.
-/

namespace Cjk
open Py

/-- An object of another kind; `A` are the values of its attributes and `F` what they are compared with. -/
structure OtherObj (F A : Type) where
  /-- reading an attribute -/
  attr : Str → Except PyErr A
  /-- calling a value without arguments -/
  call : A → Except PyErr A
  /-- the truth of `f == a` -/
  cmp : F → A → Except PyErr Bool
  /-- what the object's `__eq__` replies; `none` is `NotImplemented` -/
  reply : Except PyErr (Option Bool)

/-- `x == y` for two objects that are not the same: the first side is asked, then the other one, and if both reply `NotImplemented` they are unequal
(CPython, `do_richcompare`). -/
def richEq (first second : Except PyErr (Option Bool)) : Except PyErr Bool :=
  match first with
  | .error e => .error e
  | .ok (some b) => .ok b
  | .ok none =>
    match second with
    | .error e => .error e
    | .ok (some b) => .ok b
    | .ok none => .ok false

/-- `self.x == other.x and rest` -/
def andAttr {F A : Type} (o : OtherObj F A) (name : Str) (f : F) (rest : Except PyErr Bool) : Except PyErr Bool :=
  match o.attr name with
  | .error e => .error e
  | .ok a =>
    match o.cmp f a with
    | .error e => .error e
    | .ok false => .ok false
    | .ok true => rest

/-- The values of the attributes of a word. -/
inductive WordVal where
  | text (s : Str)
  | num (i : Int)
  | bool (b : Bool)
  | none
deriving DecidableEq

/-- `self.sense` and `self.reading` -/
def WordVal.ofSense : Option Int → WordVal
  | some i => .num i
  | Option.none => .none
def WordVal.ofReading : Option Str → WordVal
  | some r => .text r
  | Option.none => .none

/-- `self.resolve_display() == other.resolve_display()` (tatoeba.py:505) -/
def sameDisplay {A : Type} (w : Tanaka) (o : OtherObj WordVal A) : Except PyErr Bool :=
  match o.attr u!"resolve_display" with
  | .error e => .error e
  | .ok m =>
    match o.call m with
    | .error e => .error e
    | .ok a => o.cmp (.text w.resolveDisplay) a

/-- `TanakaWord.__eq__` (tatoeba.py:489-508) asked about another object. -/
def wordReply {A : Type} (w : Tanaka) (o : OtherObj WordVal A) : Except PyErr (Option Bool) :=
  let body :=
    andAttr o u!"headword" (.text w.headword)
      (andAttr o u!"sense" (.ofSense w.sense)
        (andAttr o u!"example" (.bool w.isExample)
          (andAttr o u!"reading" (.ofReading w.reading) (sameDisplay w o))))
  match body with
  | .error .attributeError => .ok none
  | .error e => .error e
  | .ok b => .ok (some b)

/-- `word == other` and `other == word` -/
def wordEqOther {A : Type} (w : Tanaka) (o : OtherObj WordVal A) : Except PyErr Bool := richEq (wordReply w o) o.reply
def otherEqWord {A : Type} (w : Tanaka) (o : OtherObj WordVal A) : Except PyErr Bool := richEq o.reply (wordReply w o)

/-- `word != other` (tatoeba.py:510-511) -/
def wordNeOther {A : Type} (w : Tanaka) (o : OtherObj WordVal A) : Except PyErr Bool := (wordEqOther w o).map (!·)

/-- `other != word`, if the other class defines no `__ne__`: the negated reply of its `__eq__`, or else `TanakaWord.__ne__`. -/
def otherNeWord {A : Type} (w : Tanaka) (o : OtherObj WordVal A) : Except PyErr Bool :=
  match o.reply with
  | .error e => .error e
  | .ok (some b) => .ok (!b)
  | .ok none => wordNeOther w o

/-- What a node compares with the attributes of the other object: its label, its attributes, its children. -/
inductive NodeVal where
  | label (s : Str)
  | attrib (a : Attrib)
  | children (c : Dict Str Nat)

/-- `self.children == rhs.children` (tree.py:231) -/
def sameChildren {A : Type} (n : TNode) (o : OtherObj NodeVal A) : Except PyErr Bool :=
  match o.attr u!"children" with
  | .error e => .error e
  | .ok a => o.cmp (.children n.children) a

/-- `TreeNode.__eq__` (tree.py:228-231) asked about another object. -/
def nodeReply {A : Type} (n : TNode) (o : OtherObj NodeVal A) : Except PyErr (Option Bool) :=
  (andAttr o u!"label" (.label n.label)
    (andAttr o u!"attrib" (.attrib n.attrib) (sameChildren n o))).map some

/-- `node == other` and `other == node` -/
def nodeEqOther {A : Type} (n : TNode) (o : OtherObj NodeVal A) : Except PyErr Bool := richEq (nodeReply n o) o.reply
def otherEqNode {A : Type} (n : TNode) (o : OtherObj NodeVal A) : Except PyErr Bool := richEq o.reply (nodeReply n o)

/-- `x in items`: the truth of `item is x or item == x`, item by item; the list gives the two for every item. -/
def inList : List (Bool × Except PyErr Bool) → Except PyErr Bool
  | [] => .ok false
  | (same, eq) :: rest =>
    if same then .ok true
    else
      match eq with
      | .error e => .error e
      | .ok true => .ok true
      | .ok false => inList rest

/-- `hash(x)` in Python 3: the method of the class; a class that defines `__eq__` and no `__hash__` makes its objects unhashable; else by identity. -/
def hashOf (definesEq : Bool) (own : Option (Except PyErr Int)) (identity : Int) : Except PyErr Int :=
  match own with
  | some r => r
  | none => if definesEq then .error .typeError else .ok identity

/-- `hash(word)`: the class defines `__eq__` only (tatoeba.py:414-511). -/
def wordHash (identity : Int) : Except PyErr Int := hashOf true none identity

/-- `hash(node)`: likewise (tree.py:16-273). -/
def nodeHash (identity : Int) : Except PyErr Int := hashOf true none identity

/-- `hash(entry)` (bilingual_dict.py:110-111): `self.name` is not an attribute (bilingual_dict.py:50), but a subclass may have it; `hash` takes one
argument, not three. -/
def entryHash {A : Type} (name : Except PyErr A) (identity : Int) : Except PyErr Int :=
  hashOf false
    (some (match name with
      | .error e => .error e
      | .ok _ => .error .typeError))
    identity

end Cjk
