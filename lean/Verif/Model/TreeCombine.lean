import Verif.Model.Tree
import Verif.Py.Call
/-!
# Model of `TreeDist.combine`, `union` and `diff` (tree.py:316-362)

A distribution is an object with attributes.  The constructor sets `root` (tree.py:285), a program may set more.  Of the other objects that play
a part only the access to their attributes, `==` and `'%s'` are modelled, each as a function that may raise.
-/

namespace Cjk
open Py

/-- A value, as far as it matters here. -/
inductive DVal where
  /-- a text -/
  | text (s : Str)
  /-- any other object -/
  | obj (n : Nat)
deriving DecidableEq

/-- What the rest of the program makes of values. -/
structure DWorld where
  /-- `getattr` of an object that is not a text -/
  attr : Nat → Str → Except PyErr DVal
  /-- `a == b` -/
  eq : DVal → DVal → Except PyErr Bool
  /-- `'%s' % a` -/
  show_ : DVal → Except PyErr Str

/-- `getattr(v, name)` for the attributes that matter here (`label` and `copy`): a text has neither. -/
def DWorld.getattr (w : DWorld) (v : DVal) (name : Str) : Except PyErr DVal :=
  match v with
  | .text _ => .error .attributeError
  | .obj n => w.attr n name

/-- A `TreeDist` object: the attributes that have been set. -/
abbrev DistObj := Dict Str DVal

/-- `dist.name` for a name that is not one of the methods. -/
def DistObj.getattr (d : DistObj) (name : Str) : Except PyErr DVal :=
  match Dict.get? d name with
  | none => .error .attributeError
  | some v => .ok v

/-- The first step of `TreeDist(root)` (tree.py:285): `root.copy`, then the call.  `rest` is what happens from there on. -/
def newDist {R : Type} (w : DWorld) (rest : DVal → Except PyErr R) (root : DVal) : Except PyErr R := do
  let copy ← w.getattr root u!"copy"
  rest copy

/-- `combine` (tree.py:316-355) up to line 320, behind which everything is `rest`. -/
def distCombine {R : Type} (w : DWorld) (rest : DVal → Except PyErr R) (self rhs : DistObj) (label : Str) : Except PyErr R := do
  let t ← self.getattr u!"tree"
  let l ← w.getattr t u!"label"
  let t' ← rhs.getattr u!"tree"
  let l' ← w.getattr t' u!"label"
  let same ← w.eq l l'
  if same then
    let a ← self.getattr u!"label"
    let b ← rhs.getattr u!"label"
    let sa ← w.show_ a
    let sb ← w.show_ b
    newDist w rest (.text (label ++ u!"(" ++ sa ++ u!", " ++ sb ++ u!")"))
  else .error .assertionError

/-- The method `union` that an object has: that of `TreeDist`, or one that a subclass puts in its place, with its parameters behind `self`. -/
inductive UnionMethod (V R : Type) where
  | own
  | replaced (params : List (Str × Option V)) (body : Dict Str V → Except PyErr R)

/-- The parameters of `TreeDist.union` behind `self` (tree.py:358). -/
def ownUnionParams {V : Type} : List (Str × Option V) := [(u!"rhs", none)]

/-- `obj.union(*pos, **kw)` (tree.py:357-358): the method calls itself with one positional and two keyword arguments.  `f` and `label` are the
values of these. -/
def callUnion {V R : Type} (m : UnionMethod V R) (f label : V) (pos : List V) (kw : Dict Str V) : Except PyErr R :=
  match m with
  | .replaced params body =>
    match bindCall params pos kw with
    | .error e => .error e
    | .ok args => body args
  | .own =>
    match bindCall ownUnionParams pos kw with
    | .error e => .error e
    | .ok args =>
      -- `self.union(rhs, f=..., label='union')`
      match bindCall ownUnionParams ((Dict.get? args u!"rhs").toList) [(u!"f", f), (u!"label", label)] with
      | .error e => .error e
      | .ok _ => .error .recursionError

/-- `obj.diff(rhs)` (tree.py:360-361): a call of `self.union` with two keyword arguments. -/
def callDiff {V R : Type} (m : UnionMethod V R) (f label rhs : V) : Except PyErr R :=
  callUnion m f label [rhs] [(u!"f", f), (u!"label", label)]

end Cjk
