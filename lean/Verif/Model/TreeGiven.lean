import Verif.Spec.TreeOps
import Verif.Model.TreeAsk
/-!
# Tree nodes made from given dictionaries

`Model/Tree.lean` gives every node dictionaries of its own.  In the code a node refers to two dictionary objects, and `TreeNode(label, children, attrib)` takes
those of the caller if they are not empty (`children or {}`, tree.py:25-26).  Here the dictionaries live in stores of their own, so that several nodes
and the program may refer to one.

A program may get hold of every dictionary (`node.children`, `node.attrib`), so its operations name dictionaries directly.

Simplification: programs do not assign to `node.children`, `node.attrib`, `node.label` or `node.parent` themselves.
-/

namespace Cjk
open Py

/-- A `TreeNode` (tree.py:16-27) that refers to its dictionaries. -/
structure TObj where
  label : Str
  kids : Nat
  attr : Nat
  parent : Option Nat
deriving DecidableEq

/-- The nodes and the dictionaries of a program. -/
structure TObjs where
  nodes : List TObj
  kidDicts : List (Dict Str Nat)
  attrDicts : List Attrib
deriving DecidableEq

namespace TObjs

/-- The entries of a dictionary of children. -/
def kidsAt (w : TObjs) (d : Nat) : Dict Str Nat := (w.kidDicts[d]?).getD []

/-- The entries of a dictionary of attributes. -/
def attrAt (w : TObjs) (d : Nat) : Attrib := (w.attrDicts[d]?).getD []

/-- What a node shows. -/
def shown (w : TObjs) (n : TObj) : TNode := ⟨n.label, w.kidsAt n.kids, w.attrAt n.attr, n.parent⟩

/-- What the nodes show. -/
def view (w : TObjs) : Heap := w.nodes.map w.shown

/-- A new empty dictionary, or one with the given entries: `{}`, `{…}`, `d.copy()`. -/
def newKids (w : TObjs) (d : Dict Str Nat) : TObjs × Nat := ({ w with kidDicts := w.kidDicts ++ [d] }, w.kidDicts.length)

def newAttr (w : TObjs) (a : Attrib) : TObjs × Nat := ({ w with attrDicts := w.attrDicts ++ [a] }, w.attrDicts.length)

/-- `children or {}` (tree.py:25) -/
def orNewKids (w : TObjs) : Option Nat → TObjs × Nat
  | none => w.newKids []
  | some d => if (w.kidsAt d).isEmpty then w.newKids [] else (w, d)

/-- `attrib or {}` (tree.py:26) -/
def orNewAttr (w : TObjs) : Option Nat → TObjs × Nat
  | none => w.newAttr []
  | some d => if (w.attrAt d).isEmpty then w.newAttr [] else (w, d)

/-- `TreeNode(label, children, attrib, parent)` (tree.py:23-27). -/
def make (w : TObjs) (label : Str) (children attrib parent : Option Nat) : TObjs × Nat :=
  let (w1, k) := w.orNewKids children
  let (w2, a) := w1.orNewAttr attrib
  ({ w2 with nodes := w2.nodes ++ [⟨label, k, a, parent⟩] }, w2.nodes.length)

/-- `d[key] = node`, `del d[key]` and the like for a dictionary of children. -/
def changeKids (w : TObjs) (d : Nat) (f : Dict Str Nat → Dict Str Nat) : TObjs := { w with kidDicts := w.kidDicts.modify d f }

/-- The same for a dictionary of attributes. -/
def changeAttr (w : TObjs) (d : Nat) (f : Attrib → Attrib) : TObjs := { w with attrDicts := w.attrDicts.modify d f }

/-- `node.parent = p` -/
def setParent (w : TObjs) (r : Nat) (p : Option Nat) : TObjs := { w with nodes := w.nodes.modify r (fun n => { n with parent := p }) }

/-- Changing the dictionary that a node refers to as `node.children`. -/
def changeKidsOf (w : TObjs) (r : Nat) (f : Dict Str Nat → Dict Str Nat) : TObjs :=
  match w.nodes[r]? with
  | none => w
  | some n => w.changeKids n.kids f

/-- Changing the dictionary that a node refers to as `node.attrib`. -/
def changeAttrOf (w : TObjs) (r : Nat) (f : Attrib → Attrib) : TObjs :=
  match w.nodes[r]? with
  | none => w
  | some n => w.changeAttr n.attr f

/-- `add_child` (tree.py:176-179). -/
def addChild (w : TObjs) (p c : Nat) : TObjs := (w.changeKidsOf p (fun d => Dict.set d (w.view.node c).label c)).setParent c (some p)

/-- `unlink` (tree.py:116-121). -/
def unlink (w : TObjs) (c : Nat) : Except PyErr TObjs :=
  match (w.view.node c).parent with
  | none => .ok (w.setParent c none)
  | some p =>
    if ((w.view.node p).children).isEmpty then .ok (w.setParent c none)
    else
      match delItem (w.view.node p).children (w.view.node c).label with
      | .error e => .error e
      | .ok d => .ok ((w.changeKidsOf p (fun _ => d)).setParent c none)

/-- `del_child` (tree.py:181-187). -/
def delChild (w : TObjs) (p c : Nat) : Except PyErr TObjs :=
  match delItem (w.view.node p).children (w.view.node c).label with
  | .error e => .error e
  | .ok d => .ok ((w.changeKidsOf p (fun _ => d)).changeAttrOf c (fun a => Dict.set a (.str u!"parent") .none))

/-- `node[key] = v` (tree.py:216-218). -/
def setAttr (w : TObjs) (r : Nat) (key : AKey) (v : AVal) : TObjs := w.changeAttrOf r (fun a => Dict.set a key v)

/-- `del node[key]` (tree.py:223-226). -/
def delAttr (w : TObjs) (r : Nat) (key : AKey) : Except PyErr TObjs :=
  match Dict.get? (w.view.node r).attrib key with
  | none => .error .keyError
  | some _ => .ok (w.changeAttrOf r (fun a => Dict.del a key))

/-- The operations of `TreeOp`, with dictionaries as objects; one that raises leaves everything as it was.  `TreeNode(label, attrib={…})` is given a new
dictionary. -/
def treeStep (w : TObjs) : TreeOp → TObjs
  | .new l a => ((w.newAttr a).1.make l none (some (w.newAttr a).2) none).1
  | .add p c => w.addChild p c
  | .unlink c => match w.unlink c with | .ok w' => w' | .error _ => w
  | .del p c => match w.delChild p c with | .ok w' => w' | .error _ => w
  | .set r k v => w.setAttr r k v
  | .unset r k => match w.delAttr r k with | .ok w' => w' | .error _ => w

def treeRun (w : TObjs) : List TreeOp → TObjs
  | [] => w
  | op :: ops => TObjs.treeRun (w.treeStep op) ops

/-! ### Copies -/

/-- `TreeNode(label, node.children.copy(), node.attrib.copy(), parent)` (tree.py:130, 137-142). -/
def makeCopy (w : TObjs) (label : Str) (r : Nat) (parent : Option Nat) : TObjs × Nat :=
  let (w1, k) := w.newKids (w.view.node r).children
  let (w2, a) := w1.newAttr (w.view.node r).attrib
  w2.make label (some k) (some a) parent

/-- The inner loop of `copy` (tree.py:136-144), as `copyKids`. -/
def copyKids (node : Nat) : List (Str × Nat) → TObjs → TObjs × List Nat
  | [], w => (w, [])
  | (label, child) :: rest, w =>
    let (w1, new) := w.makeCopy label child (some node)
    let w2 := w1.changeKidsOf node (fun d => Dict.set d label new)
    let (w3, out) := copyKids node rest w2
    (w3, out ++ [new])

/-- The outer loop of `copy` (tree.py:133-144). -/
def copyLoop : Nat → TObjs → List Nat → Option TObjs
  | 0, _, _ => none
  | _ + 1, w, [] => some w
  | fuel + 1, w, node :: stack =>
    let r := copyKids node (w.view.node node).children w
    copyLoop fuel r.1 (r.2 ++ stack)

/-- `copy` (tree.py:123-146). -/
def copy (w : TObjs) (fuel : Nat) (r : Nat) : Option (Except PyErr (TObjs × Nat)) :=
  if parentTruthy w.view r then some (.error .genericException)
  else (copyLoop fuel (w.makeCopy (w.view.node r).label r none).1 [(w.makeCopy (w.view.node r).label r none).2]).map
    (fun w' => .ok (w', (w.makeCopy (w.view.node r).label r none).2))

/-- The loop of `prune` (tree.py:155-160), as `pruneLoopAsk`. -/
def pruneLoop {S : Type} (ask : PruneAsk S) (up : Nat) : Nat → TObjs → S → List (Nat × Bool) → Option (TObjs × S × Option PyErr)
  | 0, _, _, _ => none
  | _ + 1, w, s, [] => some (w, s, none)
  | fuel + 1, w, s, (r, visited) :: stack =>
    if visited || ((w.view.node r).children).isEmpty then
      if !((w.view.node r).children).isEmpty then pruneLoop ask up fuel w s stack
      else
        match viewUp w.view up r with
        | none => none
        | some v =>
          match ask s v with
          | (.error e, s') => some (w, s', some e)
          | (.ok true, s') => pruneLoop ask up fuel w s' stack
          | (.ok false, s') =>
            match w.unlink r with
            | .error e => some (w, s', some e)
            | .ok w' => pruneLoop ask up fuel w' s' stack
    else pruneLoop ask up fuel w s ((Dict.values (w.view.node r).children).reverse.map (·, false) ++ (r, true) :: stack)

/-- `prune` (tree.py:148-165), as `treePruneAsk`. -/
def prune {S : Type} (ask : PruneAsk S) (w : TObjs) (fuel : Nat) (r : Nat) (s : S) : Option (TObjs × S × Except PyErr (Option Nat)) :=
  match w.copy fuel r with
  | none => none
  | some (.error e) => some (w, s, .error e)
  | some (.ok (w1, r1)) =>
    match pruneLoop ask fuel fuel w1 s [(r1, false)] with
    | none => none
    | some (w2, s2, some e) => some (w2, s2, .error e)
    | some (w2, s2, none) => (pruneResultAsk ask fuel w2.view s2 r1).map (fun x => (w2, x.2, x.1))

end TObjs

/-- What a program does with nodes and dictionaries. -/
inductive GivenOp where
  /-- `{…}`, with nodes as values -/
  | newKids (d : Dict Str Nat)
  /-- `{…}`, with attributes -/
  | newAttr (a : Attrib)
  /-- `d[label] = node` -/
  | putKid (d : Nat) (label : Str) (r : Nat)
  /-- `d.pop(label, None)` -/
  | dropKid (d : Nat) (label : Str)
  /-- `a[key] = v` -/
  | putAttr (a : Nat) (key : AKey) (v : AVal)
  /-- `a.pop(key, None)` -/
  | dropAttr (a : Nat) (key : AKey)
  /-- `TreeNode(label, children, attrib, parent)` (tree.py:23-27) -/
  | make (label : Str) (children attrib parent : Option Nat)
  /-- a method of a node -/
  | call (op : TreeOp)
  /-- `node.copy()` (tree.py:123); if it does not end within this many rounds or raises, nothing happens -/
  | copy (fuel r : Nat)

/-- One step of a program. -/
def TObjs.step (w : TObjs) : GivenOp → TObjs
  | .newKids d => (w.newKids d).1
  | .newAttr a => (w.newAttr a).1
  | .putKid d l r => w.changeKids d (fun x => Dict.set x l r)
  | .dropKid d l => w.changeKids d (fun x => Dict.del x l)
  | .putAttr a k v => w.changeAttr a (fun x => Dict.set x k v)
  | .dropAttr a k => w.changeAttr a (fun x => Dict.del x k)
  | .make l c a p => (w.make l c a p).1
  | .call op => w.treeStep op
  | .copy fuel r => match w.copy fuel r with
    | some (.ok (w', _)) => w'
    | _ => w

def TObjs.run (w : TObjs) : List GivenOp → TObjs
  | [] => w
  | op :: ops => TObjs.run (w.step op) ops

end Cjk
