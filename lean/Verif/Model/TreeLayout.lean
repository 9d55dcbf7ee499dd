import Verif.Model.Tree
/-!
# Model of the pretty printing of trees (tree.py:247-273, 309-313)

`print(x)` writes the text of `x` and a newline to standard output; the model collects the texts of the calls.  The method that represents
a node is a function of the node, which may raise.  Output that was printed before an exception is kept.
-/

namespace Cjk
open Py

/-- What has been printed, and the exception that ended the printing, if any. -/
abbrev Printed := List Str × Option PyErr

/-- Printing more, unless an exception was raised. -/
def Printed.andThen (a b : Printed) : Printed :=
  match a.2 with
  | some e => (a.1, some e)
  | none => (a.1 ++ b.1, b.2)

/-- Printing something that may not end, unless an exception was raised. -/
def Printed.andMaybe (a : Printed) (b : Option Printed) : Option Printed :=
  match a.2 with
  | some e => some (a.1, some e)
  | none => b.map (fun b => (a.1 ++ b.1, b.2))

/-- `print('%s' % ...)` of a text that may fail to be computed. -/
def printLine (front : Str) (x : Except PyErr Str) : Printed :=
  match x with
  | .error e => ([], some e)
  | .ok s => ([front ++ s], none)

/-- `_layout_children` (tree.py:260-273) for the list of children: all but the last child are drawn with `├─`, the last one with `└─`.
`fuel` bounds the rounds. -/
def layoutKids (h : Heap) (method : TNode → Except PyErr Str) : Nat → Str → List Nat → Option Printed
  | 0, _, _ => none
  | _ + 1, _, [] => some ([], none)
  | fuel + 1, pre, [c] =>
    (printLine (pre ++ u!"└─ ") (method (h.node c))).andMaybe
      (layoutKids h method fuel (pre ++ u!"   ") (Dict.values (h.node c).children))
  | fuel + 1, pre, c :: d :: rest =>
    ((printLine (pre ++ u!"├─ ") (method (h.node c))).andMaybe
      (layoutKids h method fuel (pre ++ u!"│  ") (Dict.values (h.node c).children))).bind
        (fun p => p.andMaybe (layoutKids h method fuel pre (d :: rest)))

/-- `layout` (tree.py:247-258). -/
def treeLayout (h : Heap) (fuel : Nat) (r : Nat) (method : TNode → Except PyErr Str) : Option Printed :=
  (printLine [] (method (h.node r))).andMaybe (layoutKids h method fuel [] (Dict.values (h.node r).children))

/-- The default method (tree.py:253-254). -/
def labelMethod (n : TNode) : Except PyErr Str := .ok n.label

/-- The method of `TreeDist.layout` (tree.py:310-314), `'%s %.04f' % (n.label, n['freq'])`; `fmt` is `'%.04f' % q` for a number. -/
def freqMethod (fmt : ℚ → Str) (n : TNode) : Except PyErr Str :=
  match Dict.get? n.attrib (.str u!"freq") with
  | none => .error .keyError
  | some (.num q) => .ok (n.label ++ u!" " ++ fmt q)
  | some _ => .error .typeError

/-- `TreeDist.layout` (tree.py:310-314). -/
def distLayout (fmt : ℚ → Str) (h : Heap) (fuel : Nat) (root : Nat) : Option Printed := treeLayout h fuel root (freqMethod fmt)

/-- Standard output after the printing. -/
def Printed.text (p : Printed) : Str := p.1.flatMap (· ++ [10])

end Cjk
