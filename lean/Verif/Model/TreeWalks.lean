import Verif.Model.Tree

/-!
# The walks of `TreeNode` as generators

`walk_preorder`, `walk_postorder` and `walk_breadth_first` (tree.py:58-114) are generator functions: a call makes a generator, and the code up to the next `yield` runs only when the
program asks for the next node.  Between two such calls the program may do anything with the nodes, so each call gets the heap as it is then.  `Model/Tree.lean` has the same walks for
a heap that does not change in the meantime.
-/

namespace Cjk
open Py

/-- The generator of `walk_preorder` (tree.py:64-70): the node that was yielded last, whose children are not yet on the stack, and the stack from its top. -/
structure PreWalk where
  pending : Option Nat
  stack : List Nat

/-- `node.walk_preorder()`, `node.walk()` (tree.py:58-73): nothing runs yet. -/
def PreWalk.start (r : Nat) : PreWalk := ⟨none, [r]⟩

/-- The stack after line 68, which runs only now. -/
def PreWalk.extended (h : Heap) (g : PreWalk) : List Nat :=
  match g.pending with
  | none => g.stack
  | some r => (Dict.values (h.node r).children).reverse ++ g.stack

/-- `next(generator)` (tree.py:65-68): the next node, or `none` for `StopIteration`. -/
def PreWalk.next (h : Heap) (g : PreWalk) : Option Nat × PreWalk :=
  match g.extended h with
  | [] => (none, ⟨none, []⟩)
  | r :: stack => (some r, ⟨some r, stack⟩)

/-- The generator of `walk_breadth_first` (tree.py:98-114): the node that was yielded last, the number of shuffles, `frontier` from its end, and `next_frontier`. -/
structure BfsWalk where
  pending : Option Nat
  shuffles : Nat
  frontier : List Nat
  nextFrontier : List Nat

/-- `node.walk_breadth_first()` (tree.py:94-114) -/
def BfsWalk.start (r : Nat) : BfsWalk := ⟨none, 0, [r], []⟩

/-- Lines 105-112, which run only now. -/
def BfsWalk.advance (shuffle : Nat → List Nat → List Nat) (h : Heap) (g : BfsWalk) : BfsWalk :=
  match g.pending with
  | none => g
  | some r =>
    let next' := g.nextFrontier ++ Dict.values (h.node r).children
    if g.frontier.isEmpty then ⟨none, g.shuffles + 1, (shuffle g.shuffles next').reverse, []⟩ else ⟨none, g.shuffles, g.frontier, next'⟩

/-- `next(generator)` (tree.py:101-112). -/
def BfsWalk.next (shuffle : Nat → List Nat → List Nat) (h : Heap) (g : BfsWalk) : Option Nat × BfsWalk :=
  let g' := g.advance shuffle h
  match g'.frontier with
  | [] => (none, g')
  | r :: frontier => (some r, { g' with pending := some r, frontier := frontier })

/-- `next(generator)` for `walk_postorder` (tree.py:79-92): the generator is its stack, from the top; it may go through several nodes before it yields one, and `none` says that the
fuel did not suffice. -/
def postNext (h : Heap) : Nat → List (Nat × Bool) → Option (Option Nat × List (Nat × Bool))
  | 0, _ => none
  | _ + 1, [] => some (none, [])
  | fuel + 1, (r, visited) :: stack =>
    if visited || ((h.node r).children).isEmpty then some (some r, stack)
    else postNext h fuel ((Dict.values (h.node r).children).reverse.map (·, false) ++ (r, true) :: stack)

/-- `for node in generator: body(node)`: the heap afterwards, or the exception of the body. -/
def forWalk {γ : Type} (next : Heap → γ → Option (Option Nat × γ)) (body : Heap → Nat → Except PyErr Heap) : Nat → Heap → γ → Option (Except PyErr Heap)
  | 0, _, _ => none
  | fuel + 1, h, g =>
    match next h g with
    | none => none
    | some (none, _) => some (.ok h)
    | some (some r, g') =>
      match body h r with
      | .error e => some (.error e)
      | .ok h' => forWalk next body fuel h' g'

/-- `for node in root.walk(): body(node)` -/
def forPre (body : Heap → Nat → Except PyErr Heap) (fuel : Nat) (h : Heap) (r : Nat) : Option (Except PyErr Heap) :=
  forWalk (fun h g => some (PreWalk.next h g)) body fuel h (.start r)

/-- `for node in root.walk_breadth_first(): body(node)` -/
def forBfs (shuffle : Nat → List Nat → List Nat) (body : Heap → Nat → Except PyErr Heap) (fuel : Nat) (h : Heap) (r : Nat) : Option (Except PyErr Heap) :=
  forWalk (fun h g => some (BfsWalk.next shuffle h g)) body fuel h (.start r)

/-- `for node in root.walk_postorder(): body(node)` -/
def forPost (body : Heap → Nat → Except PyErr Heap) (fuel : Nat) (h : Heap) (r : Nat) : Option (Except PyErr Heap) :=
  forWalk (fun h g => postNext h fuel g) body fuel h [(r, false)]

/-- The body of the second loop of `TreeDist.__init__` (tree.py:301-302). -/
def freqNode (ar : Arith) (total : ℚ) (h : Heap) (r : Nat) : Except PyErr Heap := do
  let v ← getAttr h r (.str u!"cum_count")
  let f ← divVal ar v total
  .ok (setAttr h r (.str u!"freq") f)

/-- The body of the loop of `prune` (tree.py:156-160). -/
def pruneNode (p : Str → Attrib → Bool) (h : Heap) (r : Nat) : Except PyErr Heap :=
  if !((h.node r).children).isEmpty || p (h.node r).label (h.node r).attrib then .ok h else unlink h r

end Cjk
