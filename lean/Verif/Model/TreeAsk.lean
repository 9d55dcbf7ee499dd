import Verif.Model.Tree
/-!
# `prune` with any predicate

`Model/Tree.lean` models `prune` for predicates that only depend on the label and the attributes of a node.  Here the
predicate is any Python callable that looks at the node and its ancestors (labels and attributes), keeps a state of its own,
answers with a truth value or raises.  It does not change the tree.  When it is asked the node has no children.
-/

namespace Cjk
open Py

/-- What a predicate sees: label and attributes of the node, then of its parent, and so on up to the root. -/
abbrev NodeView := List (Str × Attrib)

/-- A predicate with a state of type `S`: the answer (or exception) and the state afterwards. -/
abbrev PruneAsk (S : Type) := S → NodeView → Except PyErr Bool × S

/-- The node and its ancestors, following `parent` as `get_ancestors` does (tree.py:29-37); `none` if there are more than `up`. -/
def viewUp (h : Heap) : Nat → Nat → Option NodeView
  | 0, _ => none
  | up + 1, r =>
    match (h.node r).parent with
    | none => some [((h.node r).label, (h.node r).attrib)]
    | some q => (viewUp h up q).map (((h.node r).label, (h.node r).attrib) :: ·)

/-- What a run leaves behind: the heap, the state of the predicate and the exception that ended it, if any. -/
abbrev AskEnd (S : Type) := Heap × S × Option PyErr

/-- The loop of `prune` over `walk_postorder` (tree.py:155-160 with 79-92).  `node.children or predicate(node)` asks the
predicate only about nodes without children. -/
def pruneLoopAsk {S : Type} (ask : PruneAsk S) (up : Nat) : Nat → Heap → S → List (Nat × Bool) → Option (AskEnd S)
  | 0, _, _, _ => none
  | _ + 1, h, s, [] => some (h, s, none)
  | fuel + 1, h, s, (r, visited) :: stack =>
    if visited || ((h.node r).children).isEmpty then
      if !((h.node r).children).isEmpty then pruneLoopAsk ask up fuel h s stack
      else
        match viewUp h up r with
        | none => none
        | some v =>
          match ask s v with
          | (.error e, s') => some (h, s', some e)
          | (.ok true, s') => pruneLoopAsk ask up fuel h s' stack
          | (.ok false, s') =>
            match unlink h r with
            | .error e => some (h, s', some e)
            | .ok h' => pruneLoopAsk ask up fuel h' s' stack
    else pruneLoopAsk ask up fuel h s ((Dict.values (h.node r).children).reverse.map (·, false) ++ (r, true) :: stack)

/-- The end of `prune` (tree.py:162-165): the tree or `None`; a root without children is asked about again. -/
def pruneResultAsk {S : Type} (ask : PruneAsk S) (up : Nat) (h : Heap) (s : S) (r : Nat) : Option (Except PyErr (Option Nat) × S) :=
  if !((h.node r).children).isEmpty then some (.ok (some r), s)
  else
    match viewUp h up r with
    | none => none
    | some v =>
      match ask s v with
      | (.error e, s') => some (.error e, s')
      | (.ok true, s') => some (.ok (some r), s')
      | (.ok false, s') => some (.ok none, s')

/-- `prune` (tree.py:148-165): the heap and the state of the predicate afterwards, and the new root, `None` or an exception. -/
def treePruneAsk {S : Type} (ask : PruneAsk S) (h : Heap) (fuel : Nat) (r : Nat) (s : S) :
    Option (Heap × S × Except PyErr (Option Nat)) :=
  match treeCopy h fuel r with
  | none => none
  | some (.error e) => some (h, s, .error e)
  | some (.ok (h1, r1)) =>
    match pruneLoopAsk ask fuel fuel h1 s [(r1, false)] with
    | none => none
    | some (h2, s2, some e) => some (h2, s2, .error e)
    | some (h2, s2, none) => (pruneResultAsk ask fuel h2 s2 r1).map (fun x => (h2, x.2, x.1))

end Cjk
