import Verif.Py.Dict
import Mathlib.Algebra.Order.Ring.Rat
/-!
# Model of `cjktools/resources/tree.py`

Tree nodes are mutable and linked both ways, so they are modelled on a heap: a reference is an index, and a node holds
its label, its own dictionary of children (label to reference, in insertion order), its attributes and its parent.

Loops that follow links may run for ever on a heap that is not a tree.  They are modelled with a bound on the rounds
(`fuel`): `none` means that the bound was too small.  The theorems give a bound that is large enough for every tree.

Simplifications.  A node owns its dictionaries; `TreeNode(label, children=d)` with a dictionary shared with another
object is in TreeGiven, where C142_programs shows when the difference matters.  Attribute values are numbers (finite floats, as rationals),
`None` or other objects that are only passed on.  Predicates of `prune` are pure functions of label and attributes; any predicate is in TreeAsk.
`layout` is in TreeLayout, `__str__` and `__repr__` are in Display.  `TreeDist.combine`, `union` and `diff` are in TreeCombine.
-/

namespace Cjk
open Py

/-- Attribute keys: texts or numbers. -/
inductive AKey where
  | str (s : Str)
  | int (i : Int)
deriving DecidableEq

/-- Attribute values. -/
inductive AVal where
  | none
  | num (q : ℚ)
  | obj (n : Nat)
deriving DecidableEq

/-- The attributes of a node. -/
abbrev Attrib := Dict AKey AVal

/-- A `TreeNode` (tree.py:16-27). -/
structure TNode where
  label : Str
  children : Dict Str Nat
  attrib : Attrib
  parent : Option Nat
deriving DecidableEq

instance : Inhabited TNode := ⟨⟨[], [], [], none⟩⟩

/-- The heap of tree nodes. -/
abbrev Heap := List TNode

/-- The node at a reference. -/
def Heap.node (h : Heap) (r : Nat) : TNode := (h[r]?).getD default

/-- Changing the node at a reference. -/
def Heap.upd (h : Heap) (r : Nat) (f : TNode → TNode) : Heap := h.modify r f

/-- `TreeNode(label, attrib=attrib)` (tree.py:23-27): a new node without children and parent. -/
def newNode (h : Heap) (label : Str) (attrib : Attrib) : Heap × Nat := (h ++ [⟨label, [], attrib, none⟩], h.length)

/-- The truth value of `node.parent`: not `None` and with at least one child (`__len__`, tree.py:167-168). -/
def parentTruthy (h : Heap) (r : Nat) : Bool :=
  match (h.node r).parent with
  | none => false
  | some p => !((h.node p).children).isEmpty

/-- `add_child` (tree.py:176-179). -/
def addChild (h : Heap) (p c : Nat) : Heap :=
  let h1 := h.upd p (fun n => { n with children := Dict.set n.children (h.node c).label c })
  h1.upd c (fun n => { n with parent := some p })

/-- `del d[key]` -/
def delItem (d : Dict Str Nat) (key : Str) : Except PyErr (Dict Str Nat) :=
  match Dict.get? d key with
  | none => .error .keyError
  | some _ => .ok (Dict.del d key)

/-- `unlink` (tree.py:116-121). -/
def unlink (h : Heap) (c : Nat) : Except PyErr Heap :=
  match (h.node c).parent with
  | none => .ok (h.upd c (fun n => { n with parent := none }))
  | some p =>
    if ((h.node p).children).isEmpty then .ok (h.upd c (fun n => { n with parent := none }))
    else
      match delItem (h.node p).children (h.node c).label with
      | .error e => .error e
      | .ok d => .ok ((h.upd p (fun n => { n with children := d })).upd c (fun n => { n with parent := none }))

/-- `del_child` (tree.py:181-187). -/
def delChild (h : Heap) (p c : Nat) : Except PyErr Heap :=
  match delItem (h.node p).children (h.node c).label with
  | .error e => .error e
  | .ok d =>
    .ok ((h.upd p (fun n => { n with children := d })).upd c
      (fun n => { n with attrib := Dict.set n.attrib (.str u!"parent") .none }))

/-! ### Walks -/

/-- The loop of `walk_preorder` (tree.py:64-68); `stack` from its top. -/
def preLoop (h : Heap) : Nat → List Nat → Option (List Nat)
  | 0, _ => none
  | _ + 1, [] => some []
  | fuel + 1, r :: stack =>
    (preLoop h fuel ((Dict.values (h.node r).children).reverse ++ stack)).map (r :: ·)

/-- `walk_preorder`, `walk` (tree.py:58-73). -/
def walkPre (h : Heap) (fuel : Nat) (r : Nat) : Option (List Nat) := preLoop h fuel [r]

/-- The loop of `walk_postorder` (tree.py:79-92); `stack` from its top. -/
def postLoop (h : Heap) : Nat → List (Nat × Bool) → Option (List Nat)
  | 0, _ => none
  | _ + 1, [] => some []
  | fuel + 1, (r, visited) :: stack =>
    if visited || ((h.node r).children).isEmpty then (postLoop h fuel stack).map (r :: ·)
    else postLoop h fuel ((Dict.values (h.node r).children).reverse.map (·, false) ++ (r, true) :: stack)

/-- `walk_postorder` (tree.py:75-92). -/
def walkPost (h : Heap) (fuel : Nat) (r : Nat) : Option (List Nat) := postLoop h fuel [(r, false)]

/-- The loop of `walk_breadth_first` (tree.py:101-112); `frontier` from its end; `shuffle n` is the outcome of the
`n`-th shuffle. -/
def bfsLoop (shuffle : Nat → List Nat → List Nat) (h : Heap) : Nat → Nat → List Nat → List Nat → Option (List Nat)
  | 0, _, _, _ => none
  | _ + 1, _, [], _ => some []
  | fuel + 1, n, r :: frontier, next =>
    let next' := next ++ Dict.values (h.node r).children
    if frontier.isEmpty then (bfsLoop shuffle h fuel (n + 1) (shuffle n next').reverse []).map (r :: ·)
    else (bfsLoop shuffle h fuel n frontier next').map (r :: ·)

/-- `walk_breadth_first` (tree.py:94-114). -/
def walkBfs (shuffle : Nat → List Nat → List Nat) (h : Heap) (fuel : Nat) (r : Nat) : Option (List Nat) :=
  bfsLoop shuffle h fuel 0 [r] []

/-- The loop of `find_node` over the generator of `walk_breadth_first` (tree.py:206-210 with 101-112): it stops at the first node with the label. -/
def bfsFind (shuffle : Nat → List Nat → List Nat) (h : Heap) (label : Str) : Nat → Nat → List Nat → List Nat → Option (Except PyErr Nat)
  | 0, _, _, _ => none
  | _ + 1, _, [], _ => some (.error .keyError)
  | fuel + 1, n, r :: frontier, next =>
    if (h.node r).label = label then some (.ok r)
    else
      let next' := next ++ Dict.values (h.node r).children
      if frontier.isEmpty then bfsFind shuffle h label fuel (n + 1) (shuffle n next').reverse []
      else bfsFind shuffle h label fuel n frontier next'

/-- `find_node` (tree.py:201-210): the first node of the breadth-first walk with the label. -/
def treeFindNode (shuffle : Nat → List Nat → List Nat) (h : Heap) (fuel : Nat) (r : Nat) (label : Str) :
    Option (Except PyErr Nat) := bfsFind shuffle h label fuel 0 [r] []

/-! ### Paths -/

/-- The loop of `get_ancestors` (tree.py:30-37) before the reversal. -/
def ancestorsLoop (h : Heap) : Nat → Nat → List Nat → Option (List Nat)
  | 0, _, _ => none
  | fuel + 1, node, result =>
    match (h.node node).parent with
    | none => some result.reverse
    | some p => ancestorsLoop h fuel p (result ++ [p])

/-- `ancestors` (tree.py:29-39). -/
def ancestors (h : Heap) (fuel : Nat) (r : Nat) : Option (List Nat) := ancestorsLoop h fuel r [r]

/-- The loop of `path_from_root` (tree.py:46-54); the path is never empty, its last element is the current node. -/
def pathLoop (h : Heap) : Nat → List Nat → Option (List Nat)
  | 0, _ => none
  | fuel + 1, path =>
    match (h.node (path.getLast?.getD 0)).parent with
    | none => some path.reverse
    | some p => pathLoop h fuel (path ++ [p])

/-- `path_from_root`, `path` (tree.py:41-56). -/
def pathFromRoot (h : Heap) (fuel : Nat) (r : Nat) : Option (List Nat) := pathLoop h fuel [r]

/-- `get_path` with a list of labels (tree.py:189-199). -/
def getPath (h : Heap) (r : Nat) : List Str → Except PyErr Nat
  | [] => .ok r
  | l :: ls => do
    let c ← Dict.getItem (h.node r).children l
    getPath h c ls

/-- `path.lstrip('/')` -/
def lstripSlash : Str → Str
  | [] => []
  | c :: s => if c = c!"/" then lstripSlash s else c :: s

/-- `get_path` with a text (tree.py:191-192). -/
def getPathText (h : Heap) (r : Nat) (path : Str) : Except PyErr Nat := getPath h r (splitChr c!"/" (lstripSlash path))

/-! ### Copying and pruning -/

/-- The inner loop of `copy` (tree.py:136-144): the children of `node` are replaced by new nodes; gives the new
references, the last one first.  The iteration runs over the dictionary while values of keys already passed are
replaced, so it sees the items as they were at the beginning. -/
def copyKids (node : Nat) : List (Str × Nat) → Heap → Heap × List Nat
  | [], h => (h, [])
  | (label, child) :: rest, h =>
    let new := h.length
    let h1 := h ++ [⟨label, (h.node child).children, (h.node child).attrib, some node⟩]
    let h2 := h1.upd node (fun n => { n with children := Dict.set n.children label new })
    let (h3, out) := copyKids node rest h2
    (h3, out ++ [new])

/-- The outer loop of `copy` (tree.py:133-144); `stack` from its top. -/
def copyLoop : Nat → Heap → List Nat → Option Heap
  | 0, _, _ => none
  | _ + 1, h, [] => some h
  | fuel + 1, h, node :: stack =>
    let r := copyKids node (h.node node).children h
    copyLoop fuel r.1 (r.2 ++ stack)

/-- `copy` (tree.py:123-146): the heap afterwards and the new root. -/
def treeCopy (h : Heap) (fuel : Nat) (r : Nat) : Option (Except PyErr (Heap × Nat)) :=
  if parentTruthy h r then some (.error .genericException)
  else (copyLoop fuel (h ++ [⟨(h.node r).label, (h.node r).children, (h.node r).attrib, none⟩]) [h.length]).map
    (fun h' => .ok (h', h.length))

/-- The loop of `prune` over `walk_postorder` (tree.py:155-160 with 79-92): the walk and the unlinking take turns, so the
walk sees the heap as changed so far. -/
def pruneLoop (p : Str → Attrib → Bool) : Nat → Heap → List (Nat × Bool) → Option (Except PyErr Heap)
  | 0, _, _ => none
  | _ + 1, h, [] => some (.ok h)
  | fuel + 1, h, (r, visited) :: stack =>
    if visited || ((h.node r).children).isEmpty then
      if !((h.node r).children).isEmpty || p (h.node r).label (h.node r).attrib then pruneLoop p fuel h stack
      else
        match unlink h r with
        | .error e => some (.error e)
        | .ok h' => pruneLoop p fuel h' stack
    else pruneLoop p fuel h ((Dict.values (h.node r).children).reverse.map (·, false) ++ (r, true) :: stack)

/-- The end of `prune` (tree.py:162-165): the tree, or `None`. -/
def pruneResult (p : Str → Attrib → Bool) (h : Heap) (r : Nat) : Option Nat :=
  if !((h.node r).children).isEmpty || p (h.node r).label (h.node r).attrib then some r else none

/-- `prune` (tree.py:148-165): the heap afterwards and the new root or `None`. -/
def treePrune (p : Str → Attrib → Bool) (h : Heap) (fuel : Nat) (r : Nat) : Option (Except PyErr (Heap × Option Nat)) :=
  match treeCopy h fuel r with
  | none => none
  | some (.error e) => some (.error e)
  | some (.ok (h1, r1)) =>
    match pruneLoop p fuel h1 [(r1, false)] with
    | none => none
    | some (.error e) => some (.error e)
    | some (.ok h2) => some (.ok (h2, pruneResult p h2 r1))

/-! ### `build_index` -/

/-- `path, node = x` for a tree node `x` (tree.py:239): `x` has no `__iter__`, so Python asks for `x[0]`, `x[1]`, `x[2]`
(`__getitem__` looks up an attribute, tree.py:212-214); only `IndexError` and `StopIteration` would end the sequence. -/
def unpackPair (a : Attrib) : Except PyErr (AVal × AVal) := do
  let x ← Dict.getItem a (.int 0)
  let y ← Dict.getItem a (.int 1)
  let _ ← Dict.getItem a (.int 2)
  let _ := (x, y)
  .error .valueError

/-- `build_index` (tree.py:233-245): the first node that the walk yields is the node itself (tree.py:64-67), and unpacking it raises.  After a
successful unpacking the loop would use the second value as a node, which never happens. -/
def buildIndex (h : Heap) (r : Nat) : Except PyErr (Dict Str (List Nat)) :=
  match unpackPair (h.node r).attrib with
  | .error e => .error e
  | .ok _ => .error .attributeError

/-! ### Equality -/

/-- `d == e` for attributes. -/
def attribEq (a b : Attrib) : Bool :=
  a.length == b.length && a.all (fun kv => Dict.get? b kv.1 == some kv.2)

/-- `__eq__` (tree.py:228-231); dictionaries compare by length and item by item.  `fuel` bounds the nesting.
The comparison with the short cut for identical objects is in `Model/TreeEqual.lean`. -/
def nodeEq (h : Heap) : Nat → Nat → Nat → Option Bool
  | 0, _, _ => none
  | fuel + 1, a, b =>
    if (h.node a).label ≠ (h.node b).label then some false
    else if attribEq (h.node a).attrib (h.node b).attrib = false then some false
    else if (h.node a).children.length ≠ (h.node b).children.length then some false
    else (h.node a).children.foldr (fun kv acc =>
      match Dict.get? (h.node b).children kv.1 with
      | none => some false
      | some w =>
        match nodeEq h fuel kv.2 w with
        | none => none
        | some false => some false
        | some true => acc) (some true)

/-! ### `TreeDist` -/

/-- `node[key] = value` (tree.py:216-218). -/
def setAttr (h : Heap) (r : Nat) (key : AKey) (v : AVal) : Heap :=
  h.upd r (fun n => { n with attrib := Dict.set n.attrib key v })

/-- `node[key]` (tree.py:212-214). -/
def getAttr (h : Heap) (r : Nat) (key : AKey) : Except PyErr AVal := Dict.getItem (h.node r).attrib key

/-- `key in node` (tree.py:220-221). -/
def hasAttr (h : Heap) (r : Nat) (key : AKey) : Bool := (Dict.get? (h.node r).attrib key).isSome

/-- `del node[key]` (tree.py:223-226). -/
def delAttr (h : Heap) (r : Nat) (key : AKey) : Except PyErr Heap :=
  match Dict.get? (h.node r).attrib key with
  | none => .error .keyError
  | some _ => .ok (h.upd r (fun n => { n with attrib := Dict.del n.attrib key }))

/-- A count method (tree.py:281): it may look at everything, may raise and gives any value; it changes nothing. -/
abbrev CountMethod := Heap → Nat → Except PyErr AVal

/-- A count method that looks at the label, the attributes and the number of children of a node, like the default `len`. -/
def countBy (m : Str → Attrib → Nat → ℚ) : CountMethod := fun h r =>
  .ok (.num (m (h.node r).label (h.node r).attrib (h.node r).children.length))

/-- The arithmetic of the counts, which are all integers or all floating-point numbers: sums, `float(x)`, which raises `OverflowError` for a large
integer, and the quotient of a number and a floating-point number.  Infinite results are not modelled. -/
structure Arith where
  add : ℚ → ℚ → ℚ
  float : ℚ → Except PyErr ℚ
  div : ℚ → ℚ → ℚ

/-- Arithmetic without rounding. -/
def Arith.exact : Arith := ⟨(· + ·), .ok, (· / ·)⟩

/-- `x + y`; `None` and the other objects cannot be added. -/
def addVals (ar : Arith) : AVal → AVal → Except PyErr AVal
  | .num p, .num q => .ok (.num (ar.add p q))
  | _, _ => .error .typeError

/-- `[c['count'] for c in ...]` (tree.py:295) -/
def readCounts (h : Heap) : List Nat → Except PyErr (List AVal)
  | [] => .ok []
  | c :: cs => do
    let v ← getAttr h c (.str u!"count")
    let vs ← readCounts h cs
    .ok (v :: vs)

/-- `sum(vs, acc)` -/
def sumVals (ar : Arith) : AVal → List AVal → Except PyErr AVal
  | acc, [] => .ok acc
  | acc, v :: vs => do
    let a ← addVals ar acc v
    sumVals ar a vs

/-- The body of the first pass (tree.py:292-296). -/
def countNode (ar : Arith) (m : CountMethod) (h : Heap) (r : Nat) : Except PyErr Heap := do
  let v ← m h r
  let h1 := setAttr h r (.str u!"count") v
  let q ← getAttr h1 r (.str u!"count")
  let vs ← readCounts h1 (Dict.values (h1.node r).children)
  let s ← sumVals ar (.num 0) vs
  let cum ← addVals ar q s
  .ok (setAttr h1 r (.str u!"cum_count") cum)

/-- The first pass over the nodes in the given order. -/
def countAll (ar : Arith) (m : CountMethod) (h : Heap) : List Nat → Except PyErr Heap
  | [] => .ok h
  | r :: rs => do
    let h' ← countNode ar m h r
    countAll ar m h' rs

/-- `float(x)` (tree.py:300) -/
def floatOf (ar : Arith) : AVal → Except PyErr ℚ
  | .num q => ar.float q
  | _ => .error .typeError

/-- `x / total` (tree.py:302) -/
def divVal (ar : Arith) : AVal → ℚ → Except PyErr AVal
  | .num q, t => if t = 0 then .error .zeroDivisionError else .ok (.num (ar.div q t))
  | _, _ => .error .typeError

/-- The second pass (tree.py:301-302). -/
def freqAll (ar : Arith) (total : ℚ) (h : Heap) : List Nat → Except PyErr Heap
  | [] => .ok h
  | r :: rs => do
    let v ← getAttr h r (.str u!"cum_count")
    let f ← divVal ar v total
    freqAll ar total (setAttr h r (.str u!"freq") f) rs

/-- Both passes (tree.py:290-302), for the walks of the copied tree.  The passes change attributes only, so the walks do
not depend on whether they take turns with the passes (C147_tree_dist). -/
def distPasses (ar : Arith) (m : CountMethod) (h : Heap) (root : Nat) (post pre : List Nat) : Except PyErr Heap := do
  let h1 ← countAll ar m h post
  let v ← getAttr h1 root (.str u!"cum_count")
  let total ← floatOf ar v
  freqAll ar total h1 pre

/-- `TreeDist(root, count_method)` (tree.py:281-304): the heap afterwards and `self.root`. -/
def treeDist (ar : Arith) (m : Option CountMethod) (h : Heap) (fuel : Nat) (r : Nat) :
    Option (Except PyErr (Heap × Nat)) :=
  match treeCopy h fuel r with
  | none => none
  | some (.error e) => some (.error e)
  | some (.ok (h1, r1)) =>
    match m with
    | none => some (.ok (h1, r1))
    | some m =>
      match walkPost h1 fuel r1, walkPre h1 fuel r1 with
      | some post, some pre => some ((distPasses ar m h1 r1 post pre).map (·, r1))
      | _, _ => none

/-- `TreeDist.copy` (tree.py:306-308): the root is copied, and the constructor copies it again. -/
def treeDistCopy (ar : Arith) (h : Heap) (fuel : Nat) (root : Nat) : Option (Except PyErr (Heap × Nat)) :=
  match treeCopy h fuel root with
  | none => none
  | some (.error e) => some (.error e)
  | some (.ok (h1, r1)) => treeDist ar none h1 fuel r1

end Cjk
