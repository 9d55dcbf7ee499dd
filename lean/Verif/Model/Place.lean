import Verif.Py.Dict
/-!
# Model of `cjktools/resources/place.py`

A place is a dictionary of places.  The methods that only read a hierarchy (`dump`, `walk`, `walk_with_path`,
`find_node`, `find_all`) are modelled on hierarchies as values: what they do depends only on the unfolding of the
hierarchy.  `from_file` builds a hierarchy by assigning into places that are already linked, so it is modelled on a
store of mutable places.

Not modelled: labels that are not strings (`TypeError`), compressed files and standard input.  `__str__` and `__repr__` are in Display.
-/

namespace Cjk
open Py

mutual
/-- A `Place` (place.py:20-43): label, reading, aliases and the dictionary entries in insertion order. -/
inductive Place where
  | node (label : Str) (reading : Option Str) (aliases : Option (List Str)) (kids : Places)
/-- The entries of a `Place` as a dictionary. -/
inductive Places where
  | nil
  | cons (key : Str) (p : Place) (rest : Places)
end

namespace Place
/-- `self.label` -/
def label : Place → Str | node l _ _ _ => l
/-- `self.reading` -/
def reading : Place → Option Str | node _ r _ _ => r
/-- `self.aliases` -/
def aliases : Place → Option (List Str) | node _ _ a _ => a
/-- the dictionary entries -/
def kids : Place → Places | node _ _ _ k => k
end Place

namespace Places
/-- `self.items()` -/
def items : Places → List (Str × Place)
  | nil => []
  | cons k p r => (k, p) :: r.items
end Places

mutual
/-- Number of places; bounds the number of loop rounds below. -/
def Place.size : Place → Nat
  | .node _ _ _ k => 1 + k.size
/-- Number of places. -/
def Places.size : Places → Nat
  | .nil => 0
  | .cons _ p r => p.size + r.size
end

mutual
/-- Number of levels; bounds the number of loop rounds of `find_node`. -/
def Place.height : Place → Nat
  | .node _ _ _ k => 1 + k.height
/-- Number of levels. -/
def Places.height : Places → Nat
  | .nil => 0
  | .cons _ p r => max p.height r.height
end

/-- The check in `Place.__init__` (place.py:35-38): no space characters in the details. -/
def placeInit (label : Str) (reading : Option Str) (aliases : Option (List Str)) : Except PyErr Unit :=
  if isInfix u!" " label = true ∨ isInfix u!" " (reading.getD []) = true ∨
      isInfix u!" " (join [] (aliases.getD [])) = true then .error .valueError
  else .ok ()

/-- `'%s' % aliases`: the `repr` of a list of strings; `r` is the `repr` of a string. -/
def listRepr (r : Str → Str) (l : List Str) : Str := u!"[" ++ join u!", " (l.map r) ++ u!"]"

/-- `'%s' % reading` -/
def readingText (reading : Option Str) : Str := reading.getD u!"None"

/-- `Place._to_line` (place.py:201-209). -/
def placeToLine (r : Str → Str) (depth : Nat) (label : Str) (reading : Option Str) (aliases : Option (List Str)) : Str :=
  match aliases with
  | some (a :: as) => showNat depth ++ u!" " ++ label ++ u!" " ++ readingText reading ++ u!" " ++ listRepr r (a :: as)
  | _ => showNat depth ++ u!" " ++ label ++ u!" " ++ readingText reading

/-- `reading == 'None'` is read as `None` (place.py:220-221). -/
def readReading (s : Str) : Option Str := if s = u!"None" then none else some s

/-- `Place._from_line` (place.py:211-233): depth and details of a new place without entries. -/
def placeFromLine (line : Str) : Except PyErr (Int × Str × Option Str × Option (List Str)) :=
  match splitWs (rstrip line) with
  | [depth, label, reading] => do
    let d ← pyInt 10 depth
    let _ ← placeInit label (readReading reading) none
    .ok (d, label, readReading reading, none)
  | [depth, label, reading, aliases] => do
    let d ← pyInt 10 depth
    let as := splitChr c!":" aliases
    let _ ← placeInit label (readReading reading) (some as)
    .ok (d, label, readReading reading, some as)
  | _ => .error .valueError

/-- The loop of `walk` (place.py:164-169).  `stack` lists the output stack from its top; `fuel` bounds the rounds. -/
def placeWalkLoop : Nat → List (Nat × Place) → List (Nat × Place)
  | 0, _ => []
  | _, [] => []
  | fuel + 1, (depth, place) :: stack =>
    (depth, place) :: placeWalkLoop fuel (place.kids.items.map (fun kp => (depth + 1, kp.2)) ++ stack)

/-- `Place.walk` (place.py:155-169), as the list of everything it yields. -/
def placeWalk (p : Place) : List (Nat × Place) := placeWalkLoop (p.size + 1) [(0, p)]

/-- `Place.dump` (place.py:63-66): the lines printed. -/
def placeDump (r : Str → Str) (p : Place) : List Str :=
  (placeWalk p).map (fun dp => placeToLine r dp.1 dp.2.label dp.2.reading dp.2.aliases ++ u!"\n")

/-- The loop of `walk_with_path` (place.py:176-199): `path`, `last_depth`, the label of `last_node`, and what is yielded
(an exception at the end if the depths do not fit). -/
def walkPathLoop : List Str → Nat → Str → List (Nat × Place) → List (Str × Place) × Option PyErr
  | _, _, _, [] => ([], none)
  | path, lastDepth, lastLabel, (depth, node) :: rest =>
    let go (path' : List Str) :=
      let (out, err) := walkPathLoop path' depth node.label rest
      ((join u!"/" path', node) :: out, err)
    if depth = lastDepth + 1 then go (path ++ [lastLabel])
    else if depth = lastDepth then go path
    else if depth < lastDepth then go (path.take (path.length - (lastDepth - depth)))
    else ([], some .genericException)

/-- `Place.walk_with_path` (place.py:171-199).  Initially `last_node` is `None`; its label is not used because the first
depth is 0. -/
def placeWalkWithPath (p : Place) : List (Str × Place) × Option PyErr := walkPathLoop [] 0 [] (placeWalk p)

/-- `Place.find_all` (place.py:143-153). -/
def placeFindAll (p : Place) (label : Str) : Except PyErr (List (Str × Place)) :=
  match placeWalkWithPath p with
  | (out, none) => .ok (out.filter (fun x => x.2.label = label))
  | (_, some e) => .error e

/-- `next_node[label]`, if there is such an entry. -/
def Places.get? (k : Places) (key : Str) : Option Place := Dict.get? k.items key

/-- The inner loop of `find_node` (place.py:124-135): `frontier` from its end (the next to be popped), and the next
frontier so far.  Ends with a hit or with the next frontier. -/
def findLevel (label : Str) : List (List Str × Place) → List (List Str × Place) →
    (Place × List Str) ⊕ List (List Str × Place)
  | [], next => .inr next
  | (path, node) :: rest, next =>
    match node.kids.get? label with
    | some target => .inl (target, path ++ [label])
    | none => findLevel label rest (next ++ node.kids.items.map (fun kp => (path ++ [kp.1], kp.2)))

/-- The outer loop of `find_node` (place.py:123-141).  `shuffle n` is the outcome of the `n`-th shuffle; `fuel` bounds
the rounds. -/
def findLoop (shuffle : Nat → List (List Str × Place) → List (List Str × Place)) (label : Str) :
    Nat → Nat → List (List Str × Place) → Except PyErr (Place × List Str)
  | 0, _, _ => .error .keyError
  | fuel + 1, n, frontier =>
    match findLevel label frontier.reverse [] with
    | .inl r => .ok r
    | .inr [] => .error .keyError
    | .inr next => findLoop shuffle label fuel (n + 1) (shuffle n next)

/-- `Place.find_node` (place.py:112-141).  `none` is the empty list returned for the place's own label. -/
def placeFindNode (shuffle : Nat → List (List Str × Place) → List (List Str × Place)) (p : Place) (label : Str) :
    Except PyErr (Option (Place × List Str)) :=
  if label = p.label then .ok none
  else do
    let r ← findLoop shuffle label (p.height + 1) 0 [([], p)]
    .ok (some r)

/-! ### `from_file` -/

/-- A mutable place in the store; entries are references. -/
structure PNode where
  label : Str
  reading : Option Str
  aliases : Option (List Str)
  kids : Dict Str Nat
deriving DecidableEq

/-- The store: a reference is an index. -/
abbrev PStore := List PNode

/-- The variables of the loop of `from_file` (place.py:78-80). -/
structure LoadState where
  store : PStore
  path : List Nat
  lastDepth : Int
  lastNode : Nat
deriving DecidableEq

/-- `path[:-diff]` for `diff > 0`. -/
def dropEnd (path : List Nat) (diff : Nat) : List Nat := path.take (path.length - diff)

/-- `path[-1].append(node)` (place.py:102, 108-110). -/
def storeAppend (store : PStore) (path : List Nat) (node : Nat) (label : Str) : Except PyErr PStore :=
  match path.getLast? with
  | none => .error .indexError
  | some p => .ok (store.modify p (fun n => { n with kids := Dict.set n.kids label node }))

/-- The new path for a line of the given depth (place.py:83-100). -/
def loadPath (st : LoadState) (depth : Int) : Except PyErr (List Nat) :=
  if depth = st.lastDepth + 1 then .ok (st.path ++ [st.lastNode])
  else if depth = st.lastDepth then .ok st.path
  else if depth < st.lastDepth then .ok (dropEnd st.path (st.lastDepth - depth).toNat)
  else .error .genericException

/-- One round of the loop of `from_file` (place.py:81-104). -/
def loadStep (st : LoadState) (line : Str) : Except PyErr LoadState := do
  let (depth, label, reading, aliases) ← placeFromLine line
  let node := st.store.length
  let store := st.store ++ [⟨label, reading, aliases, []⟩]
  let path ← loadPath st depth
  let store' ← storeAppend store path node label
  .ok ⟨store', path, depth, node⟩

/-- The loop of `from_file` (place.py:81-104). -/
def loadLoop (st : LoadState) : List Str → Except PyErr LoadState
  | [] => .ok st
  | l :: ls => do
    let st' ← loadStep st l
    loadLoop st' ls

/-- `Place.from_file` (place.py:68-106) on the lines of the file: the store and the root, which is reference 0. -/
def placeFromFile (lines : List Str) : Except PyErr PStore :=
  match lines with
  | [] => .error .stopIteration
  | l :: ls => do
    let (depth, label, reading, aliases) ← placeFromLine l
    if depth ≠ 0 then .error .genericException
    else (loadLoop ⟨[⟨label, reading, aliases, []⟩], [0], 0, 0⟩ ls).map LoadState.store

end Cjk
