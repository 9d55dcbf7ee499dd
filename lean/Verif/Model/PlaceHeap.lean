import Verif.Model.Place
/-!
# Model of places as objects

`Model/Place.lean` describes the reading methods of `Place` on hierarchies as values.  A program can also enter one place in several places, or in
itself: `append` does not look (place.py:108-110).  Here the same methods are modelled on a store of objects.

A loop that may run for ever is modelled by its first `n` rounds.
-/

namespace Cjk
open Py

/-- The entries of the place at a reference. -/
def placeKids (st : PStore) (r : Nat) : Dict Str Nat := (st[r]?.map PNode.kids).getD []

/-- `self.label` -/
def placeLabel (st : PStore) (r : Nat) : Str := (st[r]?.map PNode.label).getD []

/-- The first `n` rounds of the loop of `walk` (place.py:164-169): what is yielded, and the output stack afterwards, from its top. -/
def heapWalk (st : PStore) : Nat → List (Nat × Nat) → List (Nat × Nat) × List (Nat × Nat)
  | 0, stack => ([], stack)
  | _ + 1, [] => ([], [])
  | n + 1, (depth, r) :: stack =>
    let rest := heapWalk st n ((placeKids st r).map (fun kp => (depth + 1, kp.2)) ++ stack)
    ((depth, r) :: rest.1, rest.2)

/-- The loop of `walk_with_path` (place.py:176-199) over what `walk` has yielded so far. -/
def heapPathLoop (st : PStore) : List Str → Nat → Str → List (Nat × Nat) → List (Str × Nat) × Option PyErr
  | _, _, _, [] => ([], none)
  | path, lastDepth, lastLabel, (depth, r) :: rest =>
    let go (path' : List Str) :=
      let (out, err) := heapPathLoop st path' depth (placeLabel st r) rest
      ((join u!"/" path', r) :: out, err)
    if depth = lastDepth + 1 then go (path ++ [lastLabel])
    else if depth = lastDepth then go path
    else if depth < lastDepth then go (path.take (path.length - (lastDepth - depth)))
    else ([], some .genericException)

/-- `find_all` (place.py:143-153), if `walk` ends within `n` rounds. -/
def heapFindAll (st : PStore) (n : Nat) (r : Nat) (label : Str) : Option (Except PyErr (List (Str × Nat))) :=
  match heapWalk st n [(0, r)] with
  | (out, []) =>
    match heapPathLoop st [] 0 [] out with
    | (l, none) => some (.ok (l.filter (fun x => placeLabel st x.2 = label)))
    | (_, some e) => some (.error e)
  | _ => none

/-- The text of one line of `dump` (place.py:63-66, 201-209). -/
def heapLine (r : Str → Str) (st : PStore) (depth ref : Nat) : Str :=
  match st[ref]? with
  | some n => placeToLine r depth n.label n.reading n.aliases ++ u!"\n"
  | none => []

/-- `dump` (place.py:63-66): the lines printed, if `walk` ends within `n` rounds. -/
def heapDump (r : Str → Str) (st : PStore) (n : Nat) (ref : Nat) : Option (List Str) :=
  match heapWalk st n [(0, ref)] with
  | (out, []) => some (out.map (fun x => heapLine r st x.1 x.2))
  | _ => none

/-- The inner loop of `find_node` (place.py:124-135): `frontier` from its end, and the next frontier so far. -/
def heapFindLevel (st : PStore) (label : Str) : List (List Str × Nat) → List (List Str × Nat) → (Nat × List Str) ⊕ List (List Str × Nat)
  | [], next => .inr next
  | (path, r) :: rest, next =>
    match Dict.get? (placeKids st r) label with
    | some target => .inl (target, path ++ [label])
    | none => heapFindLevel st label rest (next ++ (placeKids st r).map (fun kp => (path ++ [kp.1], kp.2)))

/-- The first rounds of the outer loop of `find_node` (place.py:123-141); `shuffle n` is the outcome of the `n`-th shuffle.  `none` if the loop has not
ended. -/
def heapFindLoop (st : PStore) (shuffle : Nat → List (List Str × Nat) → List (List Str × Nat)) (label : Str) :
    Nat → Nat → List (List Str × Nat) → Option (Except PyErr (Nat × List Str))
  | 0, _, _ => none
  | rounds + 1, n, frontier =>
    match heapFindLevel st label frontier.reverse [] with
    | .inl hit => some (.ok hit)
    | .inr [] => some (.error .keyError)
    | .inr next => heapFindLoop st shuffle label rounds (n + 1) (shuffle n next)

/-- `find_node` (place.py:112-141), if it ends within the given rounds.  `.ok none` is the empty list returned for the place's own label. -/
def heapFindNode (st : PStore) (shuffle : Nat → List (List Str × Nat) → List (List Str × Nat)) (rounds : Nat) (r : Nat) (label : Str) :
    Option (Except PyErr (Option (Nat × List Str))) :=
  if label = placeLabel st r then some (.ok none)
  else (heapFindLoop st shuffle label rounds 0 [([], r)]).map (fun x => x.map some)

/-- What a program does with places. -/
inductive PlaceOp where
  /-- `Place(label, reading, aliases)` -/
  | new (label : Str) (reading : Option Str) (aliases : Option (List Str))
  /-- `p.append(c)` -/
  | append (p c : Nat)
  /-- `p[key] = c` -/
  | setItem (p : Nat) (key : Str) (c : Nat)
  /-- `del p[key]` -/
  | delItem (p : Nat) (key : Str)
  /-- `p.label = label` -/
  | relabel (p : Nat) (label : Str)

/-- One operation; operations that raise change nothing. -/
def PlaceOp.step (st : PStore) : PlaceOp → PStore
  | .new label reading aliases =>
    match placeInit label reading aliases with
    | .ok _ => st ++ [⟨label, reading, aliases, []⟩]
    | .error _ => st
  | .append p c => st.modify p (fun n => { n with kids := Dict.set n.kids (placeLabel st c) c })
  | .setItem p key c => st.modify p (fun n => { n with kids := Dict.set n.kids key c })
  | .delItem p key => st.modify p (fun n => { n with kids := Dict.del n.kids key })
  | .relabel p label => st.modify p (fun n => { n with label := label })

/-- The operation speaks of places that exist. -/
def PlaceOp.inStore (st : PStore) : PlaceOp → Prop
  | .new _ _ _ => True
  | .append p c => p < st.length ∧ c < st.length
  | .setItem p _ c => p < st.length ∧ c < st.length
  | .delItem p _ => p < st.length
  | .relabel p _ => p < st.length

/-- A program. -/
def PlaceOp.run (st : PStore) : List PlaceOp → PStore
  | [] => st
  | op :: ops => PlaceOp.run (op.step st) ops

/-- All operations of a program speak of places that exist. -/
def PlaceOp.allInStore (st : PStore) : List PlaceOp → Prop
  | [] => True
  | op :: ops => op.inStore st ∧ PlaceOp.allInStore (op.step st) ops

end Cjk
