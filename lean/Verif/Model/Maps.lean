import Verif.Py.Dict
import Verif.Py.Set
/-!
# Model of `cjktools/maps.py`

Dictionaries are insertion-ordered association lists (`Py.Dict`).  Functions passed as arguments may
raise, so they have type `α → Except PyErr β`.
-/

namespace Cjk
open Py

section
variable {K V W : Type} [DecidableEq K] [DecidableEq V] [DecidableEq W]

/-- `d.setdefault(k, []).append(x)` (maps.py:41). -/
def setdefaultAppend (d : Dict K (List W)) (k : K) (x : W) : Dict K (List W) :=
  match d.get? k with
  | some l => d.set k (l ++ [x])
  | none => d.set k [x]

/-- `invert_mapping` (maps.py:33-43): two nested loops over the items and the values. -/
def invertMapping (d : Dict K (List V)) : Dict V (List K) :=
  d.foldl (fun inv kv => kv.2.foldl (fun inv v => setdefaultAppend inv v kv.1) inv) []

/-- The loop of `is_injective` (maps.py:53-59); `covered` is the set of values seen. -/
def isInjectiveLoop : List V → Dict K V → Bool
  | _, [] => true
  | covered, (_, v) :: d => if v ∈ covered then false else isInjectiveLoop (v :: covered) d

/-- `is_injective` (maps.py:46-59). -/
def isInjective (d : Dict K V) : Bool := isInjectiveLoop [] d

/-- The loop of `invert_injective_mapping` (maps.py:67-72). -/
def invertInjectiveLoop : Dict V K → Dict K V → Except PyErr (Dict V K)
  | inv, [] => .ok inv
  | inv, (k, v) :: d =>
    if inv.contains v then .error .assertionError else invertInjectiveLoop (inv.set v k) d

/-- `invert_injective_mapping` (maps.py:62-72). -/
def invertInjectiveMapping (d : Dict K V) : Except PyErr (Dict V K) := invertInjectiveLoop [] d

/-- The in-place loop of `map_dict` (maps.py:91-93): `items` are the entries still to visit, the
second argument is the dictionary itself.  Returns the dictionary as it is left and the exception that
stopped the loop, if any.  (The loop assigns only to keys that are already present, so the iteration
order is fixed; the value of an entry not yet visited is still the original one.) -/
def mapDictLoop (f : V → Except PyErr V) : List (K × V) → Dict K V → Dict K V × Option PyErr
  | [], d => (d, none)
  | (k, v) :: items, d =>
    match f v with
    | .ok w => mapDictLoop f items (d.set k w)
    | .error e => (d, some e)

/-- `map_dict(method, dictionary, in_place=True)` (maps.py:89-93). -/
def mapDictInPlace (f : V → Except PyErr V) (d : Dict K V) : Dict K V × Option PyErr := mapDictLoop f d d

/-- The generator of `map_dict(method, dictionary)` (maps.py:96), before `dict(...)`. -/
def mapItems (f : V → Except PyErr W) : List (K × V) → Except PyErr (Dict K W)
  | [] => .ok []
  | (k, v) :: items =>
    match f v with
    | .error e => .error e
    | .ok w => match mapItems f items with
      | .error e => .error e
      | .ok r => .ok ((k, w) :: r)

/-- `map_dict(method, dictionary)` (maps.py:94-96); `d` itself is not touched. -/
def mapDict (f : V → Except PyErr W) (d : Dict K V) : Except PyErr (Dict K W) :=
  match mapItems f d with
  | .error e => .error e
  | .ok l => .ok (Dict.ofList l)

/-- `multi_dict` (maps.py:99-123). -/
def multiDict (pairs : List (K × V)) : Dict K (List V) :=
  pairs.foldl (fun out kv => out.set kv.1 ((out.get? kv.1).getD [] ++ [kv.2])) []

/-- One step of the loop of `merge_dicts` (maps.py:153-157); sets are duplicate-free lists. -/
def mergeStep (u : Dict K (List V)) (kv : K × List V) : Dict K (List V) :=
  match u.get? kv.1 with
  | some s => u.set kv.1 (dedup (s ++ kv.2))
  | none => u.set kv.1 (dedup kv.2)

/-- `merge_dicts` (maps.py:146-159): one loop over the chained items of all arguments. -/
def mergeDicts (args : List (Dict K (List V))) : Dict K (List V) := args.flatten.foldl mergeStep []

/-- `partial_map` (maps.py:162-189).  `truthy` is the truth value of a result. -/
def partialMap {A B : Type} (truthy : B → Bool) (f : A → Except PyErr B) :
    List A → Except PyErr (List B × List A)
  | [] => .ok ([], [])
  | a :: as =>
    match f a with
    | .error e => .error e
    | .ok b => match partialMap truthy f as with
      | .error e => .error e
      | .ok (m, r) => if truthy b then .ok (b :: m, r) else .ok (m, a :: r)

/-- `filtered_map` (maps.py:192-197). -/
def filteredMap {A B : Type} (truthy : B → Bool) (f : A → Except PyErr B) : List A → Except PyErr (List B)
  | [] => .ok []
  | a :: as =>
    match f a with
    | .error e => .error e
    | .ok b => match filteredMap truthy f as with
      | .error e => .error e
      | .ok m => if truthy b then .ok (b :: m) else .ok m

/-- `procmap` (maps.py:126-143); the procedure acts on a state and may raise.  The state reached is
returned together with the exception, if any. -/
def procmap {A S : Type} (f : A → S → S × Option PyErr) : List A → S → S × Option PyErr
  | [], s => (s, none)
  | a :: as, s =>
    match f a s with
    | (s', some e) => (s', some e)
    | (s', none) => procmap f as s'

/-! `chain_mapping` mutates the copy it makes.  To be able to say that the arguments are left alone,
dictionaries live in a store and are referred to by their index. -/

/-- A store of dictionary objects. -/
abbrev DictStore (V : Type) := List (Dict V V)

/-- The loop of `chain_mapping` (maps.py:27-28): `base` is the reference of `base_dict`. -/
def chainLoop (base : Nat) : List Nat → DictStore V → DictStore V × Option PyErr
  | [], st => (st, none)
  | r :: rs, st =>
    match mapDictInPlace (fun v => Dict.getItem (st.getD r []) v) (st.getD base []) with
    | (d, some e) => (st.set base d, some e)
    | (d, none) => chainLoop base rs (st.set base d)

/-- `chain_mapping(*dictionaries)` (maps.py:16-30): the arguments are references into the store, the
result is the reference of the new dictionary. -/
def chainMapping (st : DictStore V) : List Nat → DictStore V × Except PyErr Nat
  | [] => (st, .error .indexError)
  | r :: rs =>
    match chainLoop st.length rs (st ++ [st.getD r []]) with
    | (st', some e) => (st', .error e)
    | (st', none) => (st', .ok st.length)

end
end Cjk
