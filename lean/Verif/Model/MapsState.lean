import Verif.Model.Maps
/-!
# The functions of `cjktools/maps.py` with methods that do more than compute a result

Model/Maps.lean takes the methods as functions.  Here a method may raise, and may read and change a state, which for `map_dict` includes the dictionary itself.
-/

namespace Cjk
open Py

section
variable {A B S : Type}

/-- `partial_map` (maps.py:162-189) with a method that acts on a state, and results whose truth may be computed. -/
def partialMapIn (truth : B → S → Except PyErr Bool × S) (f : A → S → Except PyErr B × S) :
    List A → List B → List A → S → Except PyErr (List B × List A) × S
  | [], mapped, rejected, s => (.ok (mapped, rejected), s)
  | a :: as, mapped, rejected, s =>
    match f a s with
    | (.error e, s1) => (.error e, s1)
    | (.ok b, s1) =>
      match truth b s1 with
      | (.error e, s2) => (.error e, s2)
      | (.ok true, s2) => partialMapIn truth f as (mapped ++ [b]) rejected s2
      | (.ok false, s2) => partialMapIn truth f as mapped (rejected ++ [a]) s2

/-- `filtered_map` (maps.py:192-197). -/
def filteredMapIn (truth : B → S → Except PyErr Bool × S) (f : A → S → Except PyErr B × S) : List A → List B → S → Except PyErr (List B) × S
  | [], kept, s => (.ok kept, s)
  | a :: as, kept, s =>
    match f a s with
    | (.error e, s1) => (.error e, s1)
    | (.ok b, s1) =>
      match truth b s1 with
      | (.error e, s2) => (.error e, s2)
      | (.ok t, s2) => filteredMapIn truth f as (if t then kept ++ [b] else kept) s2

end

section
variable {K V W S T : Type} [DecidableEq K]

/-- How a loop over a dictionary ends. -/
inductive ForEnd where
  | done
  | raised (e : PyErr)
  /-- `RuntimeError: dictionary changed size during iteration` -/
  | resized
deriving DecidableEq

/-- `for k, v in iteritems(d): body` (six on Python 3: `iter(d.items())`), where the body can change `d`.  `n` is the number of entries at the beginning, `left` how
many of them are left.  The iterator raises if the number of entries is another one than at the beginning, also when no entry is left; otherwise it delivers the entry
at the next place as it is then.  Simplified: no entry is deleted. -/
def forItems (dic : T → Dict K V) (body : K → V → T → Except PyErr Unit × T) (n : Nat) : Nat → T → ForEnd × T
  | 0, t => if (dic t).length = n then (.done, t) else (.resized, t)
  | left + 1, t =>
    if (dic t).length = n then
      match (dic t)[n - (left + 1)]? with
      | none => (.done, t)
      | some kv =>
        match body kv.1 kv.2 t with
        | (.error e, t1) => (.raised e, t1)
        | (.ok (), t1) => forItems dic body n left t1
    else (.resized, t)

/-- The loop body of `map_dict` in place (maps.py:92): `dictionary[key] = method(value)`. -/
def mapLiveBody (f : V → Dict K V × S → Except PyErr V × (Dict K V × S)) (k : K) (v : V) (w : Dict K V × S) : Except PyErr Unit × (Dict K V × S) :=
  match f v w with
  | (.error e, w1) => (.error e, w1)
  | (.ok x, w1) => (.ok (), (Dict.set w1.1 k x, w1.2))

/-- `map_dict(method, dictionary, in_place=True)` (maps.py:89-93): how it ends, and the dictionary and the rest of the state afterwards. -/
def mapLive (f : V → Dict K V × S → Except PyErr V × (Dict K V × S)) (w : Dict K V × S) : ForEnd × (Dict K V × S) :=
  forItems (fun w => w.1) (mapLiveBody f) w.1.length w.1.length w

/-- One item of the generator in `map_dict` (maps.py:96), which `dict` takes in; the first component are the items so far. -/
def mapNewBody (f : V → Dict K V × S → Except PyErr W × (Dict K V × S)) (k : K) (v : V) (t : List (K × W) × (Dict K V × S)) :
    Except PyErr Unit × (List (K × W) × (Dict K V × S)) :=
  match f v t.2 with
  | (.error e, w1) => (.error e, (t.1, w1))
  | (.ok x, w1) => (.ok (), (t.1 ++ [(k, x)], w1))

/-- `map_dict(method, dictionary)` (maps.py:94-96): how it ends; if it returns, the new dictionary; and the state afterwards. -/
def mapNew (f : V → Dict K V × S → Except PyErr W × (Dict K V × S)) (w : Dict K V × S) : ForEnd × Dict K W × (Dict K V × S) :=
  match forItems (fun t => t.2.1) (mapNewBody f) w.1.length w.1.length ([], w) with
  | (e, t) => (e, Dict.ofList t.1, t.2)

end
end Cjk
