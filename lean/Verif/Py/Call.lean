import Verif.Py.Dict
/-!
# Binding the arguments of a call

`f(*pos, **kw)` for a Python function with ordinary parameters, some of which have defaults.  A bound method has one parameter less.
-/

namespace Py

/-- The values for the parameters that no positional argument has filled: the keyword argument, else the default; `TypeError` if there is neither. -/
def bindRest {V : Type} (kw : Dict Str V) : List (Str × Option V) → Except PyErr (Dict Str V)
  | [] => .ok []
  | (name, default) :: rest =>
    match (Dict.get? kw name).or default with
    | none => .error .typeError
    | some v =>
      match bindRest kw rest with
      | .error e => .error e
      | .ok vs => .ok ((name, v) :: vs)

/-- Binding: `TypeError` for too many positional arguments and for a keyword that names no parameter or one that is already filled. -/
def bindCall {V : Type} (params : List (Str × Option V)) (pos : List V) (kw : Dict Str V) : Except PyErr (Dict Str V) :=
  if params.length < pos.length then .error .typeError
  else if kw.all (fun k => ((params.drop pos.length).map Prod.fst).contains k.1) then
    match bindRest kw (params.drop pos.length) with
    | .error e => .error e
    | .ok vs => .ok (((params.take pos.length).map Prod.fst).zip pos ++ vs)
  else .error .typeError

end Py
