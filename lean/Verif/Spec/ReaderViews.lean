import Verif.Model.ReaderViews
/-!
# Specification: what a reader hands out

In terms of the data that the reader holds, without a store.
-/

namespace Cjk.Spec
open Py

variable {V : Type}

/-- The data that the reader holds after a program: those of the last file that could be read. -/
def holding (ld : Rows → Except PyErr (PyMapping V)) : PyMapping V → List ViewOp → PyMapping V
  | m, [] => m
  | m, .load rows :: ops => holding ld ((ld rows).toOption.getD m) ops
  | m, _ :: ops => holding ld m ops

/-- The number of objects that a program takes from the reader. -/
def taken (ops : List ViewOp) : Nat :=
  ops.countP (fun op => match op with | .takeIds => true | .iter => true | .iterIds _ => true | .iterView _ => true | _ => false)

/-- The data that the reader holds each time the i-th object is asked. -/
def heldAtAsks (ld : Rows → Except PyErr (PyMapping V)) (i : Nat) : PyMapping V → List ViewOp → List (PyMapping V)
  | _, [] => []
  | m, .load rows :: ops => heldAtAsks ld i ((ld rows).toOption.getD m) ops
  | m, .next j :: ops => if j = i then m :: heldAtAsks ld i m ops else heldAtAsks ld i m ops
  | m, _ :: ops => heldAtAsks ld i m ops

/-- What the i-th object showed, each time it was asked. -/
def shownBy (i : Nat) : List (ViewOp × ViewSeen V) → List (ViewSeen V)
  | [] => []
  | (.next j, s) :: es => if j = i then s :: shownBy i es else shownBy i es
  | _ :: es => shownBy i es

/-- How often a program asks the i-th object. -/
def askedTimes (i : Nat) (ops : List ViewOp) : Nat := ops.countP (fun op => match op with | .next j => j == i | _ => false)

/-- What `n` calls of `next` show of a list of ids: the ids in their order, then the end again and again. -/
def idsShown (n : Nat) (ids : List Int) : List (ViewSeen V) := (ids.map ViewSeen.key ++ List.replicate n ViewSeen.stop).take n

/-- What an iterator over the given ids shows, if the reader holds these data each time it is asked: the id with what the reader has for it then; if it has nothing, the
exception, and then the end. -/
def pairsShown (pair : Int → V → ViewSeen V) : List Int → List (PyMapping V) → List (ViewSeen V)
  | _, [] => []
  | [], _ :: ms => .stop :: ms.map (fun _ => .stop)
  | k :: ks, m :: ms =>
    match m.getItem k with
    | .ok v => pair k v :: pairsShown pair ks ms
    | .error e => .raised e :: ms.map (fun _ => .stop)

/-- How the two views show an id with its value. -/
def showPair : ViewKind → Int → V → ViewSeen V
  | .keys, k, _ => .key k
  | .items, k, v => .item k v
  | .values, _, v => .value v

/-- A program in which no file is assigned. -/
def NoFile (ops : List ViewOp) : Prop := ∀ rows, ViewOp.load rows ∉ ops

end Cjk.Spec
