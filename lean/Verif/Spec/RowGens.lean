import Verif.Model.RowGens
/-! # Specification vocabulary for row generators -/

namespace Cjk.Spec
open Py

/-- The events in which the i-th generator was asked. -/
def rowAsks (i : Nat) (es : List RowEvent) : List RowEvent := es.filter (fun e => match e.op with | .next j => decide (j = i) | _ => false)

/-- The lines of the stream that an event took. -/
def rowLines (e : RowEvent) : List Str := e.before.take (e.before.length - e.after.length)

/-- What `n` calls of `next` show: the rows, then the exception if there is one, then the end again and again. -/
def rowsShown (n : Nat) (rows : Rows) : List RowSeen := (rows.1.map RowSeen.row ++ rows.2.toList.map RowSeen.raised ++ List.replicate n RowSeen.stop).take n

/-- It is a row. -/
def gaveRow : RowSeen → Bool
  | .row _ => true
  | _ => false

/-- The i-th generator holds an open file after these events: it gave a row when it was last asked and was not closed since. -/
def holdsFile (i : Nat) : List RowEvent → Bool → Bool
  | [], b => b
  | e :: es, b => holdsFile i es (match e.op with
    | .next j => if j = i then gaveRow e.seen else b
    | .close j => if j = i then false else b
    | _ => b)

/-- All rows that a program saw, in their order. -/
def rowsSeen (es : List RowEvent) : List (List Str) := es.filterMap (fun e => match e.seen with | .row r => some r | _ => none)

/-- A program that only makes generators over the stream with these options, asks them and closes them. -/
def OnlyStream (o : CsvOptions) (ops : List RowOp) : Prop := ∀ op ∈ ops, op = .loadFile none o ∨ (∃ i, op = .next i) ∨ ∃ i, op = .close i

end Cjk.Spec
