import Verif.Model.SentHooks
import Verif.Spec.Tatoeba
/-! # Specification vocabulary for readers with methods of their own: read off the record of the calls -/

namespace Cjk.Spec
open Py

/-- The rows that `filter_row` was asked about. -/
def filterCalls (log : List HookCall) : List (List Str) := log.filterMap (fun c => match c with | .filter r => some r | .date _ => none)

/-- The texts that `parse_date` was asked about. -/
def dateCalls (log : List HookCall) : List Str := log.filterMap (fun c => match c with | .date t => some t | .filter _ => none)

/-- The exception that a call raised, if it did, after the calls before it. -/
def callRaised {D : Type} (h : SentHooks D) (before : List HookCall) : HookCall → Option PyErr
  | .filter row => match h.filterRow before row with | .error e => some e | .ok _ => none
  | .date text => match h.parseDate before text with | .error e => some e | .ok _ => none

/-- A language passes the filter. -/
def wanted (languages : Option (List Str)) (lang : Str) : Bool := languages.all (fun ls => decide (lang ∈ ls))

/-- The row that `filter_row` let pass in this call, as it left it, if its language was wanted then. -/
def letPass {D : Type} (h : SentHooks D) (before : List HookCall) : HookCall → Option (List Str)
  | .filter row =>
    match h.filterRow before row with
    | .ok (false, row') => if wanted (h.languages (before ++ [.filter row])) (rowLang row') then some row' else none
    | _ => none
  | .date _ => none

/-- All rows that were let pass in a record of calls, each with the calls up to then. -/
def keptRows {D : Type} (h : SentHooks D) (before : List HookCall) : List HookCall → List (List HookCall × List Str)
  | [] => []
  | c :: cs => (letPass h before c).toList.map (fun r => (before ++ [c], r)) ++ keptRows h (before ++ [c]) cs

/-- The last of them with an id. -/
def lastKept (rows : List (List HookCall × List Str)) (i : Int) : Option (List HookCall × List Str) :=
  rows.reverse.find? (fun r => decide (rowId r.2 = .ok i))

/-- The details of such a row: the user name, and what `parse_date` answered for the two dates, the first one first. -/
def keptDetails {D : Type} (h : SentHooks D) (r : List HookCall × List Str) : Details D :=
  (if r.2.getD 3 [] = u!"\\N" then none else some (r.2.getD 3 []),
    ((h.parseDate r.1 (r.2.getD 4 [])).toOption).join, ((h.parseDate (r.1 ++ [.date (r.2.getD 4 [])]) (r.2.getD 5 [])).toOption).join)

/-- A row that cannot be loaded: it has too few columns or its id is no number. -/
def BadRow (detailed : Bool) (r : List Str) : Prop := r.length < 3 ∨ (∀ i, rowId r ≠ .ok i) ∨ (detailed = true ∧ r.length < 6)

end Cjk.Spec
