import Verif.Model.IndexObjects
/-!
# Specification of index readers as objects
-/

namespace Cjk.Spec
open Py

/-- The reading that a dictionary entry with these readings has for a sense number: the one with that number, counted from 1; for number 0 the
last one; without a number or with a number that is too large the only one there is. -/
def senseReading (sense : Option Nat) (readings : List Str) : Option Str :=
  match sense with
  | some 0 => readings.getLast?
  | some (n + 1) => if n < readings.length then readings[n]? else common readings
  | none => common readings
where
  /-- The reading if all are equal. -/
  common : List Str → Option Str
    | [] => none
    | r :: rs => if rs.all (· == r) then some r else none

/-- The reading that a dictionary gives for a word without reading: none if it is the headword itself. -/
def given (w : Tanaka) (d : Dict Str (List Str)) : Option Str :=
  match Dict.get? d w.headword with
  | none => none
  | some readings =>
    match senseReading (w.sense.map Int.toNat) readings with
    | none => none
    | some r => if r = w.headword then none else some r

/-- A word that was looked up in several dictionaries, one after the other: the first that gives a reading counts. -/
def filled (ds : List (Dict Str (List Str))) (w : Tanaka) : Tanaka :=
  { w with reading := w.reading.or (ds.findSome? (given w)) }

/-- The dictionaries in which a program looks up the words of list `a`, in order, if `d` is the dictionary of the reader before. -/
def lookedUp (a : Nat) (d : Option (Dict Str (List Str))) : List IndexOp → List (Dict Str (List Str))
  | [] => []
  | .setEdict d' :: ops => lookedUp a d' ops
  | .adjust b :: ops => (if b = a then d.toList else []) ++ lookedUp a d ops
  | _ :: ops => lookedUp a d ops

/-- The dictionary and the set of ids that are in force after a program. -/
def settings (s : Option (Dict Str (List Str)) × Option (List Int)) : List IndexOp → Option (Dict Str (List Str)) × Option (List Int)
  | [] => s
  | .setEdict d :: ops => settings (d, s.2) ops
  | .setSubset t :: ops => settings (s.1, t) ops
  | _ :: ops => settings s ops

/-- A program without assignments of files. -/
def NoLoad (ops : List IndexOp) : Prop := ∀ src rows, IndexOp.load src rows ∉ ops

/-- A dictionary as it is read from a file: every entry has a reading. -/
def HasReadings (d : Dict Str (List Str)) : Prop := ∀ k rs, Dict.get? d k = some rs → rs ≠ []

/-- Sense numbers as they are read from a text. -/
def SensesOk (ws : List Tanaka) : Prop := ∀ w ∈ ws, ∀ i, w.sense = some i → 0 ≤ i

/-- The lists hold words with sense numbers as they are read, and the dictionary in force has readings. -/
def Sound (r : IndexObj) : Prop := (∀ a, SensesOk (r.words a)) ∧ ∀ d, r.edict = some d → HasReadings d

/-- A reader before a file was assigned. -/
def unfilled (edict : Option (Dict Str (List Str))) (subset : Option (List Int)) : IndexObj := ⟨[], subset, edict, [], [], []⟩

/-- The source of the last file that a program assigns, whether it could be read or not. -/
def lastSource (src : Str) (ops : List IndexOp) : Str :=
  ((ops.filterMap (fun op => match op with | .load s _ => some s | _ => none)).getLast?).getD src

end Cjk.Spec
