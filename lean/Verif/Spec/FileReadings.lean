import Verif.Model.FileReadings
/-!
# Specification: readings of the words of a sentence index, in terms of the lines of a dictionary file
-/

namespace Cjk.Spec
open Py

/-- The readings of a word in a file, one for each meaning that the lines of the word list, in file order: that of the line with the
meaning. -/
def meaningReadings (es : List Entry) (w : Str) : List Str :=
  (es.filter (fun e => e.word = w)).flatMap (fun e => e.senses.map (fun _ => e.readings.headD []))

/-- The lines of word `w` all have reading `r`, and there is one. -/
def OnlyReading (es : List Entry) (w r : Str) : Prop :=
  (∃ e ∈ es, e.word = w) ∧ ∀ e ∈ es, e.word = w → e.readings = [r]

/-- `r` is the reading for a word with this sense number in a file: with the number of a meaning that of the line with that meaning,
counted from 1 through the lines of the word; with 0 that of the last line; without a number, or with a number that is too large, the
only reading of the word. -/
inductive ReadingInFile (es : List Entry) (w : Str) : Option Int → Str → Prop
  | numbered (n : Nat) (r : Str) : (meaningReadings es w)[n]? = some r → ReadingInFile es w (some (n + 1)) r
  | zero (pre : List Entry) (e : Entry) (post : List Entry) (r : Str) : es = pre ++ e :: post → e.word = w → (∀ x ∈ post, x.word ≠ w) →
      e.readings = [r] → ReadingInFile es w (some 0) r
  | large (n : Nat) (r : Str) : (meaningReadings es w).length < n → OnlyReading es w r → ReadingInFile es w (some n) r
  | missing (r : Str) : OnlyReading es w r → ReadingInFile es w none r

/-- `w'` is `w` with the reading from a file: nothing but the reading differs; a reading of its own is kept; else it gets the one of the
file, unless that is the headword itself. -/
def ReadFromFile (es : List Entry) (w w' : Tanaka) : Prop :=
  w' = { w with reading := w'.reading } ∧
  match w.reading with
  | some r => w'.reading = some r
  | none => ∀ r, w'.reading = some r ↔ ReadingInFile es w.headword w.sense r ∧ r ≠ w.headword

end Cjk.Spec
