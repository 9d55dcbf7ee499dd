import Verif.Model.BilingualDict
/-!
# Specifications for `bilingual_dict.py`
-/

namespace Cjk
open Py

/-- One reading for all senses, or one reading per sense. -/
def Spec.Aligned (e : Entry) : Prop := e.readings.length = 1 ∨ e.readings.length = e.senses.length

/-- The (reading, sense) pairs an entry stands for. -/
def Spec.pairs (e : Entry) : List (Str × Str) :=
  match e.readings with
  | [r] => e.senses.map (fun s => (r, s))
  | rs => rs.zip e.senses

/-- The senses an entry gives for a reading, in order. -/
def Spec.sensesFor (e : Entry) (r : Str) : List Str :=
  ((Spec.pairs e).filter (fun p => p.1 = r)).map Prod.snd

end Cjk
