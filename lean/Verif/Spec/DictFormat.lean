import Verif.Model.DictFormat
import Verif.Spec.BilingualDict
/-!
# Specifications for `dict_format.py` and `auto_format.py`
-/

namespace Cjk
open Py

/-! ### Merging -/

/-- One reading per sense. -/
def Spec.readingsPerSense (e : Entry) : List Str :=
  match e.readings with
  | [r] => List.replicate e.senses.length r
  | rs => rs

/-- What a dictionary should hold for word `w` after reading the entries `es`: nothing, the only entry,
or the entries with word `w` put together in order. -/
def Spec.merged (es : List Entry) (w : Str) : Option Entry :=
  match es.filter (fun e => e.word = w) with
  | [] => none
  | [e] => some e
  | l => some ⟨w, l.flatMap Spec.readingsPerSense, l.flatMap Entry.senses⟩

/-! ### Writing lines -/

/-- The end of a line as it comes from a file (the last line may lack its newline). -/
def Spec.eol (nl : Bool) : Str := if nl then [0x0a] else []

/-- `/sense/sense/` -/
def Spec.slashes (senses : List Str) : Str := senses.flatMap (fun s => u!"/" ++ s) ++ u!"/"

/-- `word [reading] /sense/sense/` or `word /sense/sense/` -/
def Spec.edictText (word : Str) (reading : Option Str) (senses : List Str) (nl : Bool) : Str :=
  word ++ u!" " ++ (match reading with
    | none => []
    | some r => u!"[" ++ r ++ u!"] ") ++ Spec.slashes senses ++ Spec.eol nl

/-- `traditional simplified [reading] /sense/sense/` -/
def Spec.cedictText (trad simp : Str) (reading : Option Str) (senses : List Str) (nl : Bool) : Str :=
  trad ++ u!" " ++ simp ++ u!" " ++ (match reading with
    | none => []
    | some r => u!"[" ++ r ++ u!"] ") ++ Spec.slashes senses ++ Spec.eol nl

/-- `word [reading]⇥sense，sense` -/
def Spec.jcText (word reading : Str) (senses : List Str) (nl : Bool) : Str :=
  word ++ u!" [" ++ reading ++ u!"]\t" ++ join u!"，" senses ++ Spec.eol nl

/-- A sense of cj_kdic with its number; an empty number is not written. -/
def Spec.numbered (ns : Str × Str) : Str := if ns.1 = [] then ns.2 else ns.1 ++ u!"．" ++ ns.2

/-- `word⇥reading\n１．sense\n２．sense` (where `\n` is a backslash and the letter n), possibly with a
final `\n` -/
def Spec.cjText (word reading : Str) (senses : List (Str × Str)) (final nl : Bool) : Str :=
  word ++ u!"\t" ++ reading ++ u!"\\n" ++ join u!"\\n" (senses.map Spec.numbered) ++
    (if final then u!"\\n" else []) ++ Spec.eol nl

/-- Spaces removed. -/
def Spec.noSpaces (s : Str) : Str := s.filter (fun c => c != 0x20)

/-- The full-width digits. -/
def Spec.wideDigit (c : Chr) : Prop := c!"０" ≤ c ∧ c ≤ c!"９"

instance (c : Chr) : Decidable (Spec.wideDigit c) := inferInstanceAs (Decidable (_ ∧ _))

/-! ### Headers -/

/-- A single line, possibly with its newline. -/
def Spec.OneLine (s : Str) : Prop := ∃ t nl, s = t ++ Spec.eol nl ∧ 0x0a ∉ t

/-- What makes a header line that of a format. -/
def Spec.isHeader (name : Str) (s : Str) : Prop :=
  (name = u!"edict" ∧ ∃ c t, s = c :: u!"？？？" ++ t ∧ c ≠ 0x0a ∧ Spec.OneLine t) ∨
  (name = u!"jc_kdic" ∧ ∃ nl, s = u!"FORMAT jc_kdic" ++ Spec.eol nl) ∨
  (name = u!"cj_kdic" ∧ ∃ nl, s = u!"FORMAT cj_kdic" ++ Spec.eol nl) ∨
  (name = u!"cedict" ∧ ∃ t, s = u!"# CEDICT" ++ t ∧ Spec.OneLine t)

end Cjk
