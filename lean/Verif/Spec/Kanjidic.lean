import Verif.Spec.Scripts
import Verif.Model.Kanjidic
/-!
# What a kanjidic line says
-/

namespace Cjk.Spec
open Py

/-- A reading as it is pooled: no hyphens, cut at the okurigana dot. -/
def pooled (r : Str) : Str := (r.filter (· ≠ c!"-")).takeWhile (· ≠ c!".")

/-- The items after the first two fields of a line. -/
inductive KItem where
  /-- `{meaning}` -/
  | gloss (g : Str)
  /-- a kana reading, perhaps a suffix reading written with a hyphen in front -/
  | reading (hyphen : Bool) (c : Chr) (rest : Str)
  /-- a letter and a value -/
  | code (c : Chr) (v : Str)
  /-- the markers `T1` (`true`) and `T2` before name readings and radical names -/
  | marker (one : Bool)

/-- How an item is written. -/
def KItem.text : KItem → Str
  | .gloss g => u!"{" ++ g ++ u!"}"
  | .reading h c rest => (if h then u!"-" else []) ++ c :: rest
  | .code c v => c :: v
  | .marker true => u!"T1"
  | .marker false => u!"T2"

/-- A character that neither separates fields nor opens a gloss. -/
def plain (c : Chr) : Prop := isSpace c = false ∧ c ≠ c!"{"
instance (c : Chr) : Decidable (plain c) := by unfold plain; infer_instance

/-- Items as they occur in kanjidic. -/
def KItem.ok : KItem → Prop
  | .gloss g => c!"}" ∉ g ∧ 0x0a ∉ g
  | .reading _ c rest => (InScript .katakana c ∨ InScript .hiragana c) ∧ ∀ x ∈ rest, plain x
  | .code c v => InScript .ascii c ∧ c ≠ c!"-" ∧ (∀ x ∈ c :: v, plain x) ∧ c :: v ≠ u!"T1" ∧ c :: v ≠ u!"T2"
  | .marker _ => True
instance (i : KItem) : Decidable i.ok := by cases i <;> unfold KItem.ok <;> infer_instance

/-- The names of the codes. -/
def codeName (c : Chr) : Str :=
  if c = c!"B" then u!"radical_index" else if c = c!"C" then u!"classical_radical_index"
  else if c = c!"D" then u!"dictionary_code" else if c = c!"E" then u!"henshall_code"
  else if c = c!"F" then u!"frequency" else if c = c!"G" then u!"jyouyou_grade"
  else if c = c!"H" then u!"halpern_index" else if c = c!"I" then u!"spahn_code"
  else if c = c!"K" then u!"gakken_code" else if c = c!"L" then u!"heisig_code"
  else if c = c!"M" then u!"morohashi_index" else if c = c!"N" then u!"nelson_index"
  else if c = c!"O" then u!"oneill_code" else if c = c!"P" then u!"skip_code"
  else if c = c!"Q" then u!"four_corner_code" else if c = c!"S" then u!"stroke_count"
  else if c = c!"U" then u!"unicode" else if c = c!"V" then u!"new_nelson_index"
  else if c = c!"W" then u!"korean_reading" else if c = c!"X" then u!"cross_references"
  else if c = c!"Y" then u!"pinyin_reading" else if c = c!"Z" then u!"misclassified_as"
  else [c]

/-- A value is a number if it can be read as one. -/
def codeValue (v : Str) : CodeVal :=
  match pyInt 10 v with
  | .ok i => .num i
  | .error _ => .text v

/-- The glosses, in order. -/
def glosses (items : List KItem) : List Str :=
  items.filterMap (fun | .gloss g => some g | _ => none)

/-- The readings whose first kana belongs to the script, as written, in order. -/
def readings (x : Script) (items : List KItem) : List Str :=
  items.filterMap (fun
    | .reading h c rest => if InScript x c then some ((if h then u!"-" else []) ++ c :: rest) else none
    | _ => none)

/-- The values of the codes of a name, in order. -/
def codes (name : Str) (items : List KItem) : List CodeVal :=
  items.filterMap (fun | .code c v => if codeName c = name then some (codeValue v) else none | _ => none)

/-- A line: the kanji, its JIS code, the items, all separated by single spaces, and an ending. -/
def kline (kanji jis : Str) (items : List KItem) (ending : Str) : Str :=
  join u!" " (kanji :: jis :: items.map KItem.text) ++ ending

/-- A field: not empty, no whitespace, no opening brace. -/
def field (s : Str) : Prop := s ≠ [] ∧ ∀ x ∈ s, plain x
instance (s : Str) : Decidable (field s) := by unfold field; infer_instance

end Cjk.Spec
