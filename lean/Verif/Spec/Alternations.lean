import Verif.Spec.Scripts
import Verif.Spec.KanaTable
/-! # Specification vocabulary for alternations -/

namespace Cjk.Spec
open Py

/-- The voicing relation written out: unvoiced kana with its voiced (and semi-voiced) partners. -/
def voicings : List (Chr × List Chr) :=
  [ (c!"か", u!"が"), (c!"き", u!"ぎ"), (c!"く", u!"ぐ"), (c!"け", u!"げ"), (c!"こ", u!"ご"),
    (c!"さ", u!"ざ"), (c!"し", u!"じ"), (c!"す", u!"ず"), (c!"せ", u!"ぜ"), (c!"そ", u!"ぞ"),
    (c!"た", u!"だ"), (c!"ち", u!"ぢ"), (c!"つ", u!"づ"), (c!"て", u!"で"), (c!"と", u!"ど"),
    (c!"は", u!"ばぱ"), (c!"ひ", u!"びぴ"), (c!"ふ", u!"ぶぷ"), (c!"へ", u!"べぺ"), (c!"ほ", u!"ぼぽ"),
    (c!"カ", u!"ガ"), (c!"キ", u!"ギ"), (c!"ク", u!"グ"), (c!"ケ", u!"ゲ"), (c!"コ", u!"ゴ"),
    (c!"サ", u!"ザ"), (c!"シ", u!"ジ"), (c!"ス", u!"ズ"), (c!"セ", u!"ゼ"), (c!"ソ", u!"ゾ"),
    (c!"タ", u!"ダ"), (c!"チ", u!"ヂ"), (c!"ツ", u!"ヅ"), (c!"テ", u!"デ"), (c!"ト", u!"ド"),
    (c!"ハ", u!"バパ"), (c!"ヒ", u!"ビピ"), (c!"フ", u!"ブプ"), (c!"ヘ", u!"ベペ"), (c!"ホ", u!"ボポ") ]

/-- `v` is a voiced or semi-voiced form of `k`. -/
def Voices (k v : Chr) : Prop := ∃ p ∈ voicings, p.1 = k ∧ v ∈ p.2

instance (k v : Chr) : Decidable (Voices k v) := by unfold Voices; infer_instance

/-- Hiragana or katakana. -/
def IsKana (c : Chr) : Prop := InScript .hiragana c ∨ InScript .katakana c

instance (c : Chr) : Decidable (IsKana c) := by unfold IsKana; infer_instance

/-- The geminate kana of the script of `c`. -/
def sokuonOf (c : Chr) : Chr := if InScript .hiragana c then c!"っ" else c!"ッ"

/-- The kana that turn into a geminate, in the script of `c`. -/
def onbinOf (c : Chr) : Str := if InScript .hiragana c then u!"いちりきつく" else u!"イチリキツク"

/-- Undoing gemination: `form` is the segment, or (with context on the right) the segment with a final
geminate replaced by one of the six kana. -/
def Ungeminated (right : Bool) (seg form : Str) : Prop :=
  form = seg ∨
  (right = true ∧ ∃ c init o, seg = c :: init ++ [sokuonOf c] ∧ o ∈ onbinOf c ∧ form = c :: init ++ [o])

/-- The canonical forms of a segment. -/
def Canonical (left right : Bool) (seg form : Str) : Prop :=
  Ungeminated right seg form ∨
  (left = true ∧ ∃ v k t, Ungeminated right seg (v :: t) ∧ Voices k v ∧ form = k :: t)

/-- Surface forms of a first segment. -/
def OnbinForm (seg form : Str) : Prop :=
  form = seg ∨ ∃ c init l, seg = c :: init ++ [l] ∧ form = c :: init ++ [sokuonOf c]

/-- Surface forms of a later segment. -/
def RendakuForm (seg form : Str) : Prop :=
  form = seg ∨ ∃ k v t, seg = k :: t ∧ Voices k v ∧ form = v :: t

/-- The iteration mark for kanji. -/
def iterationMark : Chr := 0x3005

/-- The hiragana vowel of a hiragana character, if the syllabary grid has it. -/
inductive VowelOf : Chr → Chr → Prop
  | grid {i j k} : At i j k → VowelOf k (columnVowel j)
  | wa : VowelOf c!"わ" c!"あ"

/-- The vowel that lengthens kana `p`, in the script of `p`. -/
def Lengthens (p v : Chr) : Prop :=
  (InScript .hiragana p ∧ VowelOf p v) ∨
  (InScript .katakana p ∧ ∃ w, VowelOf (convertChr katakanaAlphabet hiraganaAlphabet p) w ∧
    v = convertChr hiraganaAlphabet katakanaAlphabet w)

end Cjk.Spec
