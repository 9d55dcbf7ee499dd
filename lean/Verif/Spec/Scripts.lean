import Verif.Model.Scripts
/-!
# Specification vocabulary for scripts

Written without reference to the functions of the model (only the enumeration `Script` and the
type of strings are shared).
-/

namespace Cjk.Spec
open Py

/-- The Unicode range a script of the library stands for, as documented by the library. -/
def InScript : Script → Chr → Prop
  | .ascii, c => 0x21 ≤ c ∧ c ≤ 0xff
  | .hiragana, c => 0x3041 ≤ c ∧ c ≤ 0x3096
  | .katakana, c => 0x30a1 ≤ c ∧ c ≤ 0x30f6
  | .kanji, c => 0x4e00 ≤ c ∧ c ≤ 0x9fa5
  | .fullAscii, c => 0xff01 ≤ c ∧ c ≤ 0xff5f
  | .halfKatakana, c => 0xff61 ≤ c ∧ c ≤ 0xff9f
  | .unknown, c => ¬ (0x21 ≤ c ∧ c ≤ 0xff) ∧ ¬ (0x3041 ≤ c ∧ c ≤ 0x3096) ∧
      ¬ (0x30a1 ≤ c ∧ c ≤ 0x30f6) ∧ ¬ (0x4e00 ≤ c ∧ c ≤ 0x9fa5) ∧
      ¬ (0xff01 ≤ c ∧ c ≤ 0xff5f) ∧ ¬ (0xff61 ≤ c ∧ c ≤ 0xff9f)

instance (x : Script) (c : Chr) : Decidable (InScript x c) := by
  cases x <;> unfold InScript <;> infer_instance

/-- The hiragana alphabet, written out (Unicode names HIRAGANA LETTER SMALL A .. SMALL KE). -/
def hiraganaAlphabet : Str :=
  u!"ぁあぃいぅうぇえぉおかがきぎくぐけげこごさざしじすずせぜそぞただちぢっつづてでとどなにぬねのはばぱひびぴふぶぷへべぺほぼぽまみむめもゃやゅゆょよらりるれろゎわゐゑをんゔゕゖ"

/-- The katakana alphabet in the corresponding order. -/
def katakanaAlphabet : Str :=
  u!"ァアィイゥウェエォオカガキギクグケゲコゴサザシジスズセゼソゾタダチヂッツヅテデトドナニヌネノハバパヒビピフブプヘベペホボポマミムメモャヤュユョヨラリルレロヮワヰヱヲンヴヵヶ"

/-- Character-by-character conversion from one alphabet to another: characters of the first go to
the character at the same position of the second, all others stay. -/
def convertChr (src dst : Str) (c : Chr) : Chr :=
  match src.idxOf? c with
  | some i => dst.getD i c
  | none => c

/-- `a` and `b` are the same up to replacing hiragana by the corresponding katakana. -/
def SameKana (a b : Str) : Prop :=
  a.map (convertChr hiraganaAlphabet katakanaAlphabet) = b.map (convertChr hiraganaAlphabet katakanaAlphabet)

/-- The long vowel mark. -/
def longMark : Chr := 0x30fc

/-- `c` may continue a block whose first character is `h`. -/
def Continues (h c : Chr) : Prop := c = longMark ∨ ∃ x, InScript x h ∧ InScript x c

/-- A block is non-empty and every later character continues its first one. -/
def Block (seg : Str) : Prop := ∃ h t, seg = h :: t ∧ ∀ c ∈ t, Continues h c

/-- `segs` cuts `s` into blocks none of which could swallow the beginning of the next. -/
def IsSegmentation (s : Str) (segs : List Str) : Prop :=
  segs.flatten = s ∧ (∀ seg ∈ segs, Block seg) ∧
  ∀ pre a b post, segs = pre ++ a :: b :: post →
    ∀ h ∈ a.head?, ∀ c ∈ b.head?, ¬ Continues h c

/-- The half-width katakana block U+FF61.. in order. -/
def halfWidthKana : Str :=
  u!"｡｢｣､･ｦｧｨｩｪｫｬｭｮｯｰｱｲｳｴｵｶｷｸｹｺｻｼｽｾｿﾀﾁﾂﾃﾄﾅﾆﾇﾈﾉﾊﾋﾌﾍﾎﾏﾐﾑﾒﾓﾔﾕﾖﾗﾘﾙﾚﾛﾜﾝﾞﾟ"

/-- Its full-width counterparts in the same order. -/
def wideKana : Str :=
  u!"。「」、・ヲァィゥェォャュョッーアイウエオカキクケコサシスセソタチツテトナニヌネノハヒフヘホマミムメモヤユヨラリルレロワン゛゜"

/-- Full-width ASCII and CJK punctuation that `normalize_ascii` handles, and the narrow forms. -/
def wideAscii : Str :=
  u!"　、。！＂＃＄％＆＇（）＊＋，－．／０１２３４５６７８９：；＜＝＞？＠ＡＢＣＤＥＦＧＨＩＪＫＬＭＮＯＰＱＲＳＴＵＶＷＸＹＺ［＼］＾＿｀ａｂｃｄｅｆｇｈｉｊｋｌｍｎｏｐｑｒｓｔｕｖｗｘｙｚ｛｜｝～｟"

/-- The narrow counterparts.  The last one (U+FF5F, a full-width white parenthesis) has no ASCII
counterpart; the library sends it to U+007F. -/
def narrowAscii : Str :=
  u!" ,.!\"#$%&'()*+,-./0123456789:;<=>?@ABCDEFGHIJKLMNOPQRSTUVWXYZ[\\]^_`abcdefghijklmnopqrstuvwxyz{|}~" ++ [0x7f]

end Cjk.Spec
