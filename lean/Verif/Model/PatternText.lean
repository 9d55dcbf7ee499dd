import Verif.Py.Pattern
import Verif.Model.DictFormat
import Verif.Model.Kanjidic
import Verif.Model.Tatoeba
import Verif.Model.SplitByCodes
import Verif.Model.Alternations
import Verif.Model.Pinyin
/-!
# The pattern texts of cjktools, and the code that uses them

The other model files describe the regular expressions of cjktools as expressions of `Py.Re`.  Here they are the texts that the
code hands to `re.compile` (`Py.compile`), and the functions that use them are modelled once more on compiled texts.  The
theorems of `Props/PatternText.lean` show that both levels agree.
-/

namespace Cjk
open Py

/-! ### RegexFormat with pattern texts -/

/-- A `RegexFormat` object (dict_format.py:90-94). -/
structure TextFormat where
  name : Str
  header : Compiled
  line : Compiled
  sense : Compiled
deriving DecidableEq

/-- `RegexFormat.__init__` (dict_format.py:90-94); none if a pattern does not compile. -/
def TextFormat.new (name header line sense : Str) : Option TextFormat :=
  match compile header, compile line, compile sense with
  | some h, some l, some s => some ⟨name, h, l, s⟩
  | _, _, _ => none

/-- `RegexFormat.match_header` (dict_format.py:96-97). -/
def TextFormat.matchHeader (f : TextFormat) (s : Str) : Bool := (f.header.pyMatch s).isSome

/-- The loop over the senses (dict_format.py:112-114); `None` for a group that took no part in its match. -/
def TextFormat.collectSenses (f : TextFormat) : List MatchObj → Except PyErr (List (Option Str))
  | [] => .ok []
  | m :: ms =>
    match f.sense.named m u!"sense" with
    | none => .error .keyError
    | some g =>
      match f.collectSenses ms with
      | .error e => .error e
      | .ok gs => .ok (g :: gs)

/-- `RegexFormat.parse_line` (dict_format.py:99-119) up to the call of `DictionaryEntry`: the word, the reading and the senses
that it is called with. -/
def TextFormat.parseLine (f : TextFormat) (s : Str) : Except PyErr (Str × Str × List (Option Str)) :=
  match f.line.pyMatch s with
  | none => .error .formatError
  | some m =>
    match f.line.named m u!"word" with
    | none => .error .keyError
    | some none => .error .attributeError
    | some (some w) =>
      let word := replaceChr 0x20 [] w
      -- `(match_dict.get('reading') or word).replace(' ', '')`
      let r := match f.line.named m u!"reading" with
        | some (some r) => if r.isEmpty then word else r
        | _ => word
      let reading := replaceChr 0x20 [] r
      match f.line.named m u!"senses" with
      | some (some senseLine) =>
        match f.collectSenses (f.sense.finditer senseLine) with
        | .error e => .error e
        | .ok senses => if senses.isEmpty then .error .formatError else .ok (word, reading, senses)
      | _ => .error .typeError

/-- The arguments of the calls of `RegexFormat` in `known_formats` (auto_format.py:53-78). -/
def knownTexts : List (Str × Str × Str × Str) := [
  (u!"edict", u!"^.？？？.*$", u!"^(?P<word>[^ ]+) (\\[(?P<reading>[^\\]]+)\\] )?(?P<senses>.*)$", u!"/(?P<sense>[^/]+)"),
  (u!"jc_kdic", u!"^FORMAT jc_kdic$", u!"^(?P<word>[^ ]+) \\[(?P<reading>[^\\]]+)\\]\t(?P<senses>.*)$",
    u!"(?P<sense>[^，]+)[，]?"),
  (u!"cj_kdic", u!"^FORMAT cj_kdic$", u!"^(?P<word>[^\t]+)\t(?P<reading>[^\\\\]+)\\\\n(?P<senses>.*)$",
    u!"([１２３４５７８９０]+．)?(?P<sense>[^\\\\]+)(\\\\n)?"),
  (u!"cedict", u!"^# CEDICT.*$", u!"^[^ ]+ (?P<word>[^ ]+) (\\[(?P<reading>[^\\]]+)\\])?(?P<senses>.*)",
    u!"/(?P<sense>[^/]+)")]

/-- `known_formats` (auto_format.py:53-78). -/
def knownTextFormats : List (Option TextFormat) := knownTexts.map (fun t => TextFormat.new t.1 t.2.1 t.2.2.1 t.2.2.2)

/-! ### The other patterns -/

/-- `segment_pattern` (kanjidic.py:137). -/
def segmentText : Str := u!"[^ {]+|{.*?}"

/-- `segment_pattern.findall(s)` for a pattern without groups (kanjidic.py:138). -/
def segmentsByText (r : Compiled) (s : Str) : List Str := (r.finditer s).map (·.text)

/-- `_code_pattern` (split_by_codes.py:62-65). -/
def codeText : Str := u!"\\(([a-zA-Z0-9,-]+)\\)"

/-- `_code_pattern.findall(sense)` for a pattern with one group (split_by_codes.py:84). -/
def codeGroupsByText (r : Compiled) (s : Str) : List Str := (r.finditer s).map (fun m => (m.group 1).getD [])

/-- `_long_finder` (alternations.py:171). -/
def longText : Str := u!"(?<=[\\u3041-\\u3096])ー"

/-- The start positions of the matches (alternations.py:202-203). -/
def longPositionsByText (r : Compiled) (s : Str) : List Nat := (r.finditer s).map (·.start)

/-- `word_re` (tatoeba.py:421-426). -/
def wordText : Str :=
  u!"(?P<headword>[^\\(\\[\\{\\|\\~]+)" ++ u!"(?:\\((?P<reading>[^\\)]+)\\))?" ++ u!"(?:\\|\\d+)?" ++
  u!"(?:\\[(?P<sense>[\\d]+)\\])?" ++ u!"(?:\\{(?P<display>[^\\}]+)\\})?" ++ u!"(?:(?P<example>\\~))?$"

/-- `from_text` (tatoeba.py:435-462) with a compiled pattern; `m.group(k)` for the names of the pattern. -/
def fromTextByText (r : Compiled) (text : Str) : Except PyErr Tanaka :=
  match r.pyMatch text with
  | none => .error .invalidEntryError
  | some m =>
    let get (n : Str) : Option Str := (r.named m n).getD none
    match get u!"sense" with
    | none => .ok ⟨(get u!"headword").getD [], get u!"reading", none, get u!"display", (get u!"example").isSome⟩
    | some s =>
      match pyInt 10 s with
      | .error e => .error e
      | .ok i => .ok ⟨(get u!"headword").getD [], get u!"reading", some i, get u!"display", (get u!"example").isSome⟩

/-- `base_pattern` (pinyin_table.py:110-113) around the text of `pinyin_regex_pattern`. -/
def basePattern (pinyinPattern : Str) : Str := u!"(" ++ pinyinPattern ++ u!"|" ++ u!"#" ++ u!")"

/-- The text of `string_pattern` (pinyin_table.py:116). -/
def stringPattern (pinyinPattern : Str) : Str := u!"(" ++ basePattern pinyinPattern ++ u!")+"

/-- The loop of `segment_pinyin` over `findall` of a pattern with three groups (pinyin_table.py:121-136); a group that takes no
part in the match is the empty string. -/
def correctMatchesByText : List MatchObj → Except PyErr (List (Str × Int))
  | [] => .ok []
  | m :: ms =>
    match toneOf ((m.group 3).getD []) with
    | .error e => .error e
    | .ok tone =>
      match correctMatchesByText ms with
      | .error e => .error e
      | .ok rest => .ok ((readSyllable ((m.group 2).getD []), tone) :: rest)

/-- `segment_pinyin` (pinyin_table.py:118-136) with a compiled `single_pattern`. -/
def segmentPinyinByText (lower : Str → Str) (r : Compiled) (s : Str) : Except PyErr (List (Str × Int)) :=
  correctMatchesByText (r.finditer (pinyinNormalize lower s))

/-- `is_pinyin` (pinyin_table.py:138-140) with a compiled `string_pattern`. -/
def isPinyinByText (lower : Str → Str) (r : Compiled) (s : Str) : Bool := (r.pyMatch (pinyinNormalize lower s)).isSome

end Cjk
