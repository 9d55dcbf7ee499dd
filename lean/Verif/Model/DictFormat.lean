import Verif.Model.BilingualDict
import Verif.Model.Alternations
import Verif.Py.Re
/-!
# Model of `cjktools/resources/dict_format.py` and `cjktools/resources/auto_format.py`
-/

namespace Cjk
open Py

/-- `RegexFormat` (dict_format.py:82-94). -/
structure RegexFormat where
  name : Str
  header : Re
  line : Re
  sense : Re

/-- `RegexFormat.match_header` (dict_format.py:96-97). -/
def RegexFormat.matchHeader (f : RegexFormat) (s : Str) : Bool := (f.header.pyMatch s).isSome

/-- `RegexFormat.parse_line` (dict_format.py:99-119).  A group that took no part in the match is
`None`; using it as a string raises AttributeError/TypeError. -/
def RegexFormat.parseLine (f : RegexFormat) (s : Str) : Except PyErr Entry :=
  match f.line.pyMatch s with
  | none => .error .formatError
  | some caps =>
    match Dict.get? caps u!"word" with
    | none => .error .attributeError
    | some w =>
      let word := replaceChr 0x20 [] w
      -- `match_dict.get('reading') or word`
      let r := match Dict.get? caps u!"reading" with
        | none => word
        | some r => if r.isEmpty then word else r
      let reading := replaceChr 0x20 [] r
      match Dict.get? caps u!"senses" with
      | none => .error .typeError
      | some senseLine =>
        let senses := (f.sense.finditer senseLine).map (fun m => (Dict.get? m.2 u!"sense").getD [])
        if senses.isEmpty then .error .formatError else Entry.new word [reading] senses

/-- One round of the loop of `parse_dictionary` (dict_format.py:64-69). -/
def addEntry (b : Dict Str Entry) (e : Entry) : Except PyErr (Dict Str Entry) :=
  match Dict.get? b e.word with
  | some old => do
    let r ← old.update e
    .ok (Dict.set b e.word r.1)
  | none => .ok (Dict.set b e.word e)

/-- The loop of `parse_dictionary` for any `parse_line`. -/
def parseLoop (parse : Str → Except PyErr Entry) (b : Dict Str Entry) : List Str → Except PyErr (Dict Str Entry)
  | [] => .ok b
  | l :: ls => do
    let e ← parse l
    let b' ← addEntry b e
    parseLoop parse b' ls

/-- `DictionaryFormat.parse_dictionary` (dict_format.py:57-71), for any `parse_line`. -/
def parseDictionary (parse : Str → Except PyErr Entry) (lines : List Str) : Except PyErr (Dict Str Entry) :=
  parseLoop parse [] lines

/-- `DictionaryFormat.iter_entries` (dict_format.py:73-79), a generator: the entries it yields and
the exception that ends it, if any. -/
def iterEntries (parse : Str → Except PyErr Entry) : List Str → List Entry × Option PyErr
  | [] => ([], none)
  | l :: ls => match parse l with
    | .error e => ([], some e)
    | .ok x => let r := iterEntries parse ls; (x :: r.1, r.2)

/-- `[^x]` -/
def notChr (x : Chr) : Nat → Bool := fun c => c != x

/-- `'^.？？？.*$'` (auto_format.py:56) -/
def edictHeader : Re := Re.cat [.chr Re.dot, Re.lit u!"？？？", .many Re.dot, .eol]

/-- `'^(?P<word>[^ ]+) (\[(?P<reading>[^\]]+)\] )?(?P<senses>.*)$'` (auto_format.py:57) -/
def edictLine : Re := Re.cat [
  .group u!"word" (Re.plus (notChr 0x20)), Re.lit u!" ",
  Re.opt (Re.cat [Re.lit u!"[", .group u!"reading" (Re.plus (notChr 0x5d)), Re.lit u!"] "]),
  .group u!"senses" (.many Re.dot), .eol]

/-- `'/(?P<sense>[^/]+)'` (auto_format.py:58, 76) -/
def slashSense : Re := .seq (Re.lit u!"/") (.group u!"sense" (Re.plus (notChr 0x2f)))

/-- `'^FORMAT jc_kdic$'` (auto_format.py:62) -/
def jcHeader : Re := .seq (Re.lit u!"FORMAT jc_kdic") .eol

/-- `'^(?P<word>[^ ]+) \[(?P<reading>[^\]]+)\]\t(?P<senses>.*)$'` (auto_format.py:63) -/
def jcLine : Re := Re.cat [
  .group u!"word" (Re.plus (notChr 0x20)), Re.lit u!" [",
  .group u!"reading" (Re.plus (notChr 0x5d)), Re.lit u!"]\t",
  .group u!"senses" (.many Re.dot), .eol]

/-- `'(?P<sense>[^，]+)[，]?'` (auto_format.py:64) -/
def jcSense : Re := .seq (.group u!"sense" (Re.plus (notChr c!"，"))) (Re.opt (Re.lit u!"，"))

/-- `'^FORMAT cj_kdic$'` (auto_format.py:68) -/
def cjHeader : Re := .seq (Re.lit u!"FORMAT cj_kdic") .eol

/-- The pattern written `'^(?P<word>[^\t]+)\t(?P<reading>[^\\\\]+)\\\\n(?P<senses>.*)$'`
(auto_format.py:69); `\\n` in the pattern is a backslash followed by `n`. -/
def cjLine : Re := Re.cat [
  .group u!"word" (Re.plus (notChr 0x09)), Re.lit u!"\t",
  .group u!"reading" (Re.plus (notChr 0x5c)), Re.lit u!"\\n",
  .group u!"senses" (.many Re.dot), .eol]

/-- The class `[１２３４５７８９０]` of auto_format.py:70 (without ６). -/
def cjDigit : Nat → Bool := fun c => u!"１２３４５７８９０".contains c

/-- The pattern written `'([１２３４５７８９０]+．)?(?P<sense>[^\\\\]+)(\\\\n)?'` (auto_format.py:70). -/
def cjSense : Re := Re.cat [
  Re.opt (.group u!"1" (.seq (Re.plus cjDigit) (Re.lit u!"．"))),
  .group u!"sense" (Re.plus (notChr 0x5c)),
  Re.opt (.group u!"3" (Re.lit u!"\\n"))]

/-- `'^# CEDICT.*$'` (auto_format.py:74) -/
def cedictHeader : Re := Re.cat [Re.lit u!"# CEDICT", .many Re.dot, .eol]

/-- `'^[^ ]+ (?P<word>[^ ]+) (\[(?P<reading>[^\]]+)\])?(?P<senses>.*)'` (auto_format.py:75) -/
def cedictLine : Re := Re.cat [
  Re.plus (notChr 0x20), Re.lit u!" ", .group u!"word" (Re.plus (notChr 0x20)), Re.lit u!" ",
  Re.opt (Re.cat [Re.lit u!"[", .group u!"reading" (Re.plus (notChr 0x5d)), Re.lit u!"]"]),
  .group u!"senses" (.many Re.dot)]

def edict : RegexFormat := ⟨u!"edict", edictHeader, edictLine, slashSense⟩
def jcKdic : RegexFormat := ⟨u!"jc_kdic", jcHeader, jcLine, jcSense⟩
def cjKdic : RegexFormat := ⟨u!"cj_kdic", cjHeader, cjLine, cjSense⟩
def cedict : RegexFormat := ⟨u!"cedict", cedictHeader, cedictLine, slashSense⟩

/-- `known_formats` (auto_format.py:53-78). -/
def knownFormats : List RegexFormat := [edict, jcKdic, cjKdic, cedict]

/-- `detect_format` (auto_format.py:16-26) with the format list as a parameter. -/
def detectIn (fs : List RegexFormat) (header : Str) : Except PyErr RegexFormat :=
  match fs.find? (fun f => f.matchHeader header) with
  | some f => .ok f
  | none => .error .unknownFormatError

/-- `detect_format` (auto_format.py:16-26). -/
def detectFormat (header : Str) : Except PyErr RegexFormat := detectIn knownFormats header

/-- `load_dictionary` (auto_format.py:29-36) on a stream of lines. -/
def loadDictionary : List Str → Except PyErr (Dict Str Entry)
  | [] => .error .stopIteration
  | h :: ls => do
    let f ← detectFormat h
    parseDictionary f.parseLine ls

/-- `iter_entries` (auto_format.py:39-46): detection happens at once, the lines are parsed lazily. -/
def iterFile : List Str → Except PyErr (List Entry × Option PyErr)
  | [] => .error .stopIteration
  | h :: ls => do
    let f ← detectFormat h
    .ok (iterEntries f.parseLine ls)

end Cjk
