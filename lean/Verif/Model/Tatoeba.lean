import Verif.Py.Csv
import Verif.Py.Re
import Verif.Py.Set
import Verif.Py.Exc
import Verif.Model.DictFormat
/-!
# Model of `cjktools/resources/tatoeba.py`

Python 3 branches.  A file is the list of lines that iterating over it gives (opening, decoding and newline translation
are not modelled).  A generator is modelled by its rows and the exception that ends it, if any.

`datetime.strptime` is an arbitrary partial function (`strptime`) into an arbitrary type here; `Model/Dates.lean` models the one that is called.

Simplifications: the limit of
the number of digits that `int` accepts in late Python releases is not modelled; `__repr__` of the readers is not modelled;
an EDICT dictionary is a map from headwords to the reading lists of their entries.
-/

namespace Cjk
open Py

/-- `load_file` (tatoeba.py:53-84) on an open file: the tab-separated rows. -/
def loadFile (lim : Nat) (lines : List Str) : Rows := csvReader 0x09 lim lines

/-! ### Sentences (tatoeba.py:94-265) -/

/-- The details of a sentence: user name, date added, date modified. -/
abbrev Details (D : Type) := Option Str × Option D × Option D

/-- The dictionaries of a sentence reader. -/
structure SentData (D : Type) where
  lang : Dict Str (List Int)
  sent : Dict Int Str
  info : Option (Dict Int (Details D))

/-- `d[lang].add(i)` for a `defaultdict(set)`. -/
def addLang (d : Dict Str (List Int)) (lang : Str) (i : Int) : Dict Str (List Int) :=
  Dict.set d lang (if i ∈ (Dict.get? d lang).getD [] then (Dict.get? d lang).getD [] else (Dict.get? d lang).getD [] ++ [i])

/-- `parse_date` (tatoeba.py:255-262). -/
def parseDate {D : Type} (strptime : Str → Except PyErr D) (s : Str) : Except PyErr (Option D) :=
  if s = u!"\\N" ∨ s = u!"0000-00-00 00:00:00" then .ok none
  else
    match strptime s with
    | .error e => .error e
    | .ok d => .ok (some d)

/-- The detail columns of a row (tatoeba.py:230-236). -/
def parseDetails {D : Type} (strptime : Str → Except PyErr D) (row : List Str) : Except PyErr (Details D) :=
  match (row.drop 3).take 3 with
  | [uname, added, modified] => do
    let a ← parseDate strptime added
    let m ← parseDate strptime modified
    .ok (if uname = u!"\\N" then none else some uname, a, m)
  | _ => .error .valueError

/-- Whether the language filter lets a language through (tatoeba.py:221). -/
def langOk (languages : Option (List Str)) (lang : Str) : Bool :=
  match languages with
  | none => true
  | some ls => decide (lang ∈ ls)

/-- The end of the loop body of the `sentences` setter, for detailed files (tatoeba.py:229-236). -/
def sentDetails {D : Type} (strptime : Str → Except PyErr D) (a : SentData D) (i : Int) (row : List Str) :
    Except PyErr (SentData D) :=
  match a.info with
  | none => .ok a
  | some info =>
    match parseDetails strptime row with
    | .error e => .error e
    | .ok d => .ok { a with info := some (Dict.set info i d) }

/-- The loop body of the `sentences` setter (tatoeba.py:215-236). -/
def sentRow {D : Type} (strptime : Str → Except PyErr D) (languages : Option (List Str)) (a : SentData D) (row : List Str) :
    Except PyErr (SentData D) :=
  match row.take 3 with
  | [idText, lang, text] =>
    if langOk languages lang = false then .ok a
    else
      match pyInt 10 idText with
      | .error e => .error e
      | .ok i => sentDetails strptime { a with lang := addLang a.lang lang i, sent := Dict.set a.sent i text } i row
  | _ => .error .valueError

/-- The loop of the setter over the rows. -/
def sentRows {D : Type} (strptime : Str → Except PyErr D) (languages : Option (List Str)) (a : SentData D) :
    List (List Str) → Except PyErr (SentData D)
  | [] => .ok a
  | row :: rows =>
    match sentRow strptime languages a row with
    | .error e => .error e
    | .ok a' => sentRows strptime languages a' rows

/-- What the setter computes from the rows (tatoeba.py:190-236); an exception of the file comes after its rows. -/
def sentLoad {D : Type} (strptime : Str → Except PyErr D) (languages : Option (List Str)) (rows : Rows) :
    Except PyErr (SentData D) :=
  match rows.1 with
  | [] => .error (rows.2.getD .stopIteration)
  | first :: _ =>
    if first.length = 3 ∨ first.length = 6 then
      match sentRows strptime languages ⟨[], [], if first.length = 6 then some [] else none⟩ rows.1 with
      | .error e => .error e
      | .ok a =>
        match rows.2 with
        | some e => .error e
        | none => .ok a
    else .error .invalidFileError

/-- A sentence reader (tatoeba.py:112-114). -/
structure SentReader (D : Type) where
  languages : Option (List Str)
  src : Str
  data : SentData D

/-- `reader.sentences = src` (tatoeba.py:189-241): the reader afterwards and the exception raised, if any. -/
def SentReader.assign {D : Type} (strptime : Str → Except PyErr D) (r : SentReader D) (src : Str) (rows : Rows) :
    SentReader D × Option PyErr :=
  match sentLoad strptime r.languages rows with
  | .error e => ({ r with src := src }, some e)
  | .ok d => ({ r with src := src, data := d }, none)

/-- `sentence` (tatoeba.py:136-150) and `reader[i]`. -/
def SentData.sentence {D : Type} (a : SentData D) (i : Int) : Except PyErr Str :=
  match Dict.get? a.sent i with
  | some t => .ok t
  | none => .error .invalidIDError

/-- `language` (tatoeba.py:116-134). -/
def SentData.language {D : Type} (a : SentData D) (i : Int) : Except PyErr Str :=
  match a.lang.find? (fun kv => decide (i ∈ kv.2)) with
  | some kv => .ok kv.1
  | none => .error .invalidIDError

/-- `details` (tatoeba.py:152-180). -/
def SentData.details {D : Type} (a : SentData D) (i : Int) : Except PyErr (Details D) :=
  match a.info with
  | none => .error .missingDataError
  | some info =>
    match Dict.get? info i with
    | some d => .ok d
    | none => .error .invalidIDError

/-- Iterating over the reader, `sentence_ids` (tatoeba.py:243-252, 37-41). -/
def SentData.ids {D : Type} (a : SentData D) : List Int := Dict.keys a.sent

/-! ### Links (tatoeba.py:272-408) -/

/-- The local variables of the `links` setter. -/
structure LinkData where
  link : Dict Int Nat
  group : Dict Nat (List Int)
  nodes : Nat

/-- `a |= b` for sets. -/
def setUnion (a b : List Int) : List Int := a ++ b.filter (fun x => x ∉ a)

/-- The ASCII part of `str.lower`.  (The only other character with an ASCII letter as lower case is the Kelvin sign, and
no name below has a `k`.) -/
def asciiLower (s : Str) : Str := s.map (fun c => if 0x41 ≤ c ∧ c ≤ 0x5a then c + 0x20 else c)

/-- Whether filtering on the sentence and on the translation is on (tatoeba.py:379-394). -/
def linkFilter (subset : Option (List Int)) (name : Str) : Except PyErr (Bool × Bool) :=
  let lower := asciiLower name
  let vals : Option (Bool × Bool) :=
    if lower = u!"sent_id" then some (true, false)
    else if lower = u!"trans_id" then some (false, true)
    else if lower = u!"both" then some (true, true)
    else none
  match vals with
  | none => .error .valueError
  | some v => .ok (if subset.isNone then (false, false) else v)

/-- `map(int, row)` unpacked into two (tatoeba.py:341-345). -/
def linkPair (row : List Str) : Except PyErr (Int × Int) :=
  match row with
  | [a, b] =>
    match pyInt 10 a, pyInt 10 b with
    | .ok s, .ok t => .ok (s, t)
    | _, _ => .error .invalidFileError
  | _ => .error .invalidFileError

/-- Whether a link is skipped (tatoeba.py:348-352). -/
def linkSkip (subset : Option (List Int)) (f : Bool × Bool) (p : Int × Int) : Bool :=
  (f.1 && decide (p.1 ∉ subset.getD [])) || (f.2 && decide (p.2 ∉ subset.getD []))

/-- The dictionaries after entering new ids in a group (tatoeba.py:368-370). -/
def linkEnter (d : LinkData) (node : Nat) (new : List Int) : LinkData :=
  { d with
    group := Dict.set d.group node (setUnion ((Dict.get? d.group node).getD []) new)
    link := new.foldl (fun l k => Dict.set l k node) d.link }

/-- Entering a link (tatoeba.py:354-370).  The iteration order of the set `{trans_id, sent_id}` decides the order of new keys only, of which no theorem speaks. -/
def linkAdd (d : LinkData) (p : Int × Int) : LinkData :=
  match Dict.get? d.link p.1 with
  | some node => linkEnter d node [p.2]
  | none =>
    match Dict.get? d.link p.2 with
    | some node => linkEnter d node [p.1]
    | none => linkEnter { d with nodes := d.nodes + 1 } d.nodes (if p.1 = p.2 then [p.1] else [p.2, p.1])

/-- The loop of the `links` setter (tatoeba.py:340-370). -/
def linkRows (subset : Option (List Int)) (f : Bool × Bool) (d : LinkData) : List (List Str) → Except PyErr LinkData
  | [] => .ok d
  | row :: rows =>
    match linkPair row with
    | .error e => .error e
    | .ok p => linkRows subset f (if linkSkip subset f p then d else linkAdd d p) rows

/-- What the `links` setter computes. -/
def linkLoad (subset : Option (List Int)) (f : Bool × Bool) (rows : Rows) : Except PyErr LinkData :=
  match linkRows subset f ⟨[], [], 0⟩ rows.1 with
  | .error e => .error e
  | .ok d =>
    match rows.2 with
    | some e => .error e
    | none => .ok d

/-- A links reader (tatoeba.py:292-295). -/
structure LinkReader where
  subset : Option (List Int)
  filter : Bool × Bool
  src : Str
  data : LinkData

/-- `reader.links = src` (tatoeba.py:332-373). -/
def LinkReader.assign (r : LinkReader) (src : Str) (rows : Rows) : LinkReader × Option PyErr :=
  match linkLoad r.subset r.filter rows with
  | .error e => ({ r with src := src }, some e)
  | .ok d => ({ r with src := src, data := d }, none)

/-- `TatoebaLinksReader(links, sentence_ids, sentence_ids_filter)` (tatoeba.py:273-295). -/
def LinkReader.new (src : Str) (rows : Rows) (subset : Option (List Int)) (filterName : Str) : Except PyErr LinkReader :=
  match linkFilter subset filterName with
  | .error e => .error e
  | .ok f =>
    match linkLoad subset f rows with
    | .error e => .error e
    | .ok d => .ok ⟨subset, f, src, d⟩

/-- `reader[i]` (tatoeba.py:407-408). -/
def LinkData.getItem (d : LinkData) (i : Int) : Except PyErr (List Int) := do
  let node ← Dict.getItem d.link i
  Dict.getItem d.group node

/-- `group` (tatoeba.py:297-316). -/
def LinkData.groupOf (d : LinkData) (i : Int) : Except PyErr (List Int) :=
  match d.getItem i with
  | .ok g => .ok g
  | .error .keyError => .error .invalidIDError
  | .error e => .error e

/-- `groups` (tatoeba.py:318-326). -/
def LinkData.groups (d : LinkData) : List (List Int) := Dict.values d.group

/-! ### Words (tatoeba.py:414-511) -/

/-- A `TanakaWord` (tatoeba.py:428-433). -/
structure Tanaka where
  headword : Str
  reading : Option Str
  sense : Option Int
  display : Option Str
  isExample : Bool
deriving DecidableEq

/-- `[^\(\[\{\|\~]` -/
def isHeadChr (c : Nat) : Bool := c != 0x28 && c != 0x5b && c != 0x7b && c != 0x7c && c != 0x7e

/-- `word_re` (tatoeba.py:421-426). -/
def wordRe : Re :=
  .seq (.group u!"headword" (Re.plus isHeadChr))
    (.seq (Re.opt (.seq (Re.lit u!"(") (.seq (.group u!"reading" (Re.plus (notChr 0x29))) (Re.lit u!")"))))
      (.seq (Re.opt (.seq (Re.lit u!"|") (Re.plus isDigit)))
        (.seq (Re.opt (.seq (Re.lit u!"[") (.seq (.group u!"sense" (Re.plus isDigit)) (Re.lit u!"]"))))
          (.seq (Re.opt (.seq (Re.lit u!"{") (.seq (.group u!"display" (Re.plus (notChr 0x7d))) (Re.lit u!"}"))))
            (.seq (Re.opt (.group u!"example" (Re.lit u!"~"))) .eol)))))

/-- `from_text` (tatoeba.py:435-462). -/
def Tanaka.fromText (text : Str) : Except PyErr Tanaka :=
  match wordRe.pyMatch text with
  | none => .error .invalidEntryError
  | some caps =>
    match Dict.get? caps u!"sense" with
    | none => .ok ⟨(Dict.get? caps u!"headword").getD [], Dict.get? caps u!"reading", none, Dict.get? caps u!"display",
        (Dict.get? caps u!"example").isSome⟩
    | some s =>
      match pyInt 10 s with
      | .error e => .error e
      | .ok i => .ok ⟨(Dict.get? caps u!"headword").getD [], Dict.get? caps u!"reading", some i, Dict.get? caps u!"display",
          (Dict.get? caps u!"example").isSome⟩

/-- `resolve_display` (tatoeba.py:464-471). -/
def Tanaka.resolveDisplay (w : Tanaka) : Str := w.display.getD w.headword

/-- `'{:02}'.format(i)` -/
def showInt02 (i : Int) : Str :=
  if i < 0 then showInt i else showNat02 i.natAbs

/-- The optional parts of `__str__`; empty texts and the sense 0 count as absent. -/
def Tanaka.readingText (w : Tanaka) : Str :=
  match w.reading with
  | none => []
  | some r => if r.isEmpty then [] else u!"(" ++ r ++ u!")"
def Tanaka.senseText (w : Tanaka) : Str :=
  match w.sense with
  | none => []
  | some i => if i = 0 then [] else u!"[" ++ showInt02 i ++ u!"]"
def Tanaka.displayText (w : Tanaka) : Str :=
  match w.display with
  | none => []
  | some d => if d.isEmpty then [] else u!"{" ++ d ++ u!"}"

/-- `__str__` (tatoeba.py:473-484). -/
def Tanaka.toText (w : Tanaka) : Str :=
  w.headword ++ w.readingText ++ w.senseText ++ w.displayText ++ (if w.isExample then u!"~" else [])

/-- `__eq__` (tatoeba.py:489-508). -/
def Tanaka.eq (v w : Tanaka) : Bool :=
  v.headword == w.headword && v.sense == w.sense && v.isExample == w.isExample && v.reading == w.reading &&
    v.resolveDisplay == w.resolveDisplay

/-- `__ne__` (tatoeba.py:510-511). -/
def Tanaka.ne (v w : Tanaka) : Bool := !(v.eq w)

/-! ### Sentence indices (tatoeba.py:514-671) -/

/-- The loop of `parse_sentence` (tatoeba.py:607-618). -/
def parseWords : List Str → Except PyErr (List Tanaka)
  | [] => .ok []
  | w :: ws =>
    if w.isEmpty then parseWords ws
    else
      match Tanaka.fromText w with
      | .error e => .error e
      | .ok x =>
        match parseWords ws with
        | .error e => .error e
        | .ok xs => .ok (x :: xs)

/-- `parse_sentence` (tatoeba.py:592-620). -/
def parseSentence (text : Str) : Except PyErr (List Tanaka) := parseWords (splitChr 0x20 text)

/-- The reading that `adjust_details` finds (tatoeba.py:646-653). -/
def findReading (sense : Option Int) (readings : List Str) : Except PyErr (Option Str) :=
  match sense with
  | some i =>
    if i ≤ readings.length then (getItemI readings (i - 1)).map some
    else if (dedup readings).length = 1 then (getItemI readings 0).map some else .ok none
  | none => if (dedup readings).length = 1 then (getItemI readings 0).map some else .ok none

/-- The loop body of `adjust_details` (tatoeba.py:641-656). -/
def adjustWord (edict : Dict Str (List Str)) (w : Tanaka) : Except PyErr Tanaka :=
  match Dict.get? edict w.headword with
  | none => .ok w
  | some readings =>
    match w.reading with
    | some _ => .ok w
    | none =>
      match findReading w.sense readings with
      | .error e => .error e
      | .ok r => .ok (if r ≠ some w.headword then { w with reading := r } else w)

/-- The loop of `adjust_details`. -/
def adjustWords (edict : Dict Str (List Str)) : List Tanaka → Except PyErr (List Tanaka)
  | [] => .ok []
  | w :: ws =>
    match adjustWord edict w with
    | .error e => .error e
    | .ok x =>
      match adjustWords edict ws with
      | .error e => .error e
      | .ok xs => .ok (x :: xs)

/-- `adjust_details` (tatoeba.py:622-658).  (The words are changed in place and the same list is returned.) -/
def adjustDetails (edict : Option (Dict Str (List Str))) (ws : List Tanaka) : Except PyErr (List Tanaka) :=
  match edict with
  | none => .ok ws
  | some e => adjustWords e ws

/-- The dictionaries of an index reader. -/
structure IndexData where
  sent : Dict Int (List Tanaka)
  link : Dict Int Int

/-- The end of the loop body of the `jpn_indices` setter (tatoeba.py:582-587). -/
def indexEnter (edict : Option (Dict Str (List Str))) (d : IndexData) (i m : Int) (text : Str) : Except PyErr IndexData :=
  match parseSentence text with
  | .error e => .error e
  | .ok ws =>
    match adjustDetails edict ws with
    | .error e => .error e
    | .ok ws' => .ok ⟨Dict.set d.sent i ws', Dict.set d.link i m⟩

/-- The loop body of the `jpn_indices` setter (tatoeba.py:574-587). -/
def indexRow (edict : Option (Dict Str (List Str))) (subset : Option (List Int)) (d : IndexData) (row : List Str) :
    Except PyErr IndexData :=
  match row with
  | [a, b, text] =>
    match pyInt 10 a with
    | .error e => .error e
    | .ok i =>
      match pyInt 10 b with
      | .error e => .error e
      | .ok m =>
        match subset with
        | none => indexEnter edict d i m text
        | some ids => if i ∈ ids then indexEnter edict d i m text else .ok d
  | _ => .error .valueError

/-- The loop of the setter. -/
def indexRows (edict : Option (Dict Str (List Str))) (subset : Option (List Int)) (d : IndexData) :
    List (List Str) → Except PyErr IndexData
  | [] => .ok d
  | row :: rows =>
    match indexRow edict subset d row with
    | .error e => .error e
    | .ok d' => indexRows edict subset d' rows

/-- What the `jpn_indices` setter computes (tatoeba.py:566-587). -/
def indexLoad (edict : Option (Dict Str (List Str))) (subset : Option (List Int)) (rows : Rows) : Except PyErr IndexData :=
  match indexRows edict subset ⟨[], []⟩ rows.1 with
  | .error e => .error e
  | .ok d =>
    match rows.2 with
    | some e => .error e
    | none => .ok d

/-- An index reader (tatoeba.py:523-538). -/
structure IndexReader where
  subset : Option (List Int)
  edict : Option (Dict Str (List Str))
  src : Str
  data : IndexData

/-- `reader.jpn_indices = src` (tatoeba.py:565-590). -/
def IndexReader.assign (r : IndexReader) (src : Str) (rows : Rows) : IndexReader × Option PyErr :=
  match indexLoad r.edict r.subset rows with
  | .error e => ({ r with src := src }, some e)
  | .ok d => ({ r with src := src, data := d }, none)

/-- `link` (tatoeba.py:540-559). -/
def IndexData.linkOf (d : IndexData) (i : Int) : Except PyErr Int :=
  match Dict.get? d.link i with
  | some m => .ok m
  | none => .error .invalidIDError

/-- `reader[i]` (tatoeba.py:34-35, 669-671). -/
def IndexData.getItem (d : IndexData) (i : Int) : Except PyErr (List Tanaka) := Dict.getItem d.sent i

end Cjk
