import Verif.Model.Handles
import Verif.Model.PrintRadicals
import Verif.Py.Lines
/-!
# Model of where the loaders get their text from

A loader is modelled as its result together with the files it opens, in order.  Text files are UTF-8, which is also the encoding of
`open`.

Simplifications.  A file that can be opened can be read to its end (failures in the middle of a file are in Model/Handles.lean).
`codecs.open` delivers the lines of `str.splitlines(True)`.  Module-level caches are empty.
-/

namespace Cjk
open Py

/-- What a loader finds: the environment, the text behind each file name (decompressed, if the name says so) or the exception of opening
it, and standard input. -/
structure DataDisk where
  env : DataEnv
  file : Str → Except PyErr Str
  stdin : Str

/-- A result and the files opened, in order. -/
abbrev Load (α : Type) := Except PyErr α × List OpenCall

/-- What iterating over a stream yields. -/
inductive Lines where
  /-- `str` lines -/
  | text (ls : List Str)
  /-- `bytes` lines -/
  | bytes (ls : List (List Nat))
deriving DecidableEq

/-- Applying a parser to what was read. -/
def Load.parse {α β : Type} (l : Load α) (f : α → Except PyErr β) : Load β :=
  match l.1 with
  | .error e => (.error e, l.2)
  | .ok a => (f a, l.2)

/-- The bytes of a character in UTF-8. -/
def utf8Char (c : Nat) : List Nat :=
  if c < 0x80 then [c]
  else if c < 0x800 then [0xc0 + c / 64, 0x80 + c % 64]
  else if c < 0x10000 then [0xe0 + c / 4096, 0x80 + c / 64 % 64, 0x80 + c % 64]
  else [0xf0 + c / 262144, 0x80 + c / 4096 % 64, 0x80 + c / 64 % 64, 0x80 + c % 64]

/-- `text.encode('utf8')` -/
def utf8 (s : Str) : List Nat := s.flatMap utf8Char

/-- The lines of a binary file: only `b'\n'` ends a line.  `acc` is the line begun. -/
def byteLinesAux : List Nat → List Nat → List (List Nat)
  | acc, [] => if acc = [] then [] else [acc]
  | acc, c :: rest => if c = 0x0a then (acc ++ [c]) :: byteLinesAux [] rest else byteLinesAux (acc ++ [c]) rest

/-- The lines of a binary file. -/
def byteLines (b : List Nat) : List (List Nat) := byteLinesAux [] b

/-- The characters at which `str.splitlines` breaks a line. -/
def isLineBreak (c : Nat) : Bool :=
  (0x0a ≤ c && c ≤ 0x0d) || (0x1c ≤ c && c ≤ 0x1e) || c == 0x85 || c == 0x2028 || c == 0x2029

/-- `s.splitlines(True)`; `acc` is the line begun. -/
def splitLinesAux : Str → Str → List Str
  | acc, [] => if acc = [] then [] else [acc]
  | acc, 0x0d :: 0x0a :: rest => (acc ++ [0x0d, 0x0a]) :: splitLinesAux [] rest
  | acc, c :: rest => if isLineBreak c then (acc ++ [c]) :: splitLinesAux [] rest else splitLinesAux (acc ++ [c]) rest

/-- `s.splitlines(True)` -/
def splitLines (s : Str) : List Str := splitLinesAux [] s

/-- The file name of a call. -/
def OpenCall.filename : OpenCall → Str
  | .bz2 f _ => f
  | .gzip f _ => f
  | .plain f _ => f

/-- Which files cannot be opened. -/
def DataDisk.fails (d : DataDisk) (call : OpenCall) : Option PyErr :=
  match d.file call.filename with
  | .error e => some e
  | .ok _ => none

/-- `open(f)`, read line by line. -/
def openLines (d : DataDisk) (f : Str) : Load (List Str) :=
  match d.file f with
  | .error e => (.error e, [.plain f u!"r"])
  | .ok t => (.ok (fileLines t), [.plain f u!"r"])

/-- `codecs.open(f, 'r', 'utf8')`, read line by line. -/
def codecsLines (d : DataDisk) (f : Str) : Load (List Str) :=
  match d.file f with
  | .error e => (.error e, [.plain f u!"rb"])
  | .ok t => (.ok (splitLines t), [.plain f u!"rb"])

/-- `sopen(f, mode='r')` (common.py:30-72), read line by line: the compressed files of Python 3 yield bytes. -/
def sopenLines (d : DataDisk) (f : Str) : Load Lines :=
  match sopen d.fails [] f u!"r" with
  | (.error e, log) => (.error e, log)
  | (.ok (.opened (.plain f' _)), log) => ((d.file f').map (fun t => .text (fileLines t)), log)
  | (.ok (.opened call), log) => ((d.file call.filename).map (fun t => .bytes (byteLines (utf8 t))), log)
  | (.ok _, log) => (.ok (.text (fileLines d.stdin)), log)

/-- `with get_stream_context(default, istream) as stream` (common.py:87-106). -/
def streamContext (default : Load (List Str)) (istream : Option (List Str)) : Load (List Str) :=
  match istream with
  | none => default
  | some ls => (.ok ls, [])

/-- `open(cjkdata.get_resource(name))` (radkdict.py:22-23, zhuyin_table.py:17-18). -/
def openResource (d : DataDisk) (name : Str) : Load (List Str) :=
  match getResource d.env name with
  | .error e => (.error e, [])
  | .ok f => openLines d f

/-- `RadkDict(istream)` (radkdict.py:34-40). -/
def loadRadkDict (d : DataDisk) (istream : Option (List Str)) : Load RadkDict :=
  (streamContext (openResource d u!"radkfile") istream).parse radkDict

/-- `print_radicals(kanji_list)` (radkdict.py:90-97): what is printed and the exception, and the files opened. -/
def printRadicalsFrom (d : DataDisk) (ks : List Str) : (List Str × Option PyErr) × List OpenCall :=
  match loadRadkDict d none with
  | (.error e, log) => (([], some e), log)
  | (.ok rd, log) => (printLoop rd ks, log)

/-- The stream of the functions of zhuyin_table.py (zhuyin_table.py:17-20). -/
def zhuyinStream (d : DataDisk) (istream : Option (List Str)) : Load (List Str) :=
  streamContext (openResource d u!"tables/zhuyin_pinyin_conv_table") istream

/-- `zhuyin_to_pinyin_table(istream)` (zhuyin_table.py:31-38). -/
def loadZhuyinToPinyin (d : DataDisk) (istream : Option (List Str)) : Load (Dict Str Str) := (zhuyinStream d istream).parse zhuyinToPinyinTable

/-- `pinyin_to_zhuyin_table(istream)` (zhuyin_table.py:41-48). -/
def loadPinyinToZhuyin (d : DataDisk) (istream : Option (List Str)) : Load (Dict Str Str) := (zhuyinStream d istream).parse pinyinToZhuyinTable

/-- `get_all_pinyin(istream)` (zhuyin_table.py:51-59). -/
def loadAllPinyin (d : DataDisk) (istream : Option (List Str)) : Load (List Str) := (zhuyinStream d istream).parse getAllPinyin

/-- `pinyin_regex_pattern(istream)` (zhuyin_table.py:62-73): the stream is handed on to `get_all_pinyin`. -/
def loadPinyinRegex (d : DataDisk) (istream : Option (List Str)) : Load Str :=
  (loadAllPinyin d istream).parse (fun all => .ok (u!"(" ++ join u!"|" (longestFirst all) ++ u!")([0-5]?)"))

/-- `zhuyin_regex_pattern(istream)` (zhuyin_table.py:76-86). -/
def loadZhuyinRegex (d : DataDisk) (istream : Option (List Str)) : Load Str := (zhuyinStream d istream).parse zhuyinRegexPattern

/-- `PinyinSegmenter()` (pinyin_table.py:108-116): the syllables, longest first. -/
def loadSegmenter (d : DataDisk) : Load (List Str) := (zhuyinStream d none).parse newSegmenter

/-- `PinyinTable()` (pinyin_table.py:39-51). -/
def loadPinyinTable (d : DataDisk) : Load (Dict Str (List Str)) :=
  match loadSegmenter d with
  | (.error e, log) => (.error e, log)
  | (.ok _, log) =>
    match getResource d.env u!"tables/gbk_pinyin_table" with
    | .error e => (.error e, log)
    | .ok f => ((codecsLines d f).parse newPinyinTable |>.1, log ++ (codecsLines d f).2)

/-- `stack.enter_context(sopen(f, mode='r'))` for the files one after the other (kanjidic.py:106-108). -/
def openAll (d : DataDisk) : List Str → Load (List Lines)
  | [] => (.ok [], [])
  | f :: fs =>
    match sopenLines d f with
    | (.error e, log) => (.error e, log)
    | (.ok ls, log) => ((openAll d fs).parse (fun rest => .ok (ls :: rest)) |>.1, log ++ (openAll d fs).2)

/-- `_parse_kanjidic` (kanjidic.py:119-133) on the streams one after the other: `line.startswith('#')` is a `TypeError` for a line of
bytes. -/
def kanjidicStreams (dict : Dict Str KEntry) : List Lines → Except PyErr (Dict Str KEntry)
  | [] => .ok dict
  | .text ls :: rest =>
    match kanjidicLoop dict ls with
    | .error e => .error e
    | .ok dict' => kanjidicStreams dict' rest
  | .bytes [] :: rest => kanjidicStreams dict rest
  | .bytes (_ :: _) :: _ => .error .typeError

/-- `Kanjidic(files)` (kanjidic.py:96-110) with a list of files: all are opened before the first line is read. -/
def loadKanjidicFiles (d : DataDisk) (files : List Str) : Load (Dict Str KEntry) :=
  (openAll d files).parse (fun streams => if streams = [] then .error .typeError else kanjidicStreams [] streams)

/-- `Kanjidic(kanjidic_files)` (kanjidic.py:96-110). -/
def loadKanjidic (d : DataDisk) (files : Option (List Str)) : Load (Dict Str KEntry) :=
  match files with
  | some fs => loadKanjidicFiles d fs
  | none =>
    match getResource d.env u!"kanjidic" with
    | .error e => (.error e, [])
    | .ok a =>
      match getResource d.env u!"kanjd212" with
      | .error e => (.error e, [])
      | .ok b => loadKanjidicFiles d [a, b]

/-- A file name, or an open text stream with its lines. -/
inductive TextSource where
  | path (filename : Str)
  | stream (lines : List Str)

/-- `load_coded_dictionary` (split_by_codes.py:16-47). -/
def loadCodedFrom (d : DataDisk) (order : List Str → List Str) (src : TextSource) : Load Coded :=
  match src with
  | .path f => (openLines d f).parse (loadCodedDictionary order)
  | .stream ls => (loadCodedDictionary order ls, [])

/-- `iter_coded_entries` (split_by_codes.py:50-59): the argument goes to `iter_entries`, which iterates over it; a file name yields its
characters. -/
def iterCodedFrom (src : TextSource) : Except PyErr (List (Entry × List Str) × Option PyErr) :=
  match src with
  | .path f => iterCodedEntries (f.map (fun c => [c]))
  | .stream ls => iterCodedEntries ls

/-- `csv.reader` on a stream (tatoeba.py:75-84): a line of bytes is a `csv.Error`. -/
def rowsFrom (lim : Nat) : Lines → Rows
  | .text ls => loadFile lim ls
  | .bytes [] => ([], none)
  | .bytes (_ :: _) => ([], some .genericException)

/-- `load_file` (tatoeba.py:53-84) and a consumer of its rows. -/
def loadRows {α : Type} (d : DataDisk) (lim : Nat) (load : Rows → Except PyErr α) (src : TextSource) : Load α :=
  match src with
  | .path f => (sopenLines d f).parse (fun ls => load (rowsFrom lim ls))
  | .stream ls => (load (loadFile lim ls), [])

/-- `reader.sentences = src` (tatoeba.py:189-241). -/
def loadSentences {D : Type} (d : DataDisk) (lim : Nat) (strptime : Str → Except PyErr D) (languages : Option (List Str)) (src : TextSource) :
    Load (SentData D) := loadRows d lim (sentLoad strptime languages) src

/-- `reader.links = src` (tatoeba.py:332-370). -/
def loadLinks (d : DataDisk) (lim : Nat) (subset : Option (List Int)) (f : Bool × Bool) (src : TextSource) : Load LinkData :=
  loadRows d lim (linkLoad subset f) src

/-- `reader.jpn_indices = src` (tatoeba.py:565-590). -/
def loadIndices (d : DataDisk) (lim : Nat) (edict : Option (Dict Str (List Str))) (subset : Option (List Int)) (src : TextSource) :
    Load IndexData := loadRows d lim (indexLoad edict subset) src

/-- The white space of `bytes`. -/
def isByteSpace (c : Nat) : Bool := (0x09 ≤ c && c ≤ 0x0d) || c == 0x20

/-- `b.split()`; `cur` is the current piece. -/
def splitBytesAux : List Nat → List Nat → List (List Nat)
  | cur, [] => if cur = [] then [] else [cur]
  | cur, c :: s =>
    if isByteSpace c then (if cur = [] then splitBytesAux [] s else cur :: splitBytesAux [] s) else splitBytesAux (cur ++ [c]) s

/-- `int(b)` for bytes: only ASCII digits, and the only white space is that of bytes. -/
def bytesInt (b : List Nat) : Except PyErr Int :=
  if b.any (fun c => decide (0x80 ≤ c) || (decide (0x1c ≤ c) && decide (c ≤ 0x1f))) then .error .valueError else pyInt 10 b

/-- `Place._from_line` (place.py:211-233) for a line of bytes: the constructor refuses a label of bytes (place.py:29-30), `split(':')`
refuses aliases of bytes (line 228); both are a `TypeError`.  It never returns. -/
def placeFromBytes (line : List Nat) : PyErr :=
  match splitBytesAux [] line with
  | [depth, _, _] => match bytesInt depth with | .error e => e | .ok _ => .typeError
  | [depth, _, _, _] => match bytesInt depth with | .error e => e | .ok _ => .typeError
  | _ => .valueError

/-- `Place.from_file(filename)` (place.py:68-106). -/
def loadPlace (d : DataDisk) (filename : Str) : Load PStore :=
  (sopenLines d filename).parse (fun
    | .text ls => placeFromFile ls
    | .bytes [] => .error .stopIteration
    | .bytes (l :: _) => .error (placeFromBytes l))

/-- `place.dump(filename)` (place.py:63-66): the text of the stream afterwards, and the exception.  A compressed stream takes only
bytes: writing text is a `TypeError`. -/
def dumpPlace (d : DataDisk) (r : Str → Str) (p : Place) (filename : Str) : Option Str × Option PyErr × List OpenCall :=
  match sopen d.fails [] filename u!"w" with
  | (.error e, log) => (none, some e, log)
  | (.ok (.opened (.bz2 _ _)), log) => if placeDump r p = [] then (some [], none, log) else (some [], some .typeError, log)
  | (.ok (.opened (.gzip _ _)), log) => if placeDump r p = [] then (some [], none, log) else (some [], some .typeError, log)
  | (.ok _, log) => (some (placeDump r p).flatten, none, log)

end Cjk
