import Verif.Model.KanjiList
import Verif.Model.Kanjidic
import Verif.Model.Pinyin
import Verif.Model.Place
import Verif.Model.Radkdict
import Verif.Model.SplitByCodes
import Verif.Model.Tatoeba
import Verif.Model.Zhuyin
/-!
# Model of the handling of files and streams

Which streams are open is a list of flags, indexed by handles; handle 0 is `sys.stdin` and handle 1 is `sys.stdout`.  A program maps the
flags to a result and the flags afterwards.

Simplifications.  Closing a file never raises.  Reading and parsing are not interleaved: a loader sees the lines that the stream delivers
and then the exception of the stream, if any.  Python is CPython: an object is destroyed as soon as nothing refers to it, so a generator
that only a `for` loop refers to is closed when the loop is left.
-/

namespace Cjk
open Py

/-- Which handles are open. -/
abbrev World := List Bool

/-- A program. -/
abbrev Prog (α : Type) := World → Except PyErr α × World

/-- The operating system: which files cannot be opened, and what a handle delivers. -/
structure OS where
  fails : OpenCall → Option PyErr
  lines : Nat → List Str × Option PyErr

/-- Opening a file. -/
def openH (os : OS) (call : OpenCall) : Prog Nat := fun w =>
  match os.fails call with
  | some e => (.error e, w)
  | none => (.ok w.length, w ++ [true])

/-- Closing a stream. -/
def closeH (s : Nat) (w : World) : World := w.set s false

/-- `sopen` (common.py:30-72) with handles. -/
def sopenH (os : OS) (filename mode : Str) : Prog Nat := fun w =>
  match (sopen os.fails [] filename mode).1 with
  | .error e => (.error e, w)
  | .ok .stdin => (.ok 0, w)
  | .ok .stdout => (.ok 1, w)
  | .ok (.opened _) => (.ok w.length, w ++ [true])

/-- `with enter() as s: body(s)` for a file: it is closed when the body ends or raises. -/
def withFile {α : Type} (enter : Prog Nat) (body : Nat → Prog α) : Prog α := fun w =>
  match enter w with
  | (.error e, w1) => (.error e, w1)
  | (.ok s, w1) => ((body s w1).1, closeH s (body s w1).2)

/-- `with get_stream_context(default, istream) as s: body(s)` (common.py:87-106). -/
def withContext {α : Type} (default : Prog Nat) (istream : Option Nat) (body : Nat → Prog α) : Prog α :=
  match istream with
  | none => withFile default body
  | some s => body s

/-- Reading a stream and parsing its lines; a closed stream raises `ValueError`. -/
def readAll {α : Type} (os : OS) (parse : List Str → Except PyErr α) (s : Nat) : Prog α := fun w =>
  if w[s]? = some true then
    match parse (os.lines s).1 with
    | .error e => (.error e, w)
    | .ok a =>
      match (os.lines s).2 with
      | some e => (.error e, w)
      | none => (.ok a, w)
  else (.error .valueError, w)

/-- `open(cjkdata.get_resource(name))` (radkdict.py:22-23, zhuyin_table.py:17-18). -/
def defaultStream (env : DataEnv) (os : OS) (name : Str) : Prog Nat := fun w =>
  match getResource env name with
  | .error e => (.error e, w)
  | .ok p => openH os (.plain p u!"r") w

/-- `RadkDict(istream)` (radkdict.py:34-40). -/
def radkDictH (env : DataEnv) (os : OS) (istream : Option Nat) : Prog RadkDict :=
  withContext (defaultStream env os u!"radkfile") istream (readAll os radkDict)

/-- The functions of zhuyin_table.py that read the table (zhuyin_table.py:31-86). -/
def zhuyinH {α : Type} (env : DataEnv) (os : OS) (parse : List Str → Except PyErr α) (istream : Option Nat) : Prog α :=
  withContext (defaultStream env os u!"tables/zhuyin_pinyin_conv_table") istream (readAll os parse)

/-- `get_list` (kanji_list.py:24-28). -/
def kanjiListH (env : DataEnv) (os : OS) (name : Str) : Prog (List Chr) := fun w =>
  match getResource env (u!"lists/char/" ++ name) with
  | .error e => (.error e, w)
  | .ok f => withFile (openH os (.plain f u!"rb")) (readAll os (fun ls => .ok (uniqueKanji ls.flatten))) w

/-- `PinyinTable()` (pinyin_table.py:39-51) when no segmenter is cached. -/
def pinyinTableH (env : DataEnv) (os : OS) : Prog (Dict Str (List Str)) := fun w =>
  match zhuyinH env os newSegmenter none w with
  | (.error e, w1) => (.error e, w1)
  | (.ok _, w1) =>
    match getResource env u!"tables/gbk_pinyin_table" with
    | .error e => (.error e, w1)
    | .ok f => withFile (openH os (.plain f u!"rb")) (readAll os newPinyinTable) w1

/-- `stack.enter_context(sopen(f, mode='r'))` for the files one after the other (kanjidic.py:106-108): the exception, if one cannot be
opened, and the handles entered. -/
def enterAll (os : OS) : List Str → List Nat → World → Option PyErr × List Nat × World
  | [], opened, w => (none, opened, w)
  | f :: fs, opened, w =>
    match sopenH os f u!"r" w with
    | (.error e, w1) => (some e, opened, w1)
    | (.ok s, w1) => enterAll os fs (opened ++ [s]) w1

/-- The exit of the stack: last in, first out. -/
def exitAll (opened : List Nat) (w : World) : World := opened.reverse.foldl (fun w s => closeH s w) w

/-- Reading all streams one after the other. -/
def readChain (os : OS) (opened : List Nat) : List Str × Option PyErr :=
  match opened with
  | [] => ([], none)
  | s :: rest =>
    match (os.lines s).2 with
    | some e => ((os.lines s).1, some e)
    | none => ((os.lines s).1 ++ (readChain os rest).1, (readChain os rest).2)

/-- The body of the `with` statement of `Kanjidic()` (kanjidic.py:105-110). -/
def kanjidicFilesH (os : OS) (files : List Str) : Prog (Dict Str KEntry) := fun w =>
  match enterAll os files [] w with
  | (some e, opened, w1) => (.error e, exitAll opened w1)
  | (none, opened, w1) =>
    if opened = [] then (.error .typeError, exitAll opened w1)
    else
      match kanjidicLoop [] (readChain os opened).1 with
      | .error e => (.error e, exitAll opened w1)
      | .ok d =>
        match (readChain os opened).2 with
        | some e => (.error e, exitAll opened w1)
        | none => (.ok d, exitAll opened w1)

/-- `Kanjidic(kanjidic_files)` (kanjidic.py:96-110). -/
def kanjidicH (env : DataEnv) (os : OS) (files : Option (List Str)) : Prog (Dict Str KEntry) := fun w =>
  match files with
  | some fs => kanjidicFilesH os fs w
  | none =>
    match getResource env u!"kanjidic", getResource env u!"kanjd212" with
    | .ok a, .ok b => kanjidicFilesH os [a, b] w
    | .error e, _ => (.error e, w)
    | _, .error e => (.error e, w)

/-- Writing lines to a stream; `failure` is the exception of a write that fails. -/
def writeAll (failure : Option PyErr) (s : Nat) : Prog Unit := fun w =>
  if w[s]? = some true then
    match failure with
    | some e => (.error e, w)
    | none => (.ok (), w)
  else (.error .valueError, w)

/-- `place.dump(filename)` (place.py:63-66). -/
def placeDumpH (os : OS) (failure : Option PyErr) (filename : Str) : Prog Unit := withFile (sopenH os filename u!"w") (writeAll failure)

/-- `Place.from_file(filename)` (place.py:68-106). -/
def placeFromFileH (os : OS) (filename : Str) : Prog PStore := withFile (sopenH os filename u!"r") (readAll os placeFromFile)

/-- A file name or an open stream. -/
inductive Source where
  | path (filename : Str)
  | stream (s : Nat)

/-- `load_coded_dictionary` (split_by_codes.py:16-47). -/
def codedH (os : OS) (order : List Str → List Str) (src : Source) : Prog Coded :=
  match src with
  | .path f => withFile (openH os (.plain f u!"r")) (readAll os (loadCodedDictionary order))
  | .stream s => readAll os (loadCodedDictionary order) s

/-- `store_cache_object` (smart_cache.py:133-152). -/
def storeCacheH (os : OS) (failure : Option PyErr) (filename : Str) : Prog Unit := withFile (sopenH os filename u!"wb") (writeAll failure)

/-- The reading part of `try_cache` (smart_cache.py:115-130): every exception is swallowed. -/
def tryCacheH {α : Type} (os : OS) (parse : List Str → Except PyErr α) (filename : Str) : Prog (Option α) := fun w =>
  match withFile (sopenH os filename u!"rb") (readAll os parse) w with
  | (.ok a, w1) => (.ok (some a), w1)
  | (.error _, w1) => (.ok none, w1)

/-! ### Tatoeba files

`load_file` (tatoeba.py:53-84) is a generator: the file is opened when the first row is asked for, and closed when the generator is
exhausted, raises, or is destroyed. -/

/-- `with cfile as f` in `load_file` (tatoeba.py:75-84), for a consumer that drops the generator when it ends or raises. -/
def loadFileH {α : Type} (os : OS) (src : Source) (body : Nat → Prog α) : Prog α :=
  match src with
  | .path f => withFile (sopenH os f u!"r") body
  | .stream s => body s

/-- The rows of a handle. -/
def rowsOf (lim : Nat) (os : OS) (s : Nat) : Rows :=
  match (loadFile lim (os.lines s).1).2 with
  | some e => ((loadFile lim (os.lines s).1).1, some e)
  | none => ((loadFile lim (os.lines s).1).1, (os.lines s).2)

/-- The consumer of the rows of a handle. -/
def consumeRows {α : Type} (lim : Nat) (os : OS) (load : Rows → Except PyErr α) (s : Nat) : Prog α := fun w =>
  if w[s]? = some true then (load (rowsOf lim os s), w) else (.error .valueError, w)

/-- `reader.links = src` (tatoeba.py:332-370): only the `for` loop refers to the generator. -/
def linksH (lim : Nat) (os : OS) (subset : Option (List Int)) (f : Bool × Bool) (src : Source) : Prog LinkData :=
  loadFileH os src (consumeRows lim os (linkLoad subset f))

/-- A consumer that keeps the generator in a local variable: when it raises because of a row, the traceback keeps the generator and so
the open file alive. -/
def keepingGenerator {α : Type} (lim : Nat) (os : OS) (load : Rows → Except PyErr α) (src : Source) : Prog α := fun w =>
  match src with
  | .stream s => consumeRows lim os load s w
  | .path f =>
    match sopenH os f u!"r" w with
    | (.error e, w1) => (.error e, w1)
    | (.ok s, w1) =>
      match (rowsOf lim os s).1, load ((rowsOf lim os s).1, none) with
      | _ :: _, .error e => (.error e, w1)
      | _, _ => (load (rowsOf lim os s), closeH s w1)

/-- `reader.sentences = src` (tatoeba.py:189-241), with the generator in `sentence_gen`. -/
def sentencesH {D : Type} (lim : Nat) (os : OS) (strptime : Str → Except PyErr D) (languages : Option (List Str)) (src : Source) :
    Prog (SentData D) := keepingGenerator lim os (sentLoad strptime languages) src

/-- `reader.jpn_indices = src` (tatoeba.py:565-590), with the generator in `sentence_gen`. -/
def indicesH (lim : Nat) (os : OS) (edict : Option (Dict Str (List Str))) (subset : Option (List Int)) (src : Source) :
    Prog IndexData := keepingGenerator lim os (indexLoad edict subset) src

end Cjk
