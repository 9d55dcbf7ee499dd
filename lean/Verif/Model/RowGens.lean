import Verif.Model.LoadOptions
import Verif.Model.SmartCache
/-!
# `load_file` as a generator

`TatoebaReader.load_file` (tatoeba.py:53-84) is a generator function: it opens its file, reads and parses when the program asks for the next row.  Here a program makes any number of such
generators over files and over one open stream, asks them for rows in any order, closes them, reads lines of the stream itself and changes files.  `loadFileWith` says what one of
them yields when nothing else happens.

Simplified: the name of a file is not `-` and does not end in `.gz` or `.bz2`; a generator reads its file as it is when it is opened (Python reads ahead in blocks).
-/

namespace Cjk
open Py

/-- `Reader_iternext` once (see `csvRowsD`): the row, the exception, or `none` for `StopIteration`, and the lines that are left. -/
def csvNext (d : CsvDialect) (lim : Nat) : CsvR → List Str → Option (Except PyErr (List Str)) × List Str
  | r, [] =>
    if r.field ≠ [] ∨ r.mode = .inQuoted then (if d.strict then (some (.error .genericException), []) else (some (.ok (r.save .startRecord).fields), []))
    else (none, [])
  | r, l :: ls =>
    match r.line d lim l with
    | .error e => (some (.error e), ls)
    | .ok r' => if r'.mode = .startRecord then (some (.ok r'.fields), ls) else csvNext d lim r' ls

/-- The state of a generator. -/
inductive RowGen where
  /-- nothing has run yet; the source is a file name or, if `none`, the stream -/
  | fresh (src : Option Path) (o : CsvOptions)
  /-- in the loop (tatoeba.py:82-84) with a file of its own, of which these lines are left -/
  | own (d : CsvDialect) (left : List Str)
  /-- in the loop with the stream -/
  | shared (d : CsvDialect)
  /-- it has returned, raised or been closed -/
  | finished

/-- What a step shows to the program. -/
inductive RowSeen where
  | nothing
  | row (r : List Str)
  | raised (e : PyErr)
  /-- `StopIteration`, or the end of the stream for the program's own reading -/
  | stop
  | line (l : Str)
deriving DecidableEq

/-- The files (`none` for one that cannot be opened), the lines left in the stream, the generators, and those among them that have a file open. -/
structure RowWorld where
  disk : Path → Option (List Str)
  rest : List Str
  gens : List RowGen
  opened : List Nat

/-- What a program does. -/
inductive RowOp where
  /-- `reader.load_file(src, **options)` -/
  | loadFile (src : Option Path) (o : CsvOptions)
  /-- `next` of the i-th generator -/
  | next (i : Nat)
  /-- `close()` of the i-th generator -/
  | close (i : Nat)
  /-- it reads a line of the stream -/
  | readLine
  /-- a file is written or removed -/
  | change (f : Path) (lines : Option (List Str))

/-- The i-th generator goes on from here and has its file open or not. -/
def RowWorld.put (w : RowWorld) (i : Nat) (g : RowGen) (isOpen : Bool) : RowWorld :=
  { w with gens := w.gens.set i g, opened := if isOpen then i :: w.opened.filter (· ≠ i) else w.opened.filter (· ≠ i) }

/-- `for row in reader` with a file of its own (tatoeba.py:79-84): at its end and when an exception is raised the `with` statement closes the file. -/
def RowWorld.askOwn (lim : Nat) (w : RowWorld) (i : Nat) (d : CsvDialect) (left : List Str) : RowWorld × RowSeen :=
  match csvNext d lim .init left with
  | (none, _) => (w.put i .finished false, .stop)
  | (some (.error e), _) => (w.put i .finished false, .raised e)
  | (some (.ok r), left') => (w.put i (.own d left') true, .row r)

/-- `for row in reader` with the stream, which stays open. -/
def RowWorld.askShared (lim : Nat) (w : RowWorld) (i : Nat) (d : CsvDialect) : RowWorld × RowSeen :=
  match csvNext d lim .init w.rest with
  | (none, rest) => ({ w with rest := rest }.put i .finished false, .stop)
  | (some (.error e), rest) => ({ w with rest := rest }.put i .finished false, .raised e)
  | (some (.ok r), rest) => ({ w with rest := rest }.put i (.shared d) false, .row r)

/-- The first `next` (tatoeba.py:65-80): the file is opened, then `csv.reader` is called. -/
def RowWorld.askFresh (lim : Nat) (w : RowWorld) (i : Nat) (src : Option Path) (o : CsvOptions) : RowWorld × RowSeen :=
  match src with
  | none =>
    match o.dialect with
    | .error e => (w.put i .finished false, .raised e)
    | .ok d => w.askShared lim i d
  | some f =>
    match w.disk f with
    | none => (w.put i .finished false, .raised .osError)
    | some lines =>
      match o.dialect with
      | .error e => (w.put i .finished false, .raised e)
      | .ok d => w.askOwn lim i d lines

/-- One step. -/
def RowWorld.step (lim : Nat) (w : RowWorld) : RowOp → RowWorld × RowSeen
  | .loadFile src o => ({ w with gens := w.gens ++ [.fresh src o] }, .nothing)
  | .next i =>
    match w.gens[i]? with
    | none => (w, .nothing)
    | some (.fresh src o) => w.askFresh lim i src o
    | some (.own d left) => w.askOwn lim i d left
    | some (.shared d) => w.askShared lim i d
    | some .finished => (w, .stop)
  | .close i => (w.put i .finished false, .nothing)
  | .readLine =>
    match w.rest with
    | [] => (w, .stop)
    | l :: ls => ({ w with rest := ls }, .line l)
  | .change f lines => ({ w with disk := fun g => if g = f then lines else w.disk g }, .nothing)

/-- A step as it was observed: the files and the lines of the stream before it, the lines after it, and what it showed. -/
structure RowEvent where
  op : RowOp
  disk : Path → Option (List Str)
  before : List Str
  after : List Str
  seen : RowSeen

/-- A program. -/
def RowWorld.run (lim : Nat) : RowWorld → List RowOp → List RowEvent
  | _, [] => []
  | w, op :: ops => ⟨op, w.disk, w.rest, (w.step lim op).1.rest, (w.step lim op).2⟩ :: RowWorld.run lim (w.step lim op).1 ops

/-- The state at its end. -/
def RowWorld.final (lim : Nat) : RowWorld → List RowOp → RowWorld
  | w, [] => w
  | w, op :: ops => RowWorld.final lim (w.step lim op).1 ops

end Cjk
