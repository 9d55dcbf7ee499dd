import Verif.Model.SplitByCodes
import Verif.Model.Common
/-!
# Iterators that share a stream

`iter_entries`, `iter_coded_entries` and `filter_comments` read their stream while they are being iterated over.  `iterEntries`, `iterCodedEntries` and
`filterComments` say what they yield when nothing else reads the stream.  Here a program calls `next` on any number of them, in any order, and reads lines
itself.

Simplification: the stream is a file object or another iterator, so that `iter(stream)` is the stream itself (auto_format.py:34, 44).
-/

namespace Cjk
open Py

/-- The state of a generator. -/
inductive LineGen where
  /-- in the loop of `DictionaryFormat.iter_entries` (dict_format.py:78-79), with this `parse_line` -/
  | entries (parse : Str → Except PyErr Entry)
  /-- in the loop of `filter_comments` (common.py:23-27) -/
  | comments
  /-- at the beginning of `iter_coded_entries` (split_by_codes.py:55) -/
  | codedStart
  /-- in the loop of `iter_coded_entries` (split_by_codes.py:55-59) -/
  | coded (parse : Str → Except PyErr Entry)
  /-- it has returned or raised -/
  | finished

/-- What a step shows to the program. -/
inductive LineSeen where
  | nothing
  | entry (e : Entry)
  | codes (e : Entry) (c : List Str)
  | text (s : Str)
  | raised (e : PyErr)
  /-- a generator that lets a `StopIteration` out raises a `RuntimeError` (PEP 479) -/
  | runtimeError
  /-- `StopIteration`, or the end of the stream for the program's own reading -/
  | stop
deriving DecidableEq

/-- `next(entries)`: the generator afterwards, what it gives, and the lines that are left in the stream. -/
def nextEntry (parse : Str → Except PyErr Entry) (show_ : Entry → LineSeen) (again : LineGen) : List Str → LineGen × LineSeen × List Str
  | [] => (.finished, .stop, [])
  | l :: ls =>
    match parse l with
    | .error e => (.finished, .raised e, ls)
    | .ok x => (again, show_ x, ls)

/-- `next` of `filter_comments` (common.py:23-27). -/
def nextUncommented : List Str → LineGen × LineSeen × List Str
  | [] => (.finished, .stop, [])
  | l :: ls => if startsWith l u!"#" then nextUncommented ls else (.comments, .text l, ls)

/-- `next(gen)` -/
def LineGen.next : LineGen → List Str → LineGen × LineSeen × List Str
  | .entries parse, ls => nextEntry parse .entry (.entries parse) ls
  | .comments, ls => nextUncommented ls
  | .codedStart, [] => (.finished, .runtimeError, [])
  | .codedStart, h :: ls =>
    match detectFormat h with
    | .error e => (.finished, .raised e, ls)
    | .ok f => nextEntry f.parseLine (fun x => .codes x (entryCodes x)) (.coded f.parseLine) ls
  | .coded parse, ls => nextEntry parse (fun x => .codes x (entryCodes x)) (.coded parse) ls
  | .finished, ls => (.finished, .stop, ls)

/-- What a program does. -/
inductive LineOp where
  /-- it reads a line of the stream -/
  | readLine
  /-- `fmt.iter_entries(stream)` for a format with this `parse_line` (dict_format.py:73) -/
  | iterWith (parse : Str → Except PyErr Entry)
  /-- `iter_entries(stream)` (auto_format.py:39-46) -/
  | iterAuto
  /-- `iter_coded_entries(stream)` (split_by_codes.py:50) -/
  | iterCoded
  /-- `filter_comments(stream)` (common.py:19) -/
  | iterComments
  /-- `next` of the i-th generator it made -/
  | next (i : Nat)

/-- The lines left in the stream and the generators. -/
structure LineWorld where
  rest : List Str
  gens : List LineGen

/-- One step. -/
def LineWorld.step (w : LineWorld) : LineOp → LineWorld × LineSeen
  | .readLine =>
    match w.rest with
    | [] => (w, .stop)
    | l :: ls => ({ w with rest := ls }, .text l)
  | .iterWith parse => ({ w with gens := w.gens ++ [.entries parse] }, .nothing)
  | .iterAuto =>
    match w.rest with
    | [] => (w, .stop)
    | h :: ls =>
      match detectFormat h with
      | .error e => ({ w with rest := ls }, .raised e)
      | .ok f => (⟨ls, w.gens ++ [.entries f.parseLine]⟩, .nothing)
  | .iterCoded => ({ w with gens := w.gens ++ [.codedStart] }, .nothing)
  | .iterComments => ({ w with gens := w.gens ++ [.comments] }, .nothing)
  | .next i =>
    match w.gens[i]? with
    | none => (w, .nothing)
    | some g => (⟨(g.next w.rest).2.2, w.gens.set i (g.next w.rest).1⟩, (g.next w.rest).2.1)

/-- A step as it was observed: the lines left before and after, and what it showed. -/
structure LineEvent where
  op : LineOp
  before : List Str
  after : List Str
  seen : LineSeen

def LineWorld.run : LineWorld → List LineOp → List LineEvent
  | _, [] => []
  | w, op :: ops => ⟨op, w.rest, (w.step op).1.rest, (w.step op).2⟩ :: LineWorld.run (w.step op).1 ops

/-- The state at the end. -/
def LineWorld.final : LineWorld → List LineOp → LineWorld
  | w, [] => w
  | w, op :: ops => LineWorld.final (w.step op).1 ops

end Cjk
