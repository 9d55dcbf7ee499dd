import Verif.Py.Lines
/-!
# Model of `scripts/load_as_rst.py`

The script converts a file with `pypandoc`, or, where that is not installed, takes it as it is.  `setup.py` uses it for the long description.
Files are texts; a path may also be a directory, and the system may refuse to open a file.  Not modelled: the warnings, decoding, the command line,
a write that fails in the middle.
-/

namespace Cjk
open Py

/-- The exceptions that matter here. -/
inductive ScriptErr where
  | importError
  | py (e : PyErr)
deriving DecidableEq

/-- What is at a path. -/
inductive DiskNode where
  | file (text : Str)
  | directory
deriving DecidableEq

/-- The files, and the exceptions of the system for files that may not be read or written. -/
structure TextDisk where
  at_ : Str → Option DiskNode
  unreadable : Str → Option PyErr
  unwritable : Str → Option PyErr

/-- `with open(fname, 'r') as f: return f.read()`: in text mode every line ending becomes `\n`. -/
def TextDisk.read (d : TextDisk) (fname : Str) : Except ScriptErr Str :=
  match d.at_ fname with
  | some (.file text) =>
    match d.unreadable fname with
    | none => .ok (fileLines text).flatten
    | some e => .error (.py e)
  | _ => .error (.py .osError)

/-- `with open(fname, 'w') as f: ...` with the text that is written. -/
def TextDisk.write (d : TextDisk) (fname text : Str) : Except ScriptErr TextDisk :=
  match d.at_ fname with
  | some .directory => .error (.py .osError)
  | _ =>
    match d.unwritable fname with
    | none => .ok { d with at_ := fun p => if p = fname then some (.file text) else d.at_ p }
    | some e => .error (.py e)

/-- `pypandoc.convert(fname, 'rst')`, if the module can be imported. -/
abbrev Pandoc := Option (TextDisk → Str → Except ScriptErr Str)

/-- `_fallback_load` (load_as_rst.py:24-34); both callers pass the exception that led to it. -/
def fallbackLoad (d : TextDisk) (fname : Str) (strict : Bool) : Except ScriptErr Str :=
  if strict then .error .importError else d.read fname

/-- `load_text` (load_as_rst.py:36-46), in both its versions. -/
def loadRstText (pandoc : Pandoc) (d : TextDisk) (fname : Str) (strict : Bool) : Except ScriptErr Str :=
  match pandoc with
  | none => fallbackLoad d fname strict
  | some conv =>
    match conv d fname with
    | .ok text => .ok text
    | .error .importError => fallbackLoad d fname strict
    | .error (.py .osError) => fallbackLoad d fname strict
    | .error e => .error e

/-- The text that `convert` makes (load_as_rst.py:63-70). -/
def convertText (pandoc : Pandoc) (d : TextDisk) (fnameIn : Option Str) (preamble : Option Str) (strict : Bool) : Except ScriptErr Str :=
  match fnameIn with
  | none => .error (.py .valueError)
  | some f =>
    match d.at_ f with
    | none => .error (.py .osError)
    | some _ =>
      match loadRstText pandoc d f strict with
      | .error e => .error e
      | .ok text => .ok (join u!"\n" [preamble.getD [], text])

/-- `convert` (load_as_rst.py:49-78): what it returns (`None` if it writes a file) and the files afterwards. -/
def convertRst (pandoc : Pandoc) (d : TextDisk) (fnameIn fnameOut : Option Str) (preamble : Option Str) (strict : Bool) :
    Except ScriptErr (Option Str) × TextDisk :=
  match convertText pandoc d fnameIn preamble strict with
  | .error e => (.error e, d)
  | .ok text =>
    match fnameOut with
    | none => (.ok (some text), d)
    | some out =>
      match d.write out (text ++ u!"\n") with
      | .error e => (.error e, d)
      | .ok d' => (.ok none, d')

end Cjk
