import Verif.Py.Base
import Verif.Py.Dict
/-!
# Model of cjktools/common.py and cjktools/resources/cjkdata.py
-/

namespace Cjk
open Py

/-! ### common.py -/

/-- `filter_comments` (common.py:19-27), on the lines of the stream. -/
def filterComments : List Str → List Str
  | [] => []
  | line :: lines => if startsWith line u!"#" then filterComments lines else line :: filterComments lines

/-- The calls that open a file. -/
inductive OpenCall where
  /-- `bz2.BZ2File(filename, mode)` -/
  | bz2 (filename mode : Str)
  /-- `gzip.GzipFile(filename, mode)` -/
  | gzip (filename mode : Str)
  /-- `open(filename, mode)` -/
  | plain (filename mode : Str)
deriving DecidableEq

/-- A stream: one that was opened, or a standard stream. -/
inductive Stream where
  | opened (call : OpenCall)
  | stdin
  | stdout
deriving DecidableEq

/-- Opening a file: the call is logged; the operating system decides whether it fails. -/
def openFile (os : OpenCall → Option PyErr) (log : List OpenCall) (call : OpenCall) : Except PyErr Stream × List OpenCall :=
  match os call with
  | some e => (.error e, log ++ [call])
  | none => (.ok (.opened call), log ++ [call])

/-- `sopen` (common.py:30-72) on Python 3, where `streamhandler` is the identity whatever the encoding (line 58).  The second result is
the list of files opened. -/
def sopen (os : OpenCall → Option PyErr) (log : List OpenCall) (filename mode : Str) : Except PyErr Stream × List OpenCall :=
  let readMode := decide (c!"r" ∈ mode)
  if readMode && decide (c!"w" ∈ mode) then (.error .genericException, log)
  else if endsWith filename u!".bz2" then openFile os log (.bz2 filename mode)
  else if endsWith filename u!".gz" then openFile os log (.gzip filename mode)
  else if filename = u!"-" then (if readMode then (.ok .stdin, log) else (.ok .stdout, log))
  else openFile os log (.plain filename mode)

/-! ### cjkdata.py -/

/-- `SEARCH_PATHS` (cjkdata.py:9-13). -/
def searchPaths : List Str := [u!"~/.cjkdata", u!"/usr/share/data/cjkdata", u!"/usr/local/share/data/cjkdata"]

/-- `os.path.expanduser` on POSIX for paths that do not begin with `~user`; `home` is `$HOME`, or else the home directory of the user
database, if there is one. -/
def expandUser (home : Option Str) (p : Str) : Str :=
  if startsWith p u!"~/" then
    match home with
    | none => p
    | some h => (h.reverse.dropWhile (fun c => c == c!"/")).reverse ++ p.drop 1
  else p

/-- What `find_path` looks at: the environment variable `CJKDATA`, the home directory, and which directories exist. -/
structure DataEnv where
  cjkdata : Option Str
  home : Option Str
  isDir : Str → Bool

/-- The loop of `find_path` (cjkdata.py:20-23). -/
def searchLoop (env : DataEnv) : List Str → Option Str
  | [] => none
  | p :: ps =>
    let p := expandUser env.home p
    if env.isDir p then some p else searchLoop env ps

/-- `find_path` (cjkdata.py:16-29). -/
def findPath (env : DataEnv) : Except PyErr Str :=
  match env.cjkdata with
  | some p => .ok p
  | none =>
    match searchLoop env searchPaths with
    | some p => .ok p
    | none => .error .missingCJKDataError

/-- `os.path.join(a, b)` on POSIX. -/
def pathJoin (a b : Str) : Str :=
  if startsWith b u!"/" then b
  else if a = [] ∨ endsWith a u!"/" then a ++ b
  else a ++ u!"/" ++ b

/-- `get_resource` (cjkdata.py:32-34). -/
def getResource (env : DataEnv) (name : Str) : Except PyErr Str :=
  match findPath env with
  | .error e => .error e
  | .ok base => .ok (pathJoin base name)

end Cjk
