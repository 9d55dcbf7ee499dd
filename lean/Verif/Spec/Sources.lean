import Verif.Model.Sources
/-!
# What it means that a loader reads a stream, or else a file of the data directory
-/

namespace Cjk.Spec
open Py

/-- The data directory is `base`, written without a slash at the end. -/
def DataDir (env : DataEnv) (base : Str) : Prop := findPath env = .ok base ∧ base ≠ [] ∧ base.getLast? ≠ some 0x2f

/-- The loader parses the stream it is given and opens nothing; without a stream it opens exactly the named file of the data directory,
and the result is that for a stream with the lines of this file. -/
structure ReadsResource {α : Type} (load : DataDisk → Option (List Str) → Load α) (parse : List Str → Except PyErr α) (name : Str) : Prop where
  /-- a stream is parsed, whatever there is on the disk -/
  stream : ∀ d ls, load d (some ls) = (parse ls, [])
  /-- no stream: the file is read -/
  file : ∀ d base text, DataDir d.env base → d.file (base ++ u!"/" ++ name) = .ok text →
    load d none = (parse (fileLines text), [.plain (base ++ u!"/" ++ name) u!"r"])
  /-- no stream, and the file cannot be opened -/
  unreadable : ∀ d base e, DataDir d.env base → d.file (base ++ u!"/" ++ name) = .error e →
    load d none = (.error e, [.plain (base ++ u!"/" ++ name) u!"r"])
  /-- no stream, and there is no data directory -/
  missing : ∀ d e, findPath d.env = .error e → load d none = (.error e, [])

/-- A name that `sopen` takes for an uncompressed file. -/
def PlainName (f : Str) : Prop := ¬ (u!".bz2" <:+ f) ∧ ¬ (u!".gz" <:+ f) ∧ f ≠ u!"-"

/-- A name that `sopen` takes for a compressed file. -/
def Compressed (f : Str) : Prop := u!".bz2" <:+ f ∨ u!".gz" <:+ f

end Cjk.Spec
