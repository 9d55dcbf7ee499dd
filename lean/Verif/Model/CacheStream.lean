import Verif.Model.SmartCache
import Verif.Model.Common
/-!
# The disk cache with the streams of `sopen`

Model/SmartCache.lean takes the cache file for a plain file that can always be opened.  Here the file is opened with `sopen`
(smart_cache.py:116 and 149 with common.py:30-72): a name that ends in `.gz` or `.bz2` is compressed, the name `-` stands for the standard streams, and
the operating system may refuse to open the file.

Simplified: a method reads files but writes none; a compressed stream that ends early or is damaged gives the bytes before the damage and then raises.
-/

namespace Cjk
open Py

/-- A compression format (`gzip`, `bz2`): what a writer that is closed leaves on the disk (it may depend on the time, as the header of `gzip` does), and the
bytes a reader gets before the stream ends or raises. -/
structure Codec where
  encode : Nat → List Nat → List Nat
  decode : List Nat → List Nat

/-- What compression guarantees: the reader gets what was written; from a file cut short it gets a beginning of it. -/
structure CodecSpec (c : Codec) : Prop where
  decode_encode : ∀ t b, c.decode (c.encode t b) = b
  decode_prefix : ∀ t b pre, pre <+: c.encode t b → c.decode pre <+: b

/-- The two formats of `sopen`. -/
structure Codecs where
  gzip : Codec
  bz2 : Codec

/-- Disk and standard streams of a process. -/
structure CacheWorld where
  disk : Disk
  stdinOpen : Bool
  stdoutOpen : Bool

/-- `path.exists(p)` was true, or the opening fails. -/
def fileBytes (fs : FS) (p : Path) : Except PyErr (List Nat) :=
  match fs p with
  | some f => .ok f.bytes
  | none => .error .osError

/-- The bytes that `pickle.load` gets from `sopen(filename, 'rb', encoding=None)` (smart_cache.py:116).  Standard input is a text stream: unpickling from
it raises, and the `with` statement closes it. -/
def readCache (Z : Codecs) (os : OpenCall → Option PyErr) (w : CacheWorld) (file : Path) : Except PyErr (List Nat) × CacheWorld :=
  match (sopen os [] file u!"rb").1 with
  | .error e => (.error e, w)
  | .ok (.opened (.plain f _)) => (fileBytes w.disk.fs f, w)
  | .ok (.opened (.gzip f _)) => ((fileBytes w.disk.fs f).map Z.gzip.decode, w)
  | .ok (.opened (.bz2 f _)) => ((fileBytes w.disk.fs f).map Z.bz2.decode, w)
  | .ok .stdin => (.error .valueError, { w with stdinOpen := false })
  | .ok .stdout => (.error .valueError, { w with stdoutOpen := false })

/-- `try_cache` (smart_cache.py:95-130); all exceptions after `needs_update` are swallowed. -/
def tryCacheStream (P : PickleObjects) (Z : Codecs) (order : List Path → List Path) (os : OpenCall → Option PyErr) (w : CacheWorld) (file : Path)
    (args params : P.Obj) (deps : List Dep) : Except PyErr (Option P.Obj) × CacheWorld :=
  match needsUpdate order w.disk.fs file deps with
  | .error e => (.error e, w)
  | .ok true => (.ok none, w)
  | .ok false =>
    match readCache Z os w file with
    | (.error _, w') => (.ok none, w')
    | (.ok b, w') => (.ok (loadCached P b args params), w')

/-- The world with the file written. -/
def CacheWorld.write (w : CacheWorld) (p : Path) (bytes : List Nat) : CacheWorld :=
  { w with disk := { w.disk with fs := w.disk.fs.write p bytes w.disk.now } }

/-- `store_cache_object` (smart_cache.py:133-152): how it ends, and the world.  Standard output is a text stream: `pickle.dump` raises `TypeError` when it writes
bytes to it, and the `with` statement closes it; when it is closed already, `with` raises `ValueError`. -/
def storeStream (P : PickleObjects) (Z : Codecs) (os : OpenCall → Option PyErr) (w : CacheWorld) (file : Path) (obj args params : P.Obj) :
    Option PyErr × CacheWorld :=
  match (sopen os [] file u!"wb").1 with
  | .error e => (some e, w)
  | .ok (.opened (.plain f _)) => ((storedBytes P obj args params).2, w.write f (storedBytes P obj args params).1)
  | .ok (.opened (.gzip f _)) =>
    ((storedBytes P obj args params).2, w.write f (Z.gzip.encode w.disk.now (storedBytes P obj args params).1))
  | .ok (.opened (.bz2 f _)) =>
    ((storedBytes P obj args params).2, w.write f (Z.bz2.encode w.disk.now (storedBytes P obj args params).1))
  | .ok .stdin => (some .valueError, { w with stdinOpen := false })
  | .ok .stdout =>
    if w.stdoutOpen then (some ((P.dump args).2.getD .typeError), { w with stdoutOpen := false }) else (some .valueError, w)

/-- Outcome of a call. -/
structure StreamResult (P : PickleObjects) where
  /-- returned value or exception -/
  result : Except PyErr P.Obj
  /-- world afterwards -/
  world : CacheWorld
  /-- whether the wrapped method ran -/
  called : Bool

/-- `proxy_method` of `disk_proxy_direct` (smart_cache.py:37-53) with a cache file of any name. -/
def diskProxyStream (P : PickleObjects) (Z : Codecs) (order : List Path → List Path) (os : OpenCall → Option PyErr) (method : DiskMethod P) (file : Path)
    (deps : List Dep) (w : CacheWorld) (args params : P.Obj) : StreamResult P :=
  match tryCacheStream P Z order os w file args params deps with
  | (.error e, w') => ⟨.error e, w', false⟩
  | (.ok (some o), w') => ⟨.ok o, w', false⟩
  | (.ok none, w') =>
    match method w'.disk.fs args params with
    | .error e => ⟨.error e, w', true⟩
    | .ok o =>
      match storeStream P Z os w' file o args params with
      | (none, w'') => ⟨.ok o, w'', true⟩
      | (some e, w'') => ⟨.error e, w'', true⟩

/-- A call during which the process dies when `n` bytes of the cache file have reached the disk; the name of the file is not `-`. -/
def diskProxyStreamCrash (P : PickleObjects) (Z : Codecs) (order : List Path → List Path) (os : OpenCall → Option PyErr) (method : DiskMethod P) (file : Path)
    (deps : List Dep) (w : CacheWorld) (args params : P.Obj) (n : Nat) : CacheWorld :=
  match tryCacheStream P Z order os w file args params deps with
  | (.error _, w') => w'
  | (.ok (some _), w') => w'
  | (.ok none, w') =>
    match method w'.disk.fs args params with
    | .error _ => w'
    | .ok o =>
      match (sopen os [] file u!"wb").1 with
      | .ok (.opened (.plain f _)) => w'.write f ((storedBytes P o args params).1.take n)
      | .ok (.opened (.gzip f _)) => w'.write f ((Z.gzip.encode w'.disk.now (storedBytes P o args params).1).take n)
      | .ok (.opened (.bz2 f _)) => w'.write f ((Z.bz2.encode w'.disk.now (storedBytes P o args params).1).take n)
      | _ => w'

end Cjk
