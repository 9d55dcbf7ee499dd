import Verif.Spec.SmartCache
import Verif.Model.CacheStream
/-! # Specification vocabulary for cache files of any name -/

namespace Cjk.Spec
open Py

/-- The compression that the name of a file asks for. -/
def codecFor (Z : Codecs) (file : Path) : Codec :=
  if u!".bz2" <:+ file then Z.bz2 else if u!".gz" <:+ file then Z.gzip else ⟨fun _ b => b, fun b => b⟩

/-- The call that opens a file of this name in this mode. -/
def opening (file mode : Str) : OpenCall :=
  if u!".bz2" <:+ file then .bz2 file mode else if u!".gz" <:+ file then .gzip file mode else .plain file mode

/-- The same files with the same contents at the same time, the cache file of `w` being compressed. -/
def Stands (Z : Codecs) (file : Path) (d : Disk) (w : CacheWorld) : Prop :=
  w.disk.now = d.now ∧ (∀ q, q ≠ file → w.disk.fs q = d.fs q) ∧
  w.disk.fs file = none ∧ d.fs file = none ∨
  w.disk.now = d.now ∧ (∀ q, q ≠ file → w.disk.fs q = d.fs q) ∧
  ∃ b t, w.disk.fs file = some ⟨b, t⟩ ∧ d.fs file = some ⟨(codecFor Z file).decode b, t⟩

/-- Worlds reachable from one without a cache file, as `Reachable`, with a cache file of any name and files that can be opened. -/
inductive ReachableStream (P : PickleObjects) (Z : Codecs) (order : List Path → List Path) (method : DiskMethod P) (file : Path)
    (deps : List Dep) : CacheWorld → Prop
  | init (w : CacheWorld) : w.disk.fs file = none → GoodDeps w.disk.fs deps → ReachableStream P Z order method file deps w
  | wait (w : CacheWorld) (n : Nat) : ReachableStream P Z order method file deps w →
      ReachableStream P Z order method file deps { w with disk := { w.disk with now := w.disk.now + n } }
  | edit (w : CacheWorld) (p : Path) (bytes : List Nat) : ReachableStream P Z order method file deps w → p ≠ file →
      (∀ f, w.disk.fs file = some f → f.mtime < w.disk.now) →
      ReachableStream P Z order method file deps { w with disk := { w.disk with fs := w.disk.fs.write p bytes w.disk.now } }
  | remove (w : CacheWorld) : ReachableStream P Z order method file deps w →
      ReachableStream P Z order method file deps { w with disk := { w.disk with fs := fun q => if q = file then none else w.disk.fs q } }
  | call (w : CacheWorld) (args params : P.Obj) : ReachableStream P Z order method file deps w →
      ReachableStream P Z order method file deps (diskProxyStream P Z order (fun _ => none) method file deps w args params).world
  | crash (w : CacheWorld) (args params : P.Obj) (n : Nat) : ReachableStream P Z order method file deps w →
      ReachableStream P Z order method file deps (diskProxyStreamCrash P Z order (fun _ => none) method file deps w args params n)

end Cjk.Spec
