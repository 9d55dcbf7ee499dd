import Verif.Model.DiskRec
import Verif.Spec.SmartCache
/-! # Specification vocabulary for methods with disk caches that call each other -/

namespace Cjk.Spec
open Py

/-- How a body ends without caches: a call of a wrapped method is a call of the method itself. -/
inductive NestEnds {M : Type} {P : PickleObjects} (S : Wrapped M P) : DiskProg M P → Except PyErr P.Obj → Prop
  | ret (r : Except PyErr P.Obj) : NestEnds S (.ret r) r
  | wait (n : Nat) (next : DiskProg M P) (r : Except PyErr P.Obj) : NestEnds S next r → NestEnds S (.wait n next) r
  | call (m : M) (a p : P.Obj) (next : Except PyErr P.Obj → DiskProg M P) (r r' : Except PyErr P.Obj) :
      NestEnds S (S.body m a p) r → NestEnds S (next r) r' → NestEnds S (.call m a p next) r'

/-- What a call gives without caches. -/
def NestGives {M : Type} {P : PickleObjects} (S : Wrapped M P) (m : M) (a p : P.Obj) (r : Except PyErr P.Obj) : Prop := NestEnds S (S.body m a p) r

/-- A history of calls of wrapped methods, each of which ended, and of time that passes: the outcomes, and the disk at the end. -/
inductive NestCalls {M : Type} {P : PickleObjects} (S : Wrapped M P) (order : List Path → List Path) (d0 : Disk) :
    List (M × P.Obj × P.Obj × Except PyErr P.Obj) → Disk → Prop
  | none : NestCalls S order d0 [] d0
  | wait (hist : List (M × P.Obj × P.Obj × Except PyErr P.Obj)) (d : Disk) (n : Nat) : NestCalls S order d0 hist d →
      NestCalls S order d0 hist { d with now := d.now + n }
  | more (hist : List (M × P.Obj × P.Obj × Except PyErr P.Obj)) (d d' : Disk) (n : Nat) (m : M) (a p : P.Obj) (r : Except PyErr P.Obj)
      (l : List (M × P.Obj × P.Obj)) : NestCalls S order d0 hist d → proxyNest S order n m a p d = some (r, d', l) →
      NestCalls S order d0 (hist ++ [(m, a, p, r)]) d'

/-- At the beginning there are no cache files, and all dependencies exist and are not from the future. -/
def NestStart {M : Type} {P : PickleObjects} (S : Wrapped M P) (d : Disk) : Prop :=
  ∀ m, d.fs (S.file m) = none ∧ GoodDeps d.fs (S.deps m) ∧ ¬ Newer d.fs d.now (S.deps m)

/-- Whatever a method returns can be stored with the arguments. -/
def NestStorable {M : Type} {P : PickleObjects} (S : Wrapped M P) : Prop :=
  ∀ m a p o, NestGives S m a p (.ok o) → (storedBytes P o a p).2 = none

/-- Methods with the same cache file give the same value for equal arguments, if one of them gives a value that is not `None`. -/
def NestAgree {M : Type} {P : PickleObjects} (S : Wrapped M P) : Prop :=
  ∀ m m' a0 p0 o a p, S.file m = S.file m' → NestGives S m a0 p0 (.ok o) → P.isNone o = false → P.eq a0 a = .ok true → P.eq p0 p = .ok true →
    NestGives S m' a p (.ok o)

end Cjk.Spec
