import Verif.Model.Tatoeba
/-!
# Tatoeba readers that several threads use

A setter computes the dictionaries of a file and then stores them in the attributes of the reader, one after the other (tatoeba.py:239-241, 372-373, 589-590); a lookup loads the attributes it
needs, one after the other.  One access to an attribute is one step (CPython does not switch threads inside it); the steps of different threads happen in any order.  The dictionaries are
never changed after they are stored.  The files have numbers; which attribute holds the dictionary of which file is the state.
-/

namespace Cjk
open Py

/-- A call that a thread makes. -/
inductive RCall (A : Type) where
  /-- the assignment of the file with this number, which can be read -/
  | assign (file : Nat)
  /-- a lookup that loads these attributes, in this order -/
  | ask (loads : List A)

/-- Where a thread is. -/
inductive RPhase (A : Type) where
  | idle
  /-- in the setter: these attributes are still to be stored -/
  | storing (file : Nat) (left : List A)
  /-- in a lookup: the files whose dictionaries it has got, and the attributes still to be loaded -/
  | asking (got : List Nat) (left : List A)

/-- What a step does. -/
inductive RSeen (A : Type) where
  | nothing
  | began (c : RCall A)
  | stored (a : A) (file : Nat)
  | loaded (a : A) (file : Nat)
  /-- the assignment ends -/
  | assigned (file : Nat)
  /-- the lookup ends; its result is that for the dictionaries of these files -/
  | answered (files : List Nat)

/-- The attributes, where the threads are, and the calls they will still make. -/
structure RThreads (A : Type) where
  attr : A → Nat
  phase : Nat → RPhase A
  calls : Nat → List (RCall A)

variable {A : Type} [DecidableEq A]

/-- Thread `t` is here now. -/
def RThreads.to (w : RThreads A) (t : Nat) (p : RPhase A) : RThreads A := { w with phase := fun u => if u = t then p else w.phase u }

/-- One step of thread `t`; `stores` are the attributes in the order in which the setter of the class stores them. -/
def RThreads.step (stores : List A) (w : RThreads A) (t : Nat) : RThreads A × RSeen A :=
  match w.phase t with
  | .idle =>
    match w.calls t with
    | [] => (w, .nothing)
    | c :: cs =>
      ({ w.to t (match c with | .assign j => .storing j stores | .ask l => .asking [] l) with calls := fun u => if u = t then cs else w.calls u }, .began c)
  | .storing j [] => (w.to t .idle, .assigned j)
  | .storing j (a :: l) => ({ w.to t (.storing j l) with attr := fun b => if b = a then j else w.attr b }, .stored a j)
  | .asking got [] => (w.to t .idle, .answered got)
  | .asking got (a :: l) => (w.to t (.asking (got ++ [w.attr a]) l), .loaded a (w.attr a))

/-- What happens if the threads take their steps in this order. -/
def RThreads.run (stores : List A) : RThreads A → List Nat → List (Nat × RSeen A)
  | _, [] => []
  | w, t :: ts => (t, (w.step stores t).2) :: RThreads.run stores (w.step stores t).1 ts

/-- The state after it. -/
def RThreads.final (stores : List A) : RThreads A → List Nat → RThreads A
  | w, [] => w
  | w, t :: ts => RThreads.final stores (w.step stores t).1 ts

/-- A reader with file 0 and threads that will make these calls. -/
def RThreads.start (calls : Nat → List (RCall A)) : RThreads A := ⟨fun _ => 0, fun _ => .idle, calls⟩

/-! ### The classes -/

/-- The attributes of a sentence reader. -/
inductive SentAttr where
  | language
  | sentence
  | info
deriving DecidableEq

/-- The order in which the setter `sentences` stores them (tatoeba.py:239-241). -/
def sentStores : List SentAttr := [.language, .sentence, .info]

/-- `sentence` and `[]` (tatoeba.py:34-35, 136-150, 250-252): one attribute. -/
def threadSentence {D : Type} (files : Nat → SentData D) (i : Int) : List Nat → Except PyErr Str
  | [f] => Dict.getItem (files f).sent i
  | _ => .error .typeError

/-- `details` (tatoeba.py:171-178): `_detailed_info_dict` is loaded for the comparison with `None` and again for the lookup. -/
def threadDetails {D : Type} (files : Nat → SentData D) (i : Int) : List Nat → Except PyErr (Details D)
  | [f, g] =>
    match (files f).info with
    | none => .error .missingDataError
    | some _ =>
      match (files g).info with
      | none => .error .typeError
      | some info =>
        match Dict.get? info i with
        | some d => .ok d
        | none => .error .invalidIDError
  | _ => .error .typeError

/-- The attributes of a links reader. -/
inductive LinkAttr where
  | link
  | group
deriving DecidableEq

/-- The order in which the setter `links` stores them (tatoeba.py:372-373). -/
def linkStores : List LinkAttr := [.link, .group]

/-- The order in which `[]` loads them (tatoeba.py:407-408): `self._group_dict[self._link_dict[key]]`. -/
def linkLoads : List LinkAttr := [.group, .link]

/-- `[]` of a links reader. -/
def threadGroup (files : Nat → LinkData) (i : Int) : List Nat → Except PyErr (List Int)
  | [g, l] =>
    match Dict.getItem (files l).link i with
    | .error e => .error e
    | .ok node => Dict.getItem (files g).group node
  | _ => .error .typeError

end Cjk
