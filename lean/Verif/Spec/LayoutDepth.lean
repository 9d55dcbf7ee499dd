import Verif.Spec.TreeLayout
import Verif.Spec.TreeLoops
/-!
# What is drawn of a node when calls cannot be nested deeper than a limit
-/

namespace Cjk.Spec
open Py

/-- The ways in a row: the ways from every node of it, each behind the answer to the question whether it is the last in the row. -/
def rowWays (ways : Nat → List (List Bool × Nat)) : List Nat → List (List Bool × Nat)
  | [] => []
  | c :: rest => (ways c).map (fun m => (rest.isEmpty :: m.1, m.2)) ++ rowWays ways rest

/-- The ways of at most `n` steps down from a node, depth first: for every step whether it leads to the last child, and the node at the end. -/
def waysDown (kids : Nat → List (Str × Nat)) : Nat → Nat → List (List Bool × Nat)
  | 0, r => [([], r)]
  | n + 1, r => ([], r) :: rowWays (waysDown kids n) ((kids r).map Prod.snd)

/-- The lines for these ways, if each step takes one of `n` nested calls: up to the first one for whose node the text cannot be made, or which leads as deep as the calls reach. -/
def drawn (n : Nat) (text : Nat → Nat → Except PyErr Str) : List (List Bool × Nat) → List Str × Option PyErr
  | [] => ([], none)
  | m :: ms =>
    match text (n - m.1.length) m.2 with
    | .error e => ([], some e)
    | .ok s => if m.1.length = n then ([indent m.1 ++ s], some .recursionError) else ((indent m.1 ++ s) :: (drawn n text ms).1, (drawn n text ms).2)

end Cjk.Spec
