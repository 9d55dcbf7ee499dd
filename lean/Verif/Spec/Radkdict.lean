import Verif.Py.Base
import Verif.Py.Set
/-!
# What a radkfile says
-/

namespace Cjk.Spec
open Py

/-- `# ...` -/
def radkComment (l : Str) : Prop := l.head? = some c!"#"
instance (l : Str) : Decidable (radkComment l) := by unfold radkComment; infer_instance

/-- `$ radical strokes [image]` -/
def radkHeader (l : Str) : Prop := l.head? = some c!"$"
instance (l : Str) : Decidable (radkHeader l) := by unfold radkHeader; infer_instance

/-- The radical that lines following `before` belong to: that of the last header line, if any. -/
def radicalAfter (before : List Str) : Option Str :=
  (before.filter (fun l => radkHeader l)).getLast?.bind (fun l => (splitWs l)[1]?)

/-- The kanji lines after the lines `before`, each with its radical and its kanji. -/
def radkBody (before : List Str) : List Str → List (Option Str × Str)
  | [] => []
  | l :: ls =>
    if radkComment l ∨ radkHeader l then radkBody (before ++ [l]) ls
    else (radicalAfter before, strip l) :: radkBody (before ++ [l]) ls

/-- How often `k` occurs on the lines of radical `r`. -/
def radkCount (ls : List Str) (r : Option Str) (k : Chr) : Nat :=
  (((radkBody [] ls).filter (fun p => p.1 = r)).map (fun p => p.2.count k)).sum

/-- The radicals with lines, in file order. -/
def radkRadicals (ls : List Str) : List (Option Str) := dedup ((radkBody [] ls).map Prod.fst)

/-- A header line that cannot be read, and the error. -/
def radkBad (l : Str) (e : PyErr) : Prop :=
  radkHeader l ∧ ((¬ ((splitWs l).length = 3 ∨ (splitWs l).length = 4) ∧ e = .genericException) ∨
    (((splitWs l).length = 3 ∨ (splitWs l).length = 4) ∧ ∃ s, (splitWs l)[2]? = some s ∧ pyInt 10 s = .error e))

end Cjk.Spec
