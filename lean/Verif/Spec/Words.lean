import Verif.Py.Strip
/-!
# The words of a text

A relation, stated without reference to the algorithm of `str.split`.
-/

namespace Py

/-- Only whitespace (possibly nothing). -/
def Gap (g : Str) : Prop := ∀ c ∈ g, isSpace c = true

/-- `HasWords s ws`: the text `s` consists of the words `ws`, in this order, with whitespace between, before and behind them. -/
inductive HasWords : Str → List Str → Prop
  | none {g : Str} : Gap g → HasWords g []
  | last {g w g' : Str} : Gap g → Word w → Gap g' → HasWords (g ++ w ++ g') [w]
  | more {g w g' rest : Str} {ws : List Str} : Gap g → Word w → Gap g' → g' ≠ [] → HasWords rest ws →
      HasWords (g ++ w ++ g' ++ rest) (w :: ws)

end Py
