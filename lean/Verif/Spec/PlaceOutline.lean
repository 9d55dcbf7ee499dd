import Verif.Model.Place
/-!
# What a file of places says: an outline

Line number 0 is the root.  A later line of depth `d` belongs to the last earlier line of depth `d - 1` (and a later line of depth 0
belongs to the root).
-/

namespace Cjk.Spec
open Py Cjk

/-- What one line says: depth, label, reading, aliases. -/
abbrev PlaceRec := Int × Str × Option Str × Option (List Str)

/-- The number of the last line of depth `d`. -/
def lastAt (ds : List Int) (d : Int) : Option Nat := ((List.range ds.length).filter (fun j => ds[j]? = some d)).getLast?

/-- The line to which a line of depth `d` belongs that follows lines of depths `ds`. -/
def parentLine (ds : List Int) (d : Int) : Option Nat := if d = 0 then some 0 else lastAt ds (d - 1)

/-- The lines belonging to line `i`, with their labels, in file order. -/
def entriesOf (rs : List PlaceRec) (i : Nat) : List (Str × Nat) :=
  (List.range rs.length).filterMap (fun j =>
    match rs[j]? with
    | none => none
    | some r => if j ≠ 0 ∧ parentLine ((rs.take j).map Prod.fst) r.1 = some i then some (r.2.1, j) else none)

/-- No depth is negative and none is more than one larger than the one before; the first is 0. -/
def OutlineOk (ds : List Int) : Prop :=
  ds[0]? = some 0 ∧ ∀ (i : Nat) a b, ds[i]? = some a → ds[i + 1]? = some b → 0 ≤ b ∧ b ≤ a + 1

/-- The store holds the outline: one place per line with the details of the line; its entries are those of its lines, a later entry
with the same label replacing an earlier one (in its place). -/
def HoldsOutline (st : PStore) (rs : List PlaceRec) : Prop :=
  st.length = rs.length ∧ ∀ (i : Nat) r, rs[i]? = some r →
    st[i]? = some ⟨r.2.1, r.2.2.1, r.2.2.2, Dict.ofList (entriesOf rs i)⟩

end Cjk.Spec
