import Verif.Spec.Tree
/-!
# When two trees are the same, whatever the order of children and attributes
-/

namespace Cjk
open Py

mutual
/-- The same label, the same attributes, the same keys, and under each key the same subtree.  References play no part, nor does the order
of children or attributes. -/
def ATree.same : ATree → ATree → Prop
  | .node _ l a k, u => l = u.label ∧ (∀ x, Dict.get? a x = Dict.get? u.attrib x) ∧
      (∀ x, x ∈ u.kids.items.map Prod.fst → x ∈ k.items.map Prod.fst) ∧ k.sameIn u.kids.items
/-- Every child has a same child under its key. -/
def AForest.sameIn : AForest → List (Str × ATree) → Prop
  | .nil, _ => True
  | .cons key t rest, us => (∃ c, (key, c) ∈ us ∧ t.same c) ∧ rest.sameIn us
end

/-- The attribute dictionaries of all nodes are dictionaries. -/
def ATree.attribsOk (t : ATree) : Prop := ∀ s ∈ t.subs, Dict.WF s.attrib

end Cjk
