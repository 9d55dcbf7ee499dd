import Verif.Model.Place
import Verif.Py.Strip
/-!
# Hierarchies of places, described by recursion
-/

namespace Cjk
open Py

mutual
/-- Pre-order: the place with its depth, then its entries in order, one level deeper. -/
def Place.preorder (d : Nat) : Place → List (Nat × Place)
  | .node l r a k => (d, .node l r a k) :: k.preorder (d + 1)
/-- Pre-order of entries. -/
def Places.preorder (d : Nat) : Places → List (Nat × Place)
  | .nil => []
  | .cons _ p rest => p.preorder d ++ rest.preorder d
end

mutual
/-- Pre-order, each place with the labels of its proper ancestors, joined. -/
def Place.withPath (anc : List Str) : Place → List (Str × Place)
  | .node l r a k => (join u!"/" anc, .node l r a k) :: k.withPath (anc ++ [l])
/-- The same for entries. -/
def Places.withPath (anc : List Str) : Places → List (Str × Place)
  | .nil => []
  | .cons _ p rest => p.withPath anc ++ rest.withPath anc
end

/-- Following entry keys down from a place. -/
def Spec.followKeys : Place → List Str → Option Place
  | p, [] => some p
  | p, k :: ks => (p.kids.get? k).bind (fun c => Spec.followKeys c ks)

mutual
/-- No dictionary has a key twice. -/
def Place.keysDistinct : Place → Prop
  | .node _ _ _ k => (k.items.map Prod.fst).Nodup ∧ k.keysDistinct
/-- The same for entries. -/
def Places.keysDistinct : Places → Prop
  | .nil => True
  | .cons _ p rest => p.keysDistinct ∧ rest.keysDistinct
end

mutual
/-- A hierarchy built with `append` (entries are keyed by label, hence no two entries with the same label), whose labels
and readings are words (not empty, no whitespace; not the reading `None`), without aliases. -/
def Place.storable : Place → Prop
  | .node l r a k => Word l ∧ (∀ x, r = some x → Word x ∧ x ≠ u!"None") ∧ a = none ∧
      (k.items.map Prod.fst).Nodup ∧ k.storable
/-- The same for entries. -/
def Places.storable : Places → Prop
  | .nil => True
  | .cons key p rest => key = p.label ∧ p.storable ∧ rest.storable
end

mutual
/-- The place at a reference of the store is the hierarchy. -/
def Spec.Holds (st : PStore) (ref : Nat) : Place → Prop
  | .node l r a k => ∃ n, st[ref]? = some n ∧ n.label = l ∧ n.reading = r ∧ n.aliases = a ∧ Spec.HoldsAll st n.kids k
/-- The entries of a dictionary are the entries of the hierarchy, in the same order. -/
def Spec.HoldsAll (st : PStore) (d : Dict Str Nat) : Places → Prop
  | .nil => d = []
  | .cons key p rest => ∃ ref d', d = (key, ref) :: d' ∧ Spec.Holds st ref p ∧ Spec.HoldsAll st d' rest
end

end Cjk
