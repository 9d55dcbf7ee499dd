import Verif.Model.Place
/-!
# Appending a place, on hierarchies as values

The appended place is taken as it is at the time; PlaceHeap has the same with objects.
-/

namespace Cjk
open Py

/-- `d[key] = p` for the entries of a place: an old entry is replaced where it stands. -/
def Places.set : Places → Str → Place → Places
  | .nil, key, p => .cons key p .nil
  | .cons k q rest, key, p => if k = key then .cons k p rest else .cons k q (rest.set key p)

/-- `Place.append` (place.py:108-110). -/
def placeAppend : Place → Place → Place
  | .node l r a k, p => .node l r a (k.set p.label p)

end Cjk
