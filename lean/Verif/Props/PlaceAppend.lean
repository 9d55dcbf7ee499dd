import Verif.Model.PlaceAppend
import Verif.Props.Place
/-!
# C182: appending a place
-/

namespace Cjk
open Py

theorem places_set_items (key : Str) (p : Place) : ∀ k : Places, (k.set key p).items = Dict.set k.items key p
  | .nil => rfl
  | .cons k' q rest => by
    rw [Places.set]
    split
    · rename_i h
      simp only [Places.items, Dict.set]
      rw [if_pos h]
    · rename_i h
      simp only [Places.items, Dict.set]
      rw [if_neg h, places_set_items key p rest]

theorem set_split {V : Type} {d : Dict Str V} {key : Str} {old : V} (v : V) (h : Dict.get? d key = some old) :
    ∃ pre post, d = pre ++ (key, old) :: post ∧ Dict.set d key v = pre ++ (key, v) :: post ∧ key ∉ pre.map Prod.fst := by
  induction d with
  | nil => cases h
  | cons x d ih =>
    obtain ⟨k, w⟩ := x
    rw [Dict.get?_cons] at h
    by_cases e : k = key
    · rw [if_pos e] at h
      cases h
      exact ⟨[], d, by rw [e]; rfl, by rw [Dict.set, if_pos e, e]; rfl, by simp⟩
    · rw [if_neg e] at h
      obtain ⟨pre, post, h1, h2, h3⟩ := ih h
      refine ⟨(k, w) :: pre, post, by rw [h1]; rfl, by rw [Dict.set, if_neg e, h2]; rfl, ?_⟩
      simp only [List.map_cons, List.mem_cons, not_or]
      exact ⟨fun e' => e e'.symm, h3⟩

/-- One level deeper. -/
def Spec.deeper (l : List (Nat × Place)) : List (Nat × Place) := l.map (fun dp => (dp.1 + 1, dp.2))

mutual
theorem preorder_deeper (d : Nat) : ∀ p : Place, p.preorder (d + 1) = Spec.deeper (p.preorder d)
  | .node l r a k => by
    simp only [Place.preorder, Spec.deeper, List.map_cons, places_preorder_deeper (d + 1) k]
theorem places_preorder_deeper (d : Nat) : ∀ k : Places, k.preorder (d + 1) = Spec.deeper (k.preorder d)
  | .nil => rfl
  | .cons _ p r => by
    simp only [Places.preorder, Spec.deeper, List.map_append]
    rw [preorder_deeper d p, places_preorder_deeper d r]
    rfl
end

theorem walk_kids (p : Place) : placeWalk p = (0, p) :: (p.kids.items.flatMap (fun kp => Spec.deeper (placeWalk kp.2))) := by
  obtain ⟨l, r, a, k⟩ := p
  rw [C42_walk, Place.preorder, Places.preorder_eq]
  simp only [Place.kids, List.flatMap_map]
  congr 2
  funext kp
  rw [C42_walk, ← preorder_deeper]

theorem append_kids (p q : Place) : (placeAppend p q).kids.items = Dict.set p.kids.items q.label q := by
  cases p
  exact places_set_items _ _ _

/-- **C182** (walk).  If the place has no entry with the label of `q`, then after `append(q)` the walk is the walk of before, with the place changed, and then the
walk over `q`, one level deeper; if there is one, the walk over `q` stands in the place of the walk over the old entry. -/
theorem C182_walk (p q : Place) :
    (Dict.get? p.kids.items q.label = none →
      placeWalk (placeAppend p q) = (0, placeAppend p q) :: ((placeWalk p).tail ++ Spec.deeper (placeWalk q))) ∧
    (∀ old, Dict.get? p.kids.items q.label = some old → ∃ a b, placeWalk p = (0, p) :: (a ++ Spec.deeper (placeWalk old) ++ b) ∧
      placeWalk (placeAppend p q) = (0, placeAppend p q) :: (a ++ Spec.deeper (placeWalk q) ++ b)) := by
  constructor
  · intro h
    rw [walk_kids (placeAppend p q), append_kids, Dict.set_of_not_mem _ _ _ ((Dict.get?_eq_none_iff _ _).1 h), walk_kids p]
    simp [List.flatMap_append]
  · intro old h
    obtain ⟨pre, post, h1, h2, _⟩ := set_split q h
    rw [walk_kids (placeAppend p q), append_kids, walk_kids p, h2, h1]
    exact ⟨_, _, by rw [List.flatMap_append, List.flatMap_cons, ← List.append_assoc], by rw [List.flatMap_append, List.flatMap_cons, ← List.append_assoc]⟩

theorem append_details (p q : Place) : (placeAppend p q).label = p.label ∧ (placeAppend p q).reading = p.reading ∧
    (placeAppend p q).aliases = p.aliases := by
  cases p; exact ⟨rfl, rfl, rfl⟩

/-- The lines of a dump, with all depths one larger. -/
def Spec.deeperDump (r : Str → Str) (q : Place) : List Str :=
  (placeWalk q).map (fun dp => placeToLine r (dp.1 + 1) dp.2.label dp.2.reading dp.2.aliases ++ u!"\n")

/-- **C182** (dump).  The dump after `append(q)`, for a new label, is the dump of before with the lines of `q` behind it, one level deeper. -/
theorem C182_dump (r : Str → Str) (p q : Place) (h : Dict.get? p.kids.items q.label = none) :
    placeDump r (placeAppend p q) = placeDump r p ++ Spec.deeperDump r q := by
  obtain ⟨h1, h2, h3⟩ := append_details p q
  unfold placeDump Spec.deeperDump
  rw [(C182_walk p q).1 h, walk_kids p]
  simp only [List.map_cons, List.tail_cons, List.map_append, h1, h2, h3, Spec.deeper, List.map_map]
  rfl

theorem storable_set {q : Place} (hq : q.storable) : ∀ k : Places, k.storable → (k.set q.label q).storable
  | .nil, _ => ⟨rfl, hq, trivial⟩
  | .cons key p rest, h => by
    obtain ⟨h1, h2, h3⟩ := h
    rw [Places.set]
    split
    · rename_i e
      exact ⟨e, hq, h3⟩
    · exact ⟨h1, h2, storable_set hq rest h3⟩

theorem keys_set_nodup {V : Type} (d : Dict Str V) (key : Str) (v : V) (h : (d.map Prod.fst).Nodup) : ((Dict.set d key v).map Prod.fst).Nodup :=
  Dict.WF_set (show Dict.WF d from h) key v

theorem append_storable {p q : Place} (hp : p.storable) (hq : q.storable) : (placeAppend p q).storable := by
  obtain ⟨l, r, a, k⟩ := p
  obtain ⟨h1, h2, h3, h4, h5⟩ := hp
  refine ⟨h1, h2, h3, ?_, storable_set hq k h5⟩
  rw [places_set_items]
  exact keys_set_nodup _ _ _ h4

/-- **C182** (file).  So a file of places may be extended with the lines of another place, one level deeper: `from_file` reads the first hierarchy with the other
place appended.  For hierarchies without aliases, and a new label. -/
theorem C182_file (r : Str → Str) (p q : Place) (hp : p.storable) (hq : q.storable) (h : Dict.get? p.kids.items q.label = none) :
    ∃ st, placeFromFile (placeDump r p ++ Spec.deeperDump r q) = .ok st ∧ Spec.Holds st 0 (placeAppend p q) := by
  rw [← C182_dump r p q h]
  exact C41_roundtrip_partial r _ (append_storable hp hq)

/-- **C182** (searching).  After `append(q)`, `find_node` finds `q` itself under its label, unless that is the place's own label. -/
theorem C182_find_node (shuffle : Nat → List (List Str × Place) → List (List Str × Place)) (p q : Place) (hne : q.label ≠ p.label) :
    placeFindNode shuffle (placeAppend p q) q.label = .ok (some (q, [q.label])) := by
  unfold placeFindNode
  rw [(append_details p q).1, if_neg hne]
  have hg : (placeAppend p q).kids.get? q.label = some q := by
    unfold Places.get?
    rw [append_kids, Dict.get?_set_self]
  rw [findLoop]
  simp only [List.reverse_cons, List.reverse_nil, List.nil_append]
  rw [findLevel, hg]
  rfl

/-- The places that `find_all` finds, without their paths. -/
theorem findAll_places (p : Place) (label : Str) :
    ∃ l, placeFindAll p label = .ok l ∧ l.map Prod.snd = ((placeWalk p).map Prod.snd).filter (fun x => x.label = label) := by
  refine ⟨_, C45_find_all p label, ?_⟩
  rw [C42_walk, ← place_withPath_snd [] 0 p, List.filter_map]
  rfl

/-- **C182** (searching for all).  After `append(q)`, for a new label, `find_all` finds what it found before, with the place changed, and then what it finds in `q`. -/
theorem C182_find_all (p q : Place) (h : Dict.get? p.kids.items q.label = none) (label : Str) :
    ∃ l lp lq, placeFindAll (placeAppend p q) label = .ok l ∧ placeFindAll p label = .ok lp ∧ placeFindAll q label = .ok lq ∧
      l.map Prod.snd = (if p.label = label then placeAppend p q :: (lp.map Prod.snd).tail else lp.map Prod.snd) ++ lq.map Prod.snd := by
  obtain ⟨l, h1, e1⟩ := findAll_places (placeAppend p q) label
  obtain ⟨lp, h2, e2⟩ := findAll_places p label
  obtain ⟨lq, h3, e3⟩ := findAll_places q label
  refine ⟨l, lp, lq, h1, h2, h3, ?_⟩
  rw [e1, e2, e3, (C182_walk p q).1 h, walk_kids p]
  have hd : (Spec.deeper (placeWalk q)).map Prod.snd = (placeWalk q).map Prod.snd := by
    unfold Spec.deeper
    rw [List.map_map]; rfl
  simp only [List.map_cons, List.tail_cons, List.map_append, hd, List.filter_cons, List.filter_append, (append_details p q).1]
  by_cases hl : p.label = label <;> simp [hl]

theorem places_set_again (key : Str) (p p' : Place) : ∀ k : Places, (k.set key p).set key p' = k.set key p'
  | .nil => by simp [Places.set]
  | .cons k' q rest => by
    by_cases h : k' = key
    · simp [Places.set, h]
    · simp [Places.set, h, places_set_again key p p' rest]

/-- **C182** (again).  Appending the same place again changes nothing; of places with the same label the last one appended counts, as if the others had never been
appended. -/
theorem C182_again (p q q' : Place) (hl : q'.label = q.label) :
    placeAppend (placeAppend p q) q = placeAppend p q ∧ placeAppend (placeAppend p q) q' = placeAppend p q' := by
  obtain ⟨l, r, a, k⟩ := p
  constructor
  · simp only [placeAppend, places_set_again]
  · simp only [placeAppend, hl, places_set_again]

/-- **C182** (order).  Places with different labels may be appended in either order: the same places are found under the same labels. -/
theorem C182_order (p q q' : Place) (hl : q'.label ≠ q.label) (key : Str) :
    Dict.get? (placeAppend (placeAppend p q) q').kids.items key = Dict.get? (placeAppend (placeAppend p q') q).kids.items key := by
  rw [append_kids, append_kids, append_kids, append_kids, Dict.get?_set, Dict.get?_set, Dict.get?_set, Dict.get?_set]
  by_cases h1 : q'.label = key
  · rw [if_pos h1, if_neg (fun e => hl (h1.trans e.symm)), if_pos h1]
  · rw [if_neg h1, if_neg h1]

/-- Non-vacuity of C182: Osaka is appended to Japan with Tokyo. -/
example : let p := Place.node u!"日本" none none (.cons u!"東京" (.node u!"東京" (some u!"とうきょう") none .nil) .nil)
    let q := Place.node u!"大阪" none none .nil
    p.storable ∧ q.storable ∧ Dict.get? p.kids.items q.label = none ∧
    placeDump id (placeAppend p q) = [u!"0 日本 None\n", u!"1 東京 とうきょう\n", u!"1 大阪 None\n"] := by
  refine ⟨⟨by decide, (fun x h => by cases h), rfl, by simp [Places.items], rfl, ⟨by decide, ?_, rfl, by simp [Places.items], trivial⟩, trivial⟩,
    ⟨by decide, (fun x h => by cases h), rfl, by simp [Places.items], trivial⟩, rfl, by decide +kernel⟩
  intro x h
  cases h
  exact ⟨by decide, by decide⟩

end Cjk
