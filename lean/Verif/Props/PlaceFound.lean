import Verif.Props.Place
/-!
# C175: find_node and find_all agree
-/

namespace Cjk
open Py

mutual
/-- Every place is entered under its label, and no dictionary has a key twice, as in hierarchies built with `append`. -/
def Place.byLabel : Place → Prop
  | .node _ _ _ k => (k.items.map Prod.fst).Nodup ∧ k.byLabel
/-- The same for entries. -/
def Places.byLabel : Places → Prop
  | .nil => True
  | .cons key p rest => key = p.label ∧ p.byLabel ∧ rest.byLabel
end

mutual
theorem byLabel_distinct : ∀ p : Place, p.byLabel → p.keysDistinct
  | .node _ _ _ k => fun h => ⟨h.1, byLabel_distinct_kids k h.2⟩
theorem byLabel_distinct_kids : ∀ k : Places, k.byLabel → k.keysDistinct
  | .nil => fun _ => trivial
  | .cons _ p rest => fun h => ⟨byLabel_distinct p h.2.1, byLabel_distinct_kids rest h.2.2⟩
end

theorem byLabel_items : ∀ (k : Places), k.byLabel → ∀ kp ∈ k.items, kp.1 = kp.2.label ∧ kp.2.byLabel
  | .nil, _, kp, h => by simp [Places.items] at h
  | .cons key p rest, hb, kp, h => by
    rw [Places.items, List.mem_cons] at h
    rcases h with rfl | h
    · exact ⟨hb.1, hb.2.1⟩
    · exact byLabel_items rest hb.2.2 kp h

theorem byLabel_get {l : Str} {r : Option Str} {a : Option (List Str)} {k : Places} (h : (Place.node l r a k).byLabel) (key : Str) (c : Place) :
    k.get? key = some c ↔ (key, c) ∈ k.items := by
  rw [Places.get?, Dict.get?_eq_some_iff h.1]

theorem mem_withPath_kids (anc : List Str) (x : Str × Place) : ∀ k : Places, x ∈ k.withPath anc ↔ ∃ kp ∈ k.items, x ∈ kp.2.withPath anc
  | .nil => by simp [Places.withPath, Places.items]
  | .cons key p rest => by
    rw [Places.withPath, List.mem_append, mem_withPath_kids anc x rest, Places.items]
    simp

mutual
theorem mem_withPath (x : Str × Place) : ∀ (p : Place) (anc : List Str), p.byLabel →
    (x ∈ p.withPath anc ↔ ∃ path, Spec.followKeys p path = some x.2 ∧ x.1 = join u!"/" ((anc ++ p.label :: path).dropLast))
  | .node l r a k, anc, hb => by
    have hkids := mem_withPath_items x k (anc ++ [l]) hb.2
    rw [Place.withPath, List.mem_cons, mem_withPath_kids]
    constructor
    · rintro (rfl | ⟨kp, hkp, hx⟩)
      · exact ⟨[], rfl, by simp [Place.label]⟩
      · obtain ⟨path, h1, h2⟩ := (hkids kp hkp).1 hx
        refine ⟨kp.1 :: path, ?_, ?_⟩
        · show ((k.get? kp.1).bind fun c => Spec.followKeys c path) = _
          rw [(byLabel_get hb kp.1 kp.2).2 hkp]; exact h1
        · rw [h2, (byLabel_items k hb.2 kp hkp).1]; simp [Place.label]
    · rintro ⟨path, h1, h2⟩
      cases path with
      | nil =>
        left
        obtain ⟨t, n⟩ := x
        have : Place.node l r a k = n := by simpa [Spec.followKeys] using h1
        subst this
        simp [Place.label] at h2
        rw [h2]
      | cons key path =>
        right
        have h1' : ((k.get? key).bind fun c => Spec.followKeys c path) = some x.2 := h1
        cases hg : k.get? key with
        | none => rw [hg] at h1'; cases h1'
        | some c =>
          rw [hg] at h1'
          have hm := (byLabel_get hb key c).1 hg
          refine ⟨(key, c), hm, (hkids (key, c) hm).2 ⟨path, h1', ?_⟩⟩
          have := (byLabel_items k hb.2 _ hm).1
          simp only at this
          rw [h2, this]; simp [Place.label]
theorem mem_withPath_items (x : Str × Place) : ∀ (k : Places) (anc : List Str), k.byLabel → ∀ kp ∈ k.items,
    (x ∈ kp.2.withPath anc ↔ ∃ path, Spec.followKeys kp.2 path = some x.2 ∧ x.1 = join u!"/" ((anc ++ kp.2.label :: path).dropLast))
  | .nil, _, _, kp, h => by simp [Places.items] at h
  | .cons key p rest, anc, hb, kp, h => by
    rw [Places.items, List.mem_cons] at h
    rcases h with rfl | h
    · exact mem_withPath x p anc hb.2.1
    · exact mem_withPath_items x rest anc hb.2.2 kp h
end

theorem follow_label : ∀ (path : List Str) (p : Place), p.byLabel → ∀ n, Spec.followKeys p path = some n →
    path.getLast?.getD p.label = n.label
  | [], p, _, n, h => by cases h; rfl
  | key :: path, .node l r a k, hb, n, h => by
    have h1' : ((k.get? key).bind fun c => Spec.followKeys c path) = some n := h
    cases hg : k.get? key with
    | none => rw [hg] at h1'; cases h1'
    | some c =>
      rw [hg] at h1'
      obtain ⟨h1, h2⟩ := byLabel_items k hb.2 _ ((byLabel_get hb key c).1 hg)
      rw [← follow_label path c h2 n h1']
      cases path with
      | nil => exact h1
      | cons q path => rw [List.getLast?_cons_cons]; cases hq : (q :: path).getLast? with
        | none => simp at hq
        | some y => rfl

/-- C175: in a hierarchy built with `append`, for every label but the place's own: `find_node` raises `KeyError` exactly if `find_all` finds nothing; what it returns
is one of the places `find_all` finds, the path of `find_all` being the labels from the place down to the parent; and none of those `find_all` finds is nearer. -/
theorem C175_agree (shuffle : Nat → List (List Str × Place) → List (List Str × Place)) (hs : ∀ n l, (shuffle n l).Perm l)
    (p : Place) (hb : p.byLabel) (label : Str) (hl : label ≠ p.label) :
    ∃ all, placeFindAll p label = .ok all ∧
      (placeFindNode shuffle p label = .error .keyError ↔ all = []) ∧
      (all ≠ [] → ∃ target path, placeFindNode shuffle p label = .ok (some (target, path)) ∧
        (join u!"/" ((p.label :: path).dropLast), target) ∈ all ∧
        ∀ x ∈ all, ∃ path', Spec.followKeys p path' = some x.2 ∧ x.1 = join u!"/" ((p.label :: path').dropLast) ∧ path.length ≤ path'.length) := by
  refine ⟨_, C45_find_all p label, ?_⟩
  have hmem : ∀ x, x ∈ (p.withPath []).filter (fun x => x.2.label = label) ↔
      (∃ path, Spec.followKeys p path = some x.2 ∧ x.1 = join u!"/" ((p.label :: path).dropLast) ∧ path.getLast? = some label) := by
    intro x
    rw [List.mem_filter, mem_withPath x p [] hb, decide_eq_true_iff]
    constructor
    · rintro ⟨⟨path, h1, h2⟩, h3⟩
      have h4 := follow_label path p hb _ h1
      rw [h3] at h4
      refine ⟨path, h1, h2, ?_⟩
      cases hp : path.getLast? with
      | none => rw [hp] at h4; exact absurd h4.symm hl
      | some y => rw [hp] at h4; exact congrArg some h4
    · rintro ⟨path, h1, h2, h3⟩
      have h4 := follow_label path p hb _ h1
      rw [h3] at h4
      exact ⟨⟨path, h1, h2⟩, h4.symm⟩
  rcases C44_find_node shuffle hs p (byLabel_distinct p hb) label hl with ⟨target, path, h1, h2, h3, h4⟩ | ⟨h1, h2⟩
  · have hin := (hmem (join u!"/" ((p.label :: path).dropLast), target)).2 ⟨path, h2, rfl, h3⟩
    refine ⟨⟨fun h => (by rw [h1] at h; cases h), fun h => by rw [h] at hin; simp at hin⟩, fun _ => ⟨target, path, h1, hin, ?_⟩⟩
    intro x hx
    obtain ⟨path', g1, g2, g3⟩ := (hmem x).1 hx
    exact ⟨path', g1, g2, h4 path' (by rw [g1]; simp) g3⟩
  · have hnil : (p.withPath []).filter (fun x => x.2.label = label) = [] := by
      rw [List.eq_nil_iff_forall_not_mem]
      intro x hx
      obtain ⟨path', g1, _, g3⟩ := (hmem x).1 hx
      exact h2 path' (by rw [g1]; simp) g3
    exact ⟨⟨fun _ => hnil, fun _ => h1⟩, fun h => absurd hnil h⟩

/-- C175: for the place's own label `find_node` returns the empty list, and `find_all` begins with the place itself. -/
theorem C175_own_label (shuffle : Nat → List (List Str × Place) → List (List Str × Place)) (p : Place) :
    placeFindNode shuffle p p.label = .ok none ∧ ∃ rest, placeFindAll p p.label = .ok (([], p) :: rest) := by
  refine ⟨C44_own_label shuffle p, ?_⟩
  rw [C45_find_all]
  obtain ⟨l, r, a, k⟩ := p
  rw [Place.withPath, List.filter_cons_of_pos (by simp [Place.label])]
  exact ⟨_, rfl⟩

/-- A hierarchy with a label on two levels. -/
def twoKyoto : Place :=
  .node u!"日本" none none (.cons u!"関西" (.node u!"関西" none none (.cons u!"京都" (.node u!"京都" none none .nil) .nil))
    (.cons u!"京都" (.node u!"京都" none none .nil) .nil))

/-- Non-vacuity: both are found by `find_all`, the nearer one by `find_node`. -/
example : twoKyoto.byLabel ∧ u!"京都" ≠ twoKyoto.label ∧
    (placeFindAll twoKyoto u!"京都").toOption.map (List.map Prod.fst) = some [u!"日本/関西", u!"日本"] ∧
    (placeFindNode (fun _ l => l) twoKyoto u!"京都").toOption.map (Option.map Prod.snd) = some (some [u!"京都"]) :=
  ⟨by simp [twoKyoto, Place.byLabel, Places.byLabel, Places.items, Place.label], by decide, by decide, by decide⟩

end Cjk
