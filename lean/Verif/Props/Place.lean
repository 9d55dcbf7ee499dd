import Verif.Spec.Place
import Verif.Py.Num
import Verif.Py.Split
import Verif.Py.Exc
import Verif.Props.Kanjidic
/-!
# C41-C45: places
-/

namespace Cjk
open Py

/-! ### C42 -/

mutual
theorem place_preorder_length (d : Nat) : ∀ p : Place, (p.preorder d).length = p.size
  | .node _ _ _ k => by simp only [Place.preorder, Place.size, List.length_cons, places_preorder_length _ k]; omega
theorem places_preorder_length (d : Nat) : ∀ k : Places, (k.preorder d).length = k.size
  | .nil => rfl
  | .cons _ p r => by
    simp only [Places.preorder, Places.size, List.length_append, place_preorder_length d p, places_preorder_length d r]
end

theorem Places.preorder_eq (d : Nat) : ∀ k : Places, k.preorder d = (k.items.map Prod.snd).flatMap (Place.preorder d)
  | .nil => rfl
  | .cons _ p r => by simp only [Places.preorder, Places.items, List.map_cons, List.flatMap_cons, Places.preorder_eq d r]

theorem Places.size_eq : ∀ k : Places, k.size = ((k.items.map Prod.snd).map Place.size).sum
  | .nil => rfl
  | .cons _ p r => by simp only [Places.size, Places.items, List.map_cons, List.sum_cons, Places.size_eq r]

theorem placeWalkLoop_eq (fuel : Nat) (stack : List (Nat × Place)) (h : (stack.map (fun s => s.2.size)).sum < fuel) :
    placeWalkLoop fuel stack = stack.flatMap (fun s => s.2.preorder s.1) := by
  induction fuel generalizing stack with
  | zero => omega
  | succ fuel ih =>
    cases stack with
    | nil => rfl
    | cons s stack =>
      obtain ⟨d, p⟩ := s
      obtain ⟨l, r, a, k⟩ := p
      simp only [placeWalkLoop, List.flatMap_cons, Place.preorder, List.cons_append, Place.kids]
      congr 1
      rw [ih]
      · rw [List.flatMap_append, Places.preorder_eq, List.flatMap_map, List.flatMap_map]
      · simp only [List.map_cons, List.sum_cons, Place.size] at h
        rw [Places.size_eq, List.map_map] at h
        simp only [List.map_append, List.sum_append, List.map_map]
        have e : ((fun s : Nat × Place => s.2.size) ∘ fun kp : Str × Place => (d + 1, kp.2)) = Place.size ∘ Prod.snd := rfl
        rw [e]; omega

/-- C42: `walk` is the pre-order traversal. -/
theorem C42_walk (p : Place) : placeWalk p = p.preorder 0 := by
  unfold placeWalk
  rw [placeWalkLoop_eq _ _ (by simp)]
  simp

/-- C42: it yields as many places as there are. -/
theorem C42_walk_length (p : Place) : (placeWalk p).length = p.size := by
  rw [C42_walk, place_preorder_length]

/-! ### C43 -/

theorem walkPathLoop_go (path : List Str) (ld : Nat) (ll : Str) (d : Nat) (p : Place) (rest : List (Nat × Place))
    (anc : List Str) (h : (d = ld + 1 ∧ anc = path ++ [ll]) ∨ (d ≤ ld ∧ anc = path.take (path.length - (ld - d)))) :
    walkPathLoop path ld ll ((d, p) :: rest) =
      ((join u!"/" anc, p) :: (walkPathLoop anc d p.label rest).1, (walkPathLoop anc d p.label rest).2) := by
  rw [walkPathLoop]
  rcases h with ⟨rfl, rfl⟩ | ⟨hd, rfl⟩
  · simp
  · have : d ≠ ld + 1 := by omega
    by_cases e : d = ld
    · subst e; simp
    · have : d < ld := by omega
      simp only [*, if_false, if_true]

/-- Where the loop of `walk_with_path` stands: the next node at depth `d` has ancestors `anc`. -/
def AtDepth (path : List Str) (ld : Nat) (ll : Str) (d : Nat) (anc : List Str) : Prop :=
  anc.length = d ∧ path.length = ld ∧
    ((d = ld + 1 ∧ anc = path ++ [ll]) ∨ (d ≤ ld ∧ anc = path.take d))

theorem AtDepth.cond {path : List Str} {ld : Nat} {ll : Str} {d : Nat} {anc : List Str} (h : AtDepth path ld ll d anc) :
    (d = ld + 1 ∧ anc = path ++ [ll]) ∨ (d ≤ ld ∧ anc = path.take (path.length - (ld - d))) := by
  obtain ⟨_, h2, h3 | h3⟩ := h
  · exact Or.inl h3
  · right; rw [h2]; rw [show ld - (ld - d) = d by omega]; exact h3

mutual
theorem walkPath_place (p : Place) (path : List Str) (ld : Nat) (ll : Str) (d : Nat) (anc : List Str)
    (h : AtDepth path ld ll d anc) (rest : List (Nat × Place)) :
    ∃ path' ld' ll', AtDepth path' ld' ll' d anc ∧ walkPathLoop path ld ll (p.preorder d ++ rest) =
      (p.withPath anc ++ (walkPathLoop path' ld' ll' rest).1, (walkPathLoop path' ld' ll' rest).2) := by
  match p with
  | .node l r a k =>
    have h1 : AtDepth anc d l (d + 1) (anc ++ [l]) := ⟨by simp [h.1], h.1, Or.inl ⟨rfl, rfl⟩⟩
    obtain ⟨path', ld', ll', h2, h3⟩ := walkPath_places k anc d l (d + 1) (anc ++ [l]) h1 rest
    refine ⟨path', ld', ll', ?_, ?_⟩
    · have h0 := h.1
      obtain ⟨a1, a2, a3⟩ := h2
      refine ⟨h.1, a2, Or.inr ?_⟩
      rcases a3 with ⟨e1, e2⟩ | ⟨e1, e2⟩
      · have := List.append_inj_left' e2 rfl
        refine ⟨by omega, ?_⟩
        rw [← this, List.take_of_length_le (by omega)]
      · refine ⟨by omega, ?_⟩
        have := congrArg (List.take d) e2
        rw [List.take_take, show min d (d + 1) = d by omega, List.take_append_of_le_length (by omega),
          List.take_of_length_le (by omega)] at this
        exact this
    · simp only [Place.preorder, List.cons_append, Place.withPath]
      rw [walkPathLoop_go _ _ _ _ _ _ anc h.cond, show (Place.node l r a k).label = l from rfl, h3]
theorem walkPath_places (k : Places) (path : List Str) (ld : Nat) (ll : Str) (d : Nat) (anc : List Str)
    (h : AtDepth path ld ll d anc) (rest : List (Nat × Place)) :
    ∃ path' ld' ll', AtDepth path' ld' ll' d anc ∧ walkPathLoop path ld ll (k.preorder d ++ rest) =
      (k.withPath anc ++ (walkPathLoop path' ld' ll' rest).1, (walkPathLoop path' ld' ll' rest).2) := by
  match k with
  | .nil => exact ⟨path, ld, ll, h, by simp [Places.preorder, Places.withPath]⟩
  | .cons key p r =>
    obtain ⟨path1, ld1, ll1, h1, e1⟩ := walkPath_place p path ld ll d anc h (r.preorder d ++ rest)
    obtain ⟨path2, ld2, ll2, h2, e2⟩ := walkPath_places r path1 ld1 ll1 d anc h1 rest
    refine ⟨path2, ld2, ll2, h2, ?_⟩
    simp only [Places.preorder, Places.withPath, List.append_assoc]
    rw [e1, e2]
end

/-- C43: `walk_with_path` yields the nodes in walk order with the joined labels of their proper ancestors, and never
raises. -/
theorem C43_paths (p : Place) : placeWalkWithPath p = (p.withPath [], none) := by
  unfold placeWalkWithPath
  rw [C42_walk]
  obtain ⟨path', ld', ll', _, e⟩ := walkPath_place p [] 0 [] 0 [] ⟨rfl, rfl, Or.inr ⟨Nat.le_refl _, rfl⟩⟩ []
  rw [List.append_nil] at e
  rw [e]; simp [walkPathLoop]

mutual
theorem place_withPath_snd (anc : List Str) (d : Nat) : ∀ p : Place, (p.withPath anc).map Prod.snd = (p.preorder d).map Prod.snd
  | .node l r a k => by
    simp only [Place.withPath, Place.preorder, List.map_cons, places_withPath_snd (anc ++ [l]) (d + 1) k]
theorem places_withPath_snd (anc : List Str) (d : Nat) : ∀ k : Places, (k.withPath anc).map Prod.snd = (k.preorder d).map Prod.snd
  | .nil => rfl
  | .cons _ p r => by
    simp only [Places.withPath, Places.preorder, List.map_append, place_withPath_snd anc d p, places_withPath_snd anc d r]
end

/-- C43: the nodes are those of `walk`, in the same order. -/
theorem C43_order (p : Place) : (placeWalkWithPath p).1.map Prod.snd = (placeWalk p).map Prod.snd := by
  rw [C43_paths, C42_walk]; exact place_withPath_snd [] 0 p

/-! ### C45 -/

/-- C45: `find_all` returns exactly the nodes with the label, with their ancestor paths, in walk order. -/
theorem C45_find_all (p : Place) (label : Str) :
    placeFindAll p label = .ok ((p.withPath []).filter (fun x => x.2.label = label)) := by
  unfold placeFindAll; rw [C43_paths]

/-! ### C44 -/

theorem mem_items_of_get? {k : Places} {key : Str} {p : Place} (h : k.get? key = some p) : (key, p) ∈ k.items :=
  Dict.mem_of_get?_eq_some h

theorem get?_of_mem_items {k : Places} {key : Str} {p : Place} (hd : (k.items.map Prod.fst).Nodup) (h : (key, p) ∈ k.items) :
    k.get? key = some p := (Dict.get?_eq_some_iff hd key p).2 h

theorem keysDistinct_items : ∀ (k : Places), k.keysDistinct → ∀ kp ∈ k.items, kp.2.keysDistinct
  | .nil, _, kp, hm => by simp [Places.items] at hm
  | .cons key p r, h, kp, hm => by
    simp only [Places.items, List.mem_cons] at hm
    simp only [Places.keysDistinct] at h
    rcases hm with rfl | hm
    · exact h.1
    · exact keysDistinct_items r h.2 kp hm

theorem keysDistinct_node {p : Place} (h : p.keysDistinct) :
    (p.kids.items.map Prod.fst).Nodup ∧ ∀ kp ∈ p.kids.items, kp.2.keysDistinct := by
  obtain ⟨l, r, a, k⟩ := p
  simp only [Place.keysDistinct] at h
  exact ⟨h.1, keysDistinct_items k h.2⟩

theorem height_items : ∀ (k : Places) (kp : Str × Place), kp ∈ k.items → kp.2.height ≤ k.height
  | .nil, kp, hm => by simp [Places.items] at hm
  | .cons key p r, kp, hm => by
    simp only [Places.items, List.mem_cons] at hm
    simp only [Places.height]
    rcases hm with rfl | hm
    · exact Nat.le_max_left _ _
    · exact Nat.le_trans (height_items r kp hm) (Nat.le_max_right _ _)

theorem follow_append' (p : Place) (a b : List Str) :
    Spec.followKeys p (a ++ b) = (Spec.followKeys p a).bind (fun c => Spec.followKeys c b) := by
  induction a generalizing p with
  | nil => rfl
  | cons k a ih =>
    simp only [List.cons_append, Spec.followKeys]
    cases p.kids.get? k with
    | none => rfl
    | some c => simp only [Option.bind_some, ih]

/-- What a level of the search yields. -/
theorem findLevel_spec (label : Str) (l next : List (List Str × Place)) :
    (∃ pre path node post target, l = pre ++ (path, node) :: post ∧ node.kids.get? label = some target ∧
      findLevel label l next = .inl (target, path ++ [label])) ∨
    ((∀ x ∈ l, x.2.kids.get? label = none) ∧
      findLevel label l next = .inr (next ++ l.flatMap (fun x => x.2.kids.items.map (fun kp => (x.1 ++ [kp.1], kp.2))))) := by
  induction l generalizing next with
  | nil => right; simp [findLevel]
  | cons x l ih =>
    obtain ⟨path, node⟩ := x
    cases hg : node.kids.get? label with
    | some target => left; exact ⟨[], path, node, l, target, rfl, hg, by simp [findLevel, hg]⟩
    | none =>
      rcases ih (next ++ node.kids.items.map (fun kp => (path ++ [kp.1], kp.2))) with
        ⟨pre, path', node', post, target, h1, h2, h3⟩ | ⟨h1, h2⟩
      · left
        exact ⟨(path, node) :: pre, path', node', post, target, by rw [h1]; rfl, h2, by simp [findLevel, hg, h3]⟩
      · right
        refine ⟨?_, by simp [findLevel, hg, h2]⟩
        intro x hx
        rcases List.mem_cons.1 hx with rfl | hx
        · exact hg
        · exact h1 x hx

/-- A frontier is the set of all nodes at a depth. -/
def IsLevel (p : Place) (d : Nat) (frontier : List (List Str × Place)) : Prop :=
  ∀ path node, (path, node) ∈ frontier ↔ path.length = d ∧ Spec.followKeys p path = some node

theorem keysDistinct_follow {p : Place} (h : p.keysDistinct) (path : List Str) (node : Place)
    (hf : Spec.followKeys p path = some node) : node.keysDistinct := by
  induction path generalizing p with
  | nil => cases hf; exact h
  | cons k path ih =>
    simp only [Spec.followKeys] at hf
    cases hg : p.kids.get? k with
    | none => rw [hg] at hf; cases hf
    | some c =>
      rw [hg] at hf
      exact ih ((keysDistinct_node h).2 _ (mem_items_of_get? hg)) hf

theorem follow_height {p : Place} (path : List Str) (node : Place) (hf : Spec.followKeys p path = some node) :
    path.length + node.height ≤ p.height := by
  induction path generalizing p with
  | nil => cases hf; simp
  | cons k path ih =>
    simp only [Spec.followKeys] at hf
    cases hg : p.kids.get? k with
    | none => rw [hg] at hf; cases hf
    | some c =>
      rw [hg] at hf
      have h1 := ih hf
      have h2 := height_items _ _ (mem_items_of_get? hg)
      obtain ⟨l, r, a, ks⟩ := p
      simp only [Place.kids, Place.height, List.length_cons] at *
      omega

theorem follow_snoc (p : Place) (path : List Str) (k : Str) :
    Spec.followKeys p (path ++ [k]) = (Spec.followKeys p path).bind (fun c => c.kids.get? k) := by
  rw [follow_append']
  congr 1
  funext c
  simp [Spec.followKeys]

theorem isLevel_next {p : Place} (hk : p.keysDistinct) {d : Nat} {fr : List (List Str × Place)} (h : IsLevel p d fr)
    {next : List (List Str × Place)}
    (hn : next.Perm (fr.flatMap (fun x => x.2.kids.items.map (fun kp => (x.1 ++ [kp.1], kp.2))))) :
    IsLevel p (d + 1) next := by
  intro path node
  rw [hn.mem_iff]
  simp only [List.mem_flatMap, List.mem_map]
  constructor
  · rintro ⟨⟨path0, node0⟩, hm, ⟨k, c⟩, hkc, e⟩
    cases e
    obtain ⟨h1, h2⟩ := (h _ _).1 hm
    refine ⟨by simp [h1], ?_⟩
    rw [follow_snoc, h2]
    exact get?_of_mem_items (keysDistinct_node (keysDistinct_follow hk _ _ h2)).1 hkc
  · rintro ⟨h1, h2⟩
    rcases List.eq_nil_or_concat path with rfl | ⟨path0, k, rfl⟩
    · simp at h1
    · rw [List.concat_eq_append] at *
      rw [follow_snoc] at h2
      cases hf : Spec.followKeys p path0 with
      | none => rw [hf] at h2; cases h2
      | some node0 =>
        rw [hf] at h2
        exact ⟨(path0, node0), (h _ _).2 ⟨by simpa using h1, hf⟩, (k, node), mem_items_of_get? h2, rfl⟩

theorem findLoop_spec (shuffle : Nat → List (List Str × Place) → List (List Str × Place))
    (hs : ∀ n l, (shuffle n l).Perm l) (label : Str) (p : Place) (hk : p.keysDistinct) (fuel n d : Nat)
    (fr : List (List Str × Place)) (h : IsLevel p d fr) (hfuel : p.height < d + fuel) (hd : fuel = 0 → fr = [])
    (hno : ∀ path, path.length ≤ d → Spec.followKeys p path ≠ none → path.getLast? ≠ some label) :
    (∃ target path, findLoop shuffle label fuel n fr = .ok (target, path) ∧ Spec.followKeys p path = some target ∧
      path.getLast? = some label ∧
      ∀ path', Spec.followKeys p path' ≠ none → path'.getLast? = some label → path.length ≤ path'.length) ∨
    (findLoop shuffle label fuel n fr = .error .keyError ∧
      ∀ path', Spec.followKeys p path' ≠ none → path'.getLast? ≠ some label) := by
  induction fuel generalizing n d fr with
  | zero =>
    right
    refine ⟨rfl, ?_⟩
    intro path' hf
    apply hno path' _ hf
    obtain ⟨node, hn⟩ := Option.ne_none_iff_exists'.1 hf
    have := follow_height path' node hn
    omega
  | succ fuel ih =>
    unfold findLoop
    rcases findLevel_spec label fr.reverse [] with ⟨pre, path, node, post, target, h1, h2, h3⟩ | ⟨h1, h2⟩
    · left
      have hm : (path, node) ∈ fr := by
        rw [← List.mem_reverse, h1]; simp
      obtain ⟨e1, e2⟩ := (h _ _).1 hm
      refine ⟨target, path ++ [label], by rw [h3], ?_, by simp, ?_⟩
      · rw [follow_snoc, e2]; exact h2
      · intro path' hf hl
        have := hno path'
        by_cases hle : path'.length ≤ d
        · exact absurd hl (this hle hf)
        · simp only [List.length_append, List.length_cons, List.length_nil]; omega
    · rw [h2, List.nil_append]
      -- nothing at depth d+1 carries the label
      have hno' : ∀ path, path.length ≤ d + 1 → Spec.followKeys p path ≠ none → path.getLast? ≠ some label := by
        intro path hl hf hlast
        by_cases hle : path.length ≤ d
        · exact hno path hle hf hlast
        · rcases List.eq_nil_or_concat path with rfl | ⟨path0, k, rfl⟩
          · simp at hle
          · rw [List.concat_eq_append] at *
            simp only [List.getLast?_concat, Option.some.injEq] at hlast
            subst hlast
            rw [follow_snoc] at hf
            cases hf0 : Spec.followKeys p path0 with
            | none => rw [hf0] at hf; exact hf rfl
            | some node0 =>
              rw [hf0] at hf
              have hm : (path0, node0) ∈ fr := (h _ _).2 ⟨by simp at hl hle; omega, hf0⟩
              exact hf (h1 _ (List.mem_reverse.2 hm))
      have hperm : (fr.reverse.flatMap (fun x => x.2.kids.items.map (fun kp => (x.1 ++ [kp.1], kp.2)))).Perm
          (fr.flatMap (fun x => x.2.kids.items.map (fun kp => (x.1 ++ [kp.1], kp.2)))) :=
        (List.reverse_perm fr).flatMap_right _
      cases hnx : fr.reverse.flatMap (fun x => x.2.kids.items.map (fun kp => (x.1 ++ [kp.1], kp.2))) with
      | nil =>
        right
        refine ⟨rfl, ?_⟩
        intro path' hf
        have hlev : IsLevel p (d + 1) [] := isLevel_next hk h (hnx ▸ hperm)
        by_cases hle : path'.length ≤ d + 1
        · exact hno' path' hle hf
        · exfalso
          obtain ⟨node, hn⟩ := Option.ne_none_iff_exists'.1 hf
          rw [← List.take_append_drop (d + 1) path', follow_append'] at hn
          cases hf0 : Spec.followKeys p (path'.take (d + 1)) with
          | none => rw [hf0] at hn; cases hn
          | some node0 =>
            have := (hlev (path'.take (d + 1)) node0).2 ⟨by rw [List.length_take]; omega, hf0⟩
            cases this
      | cons y ys =>
        rw [← hnx]
        simp only [hnx]
        have hlev : IsLevel p (d + 1) (shuffle n (y :: ys)) :=
          isLevel_next hk h ((hs n _).trans (hnx ▸ hperm))
        refine ih (n + 1) (d + 1) _ hlev (by omega) ?_ hno'
        intro h0
        subst h0
        cases hsh : shuffle n (y :: ys) with
        | nil => rfl
        | cons z zs =>
          obtain ⟨e1, e2⟩ := (hlev z.1 z.2).1 (by rw [hsh]; simp)
          have := follow_height z.1 z.2 e2
          have hz : 0 < z.2.height := by
            obtain ⟨_, ⟨l, r, a, k⟩⟩ := z
            simp only [Place.height]; omega
          omega

/-- C44: for a label other than the place's own, whatever the shuffles: `find_node` returns a node reached by the
returned keys, the last of which is the label, and no key path ending in the label is shorter; it raises `KeyError`
exactly if there is no such path at all. -/
theorem C44_find_node (shuffle : Nat → List (List Str × Place) → List (List Str × Place))
    (hs : ∀ n l, (shuffle n l).Perm l) (p : Place) (hk : p.keysDistinct) (label : Str) (hl : label ≠ p.label) :
    (∃ target path, placeFindNode shuffle p label = .ok (some (target, path)) ∧ Spec.followKeys p path = some target ∧
      path.getLast? = some label ∧
      ∀ path', Spec.followKeys p path' ≠ none → path'.getLast? = some label → path.length ≤ path'.length) ∨
    (placeFindNode shuffle p label = .error .keyError ∧
      ∀ path', Spec.followKeys p path' ≠ none → path'.getLast? ≠ some label) := by
  have hlev : IsLevel p 0 [([], p)] := by
    intro path node
    simp only [List.mem_singleton, Prod.mk.injEq, List.length_eq_zero_iff]
    constructor
    · rintro ⟨rfl, rfl⟩; exact ⟨rfl, rfl⟩
    · rintro ⟨rfl, h⟩; cases h; exact ⟨rfl, rfl⟩
  have := findLoop_spec shuffle hs label p hk (p.height + 1) 0 0 [([], p)] hlev (by omega) (by simp) (by
    intro path hle _
    have : path = [] := List.length_eq_zero_iff.1 (by omega)
    subst this; simp)
  unfold placeFindNode
  rw [if_neg hl]
  rcases this with ⟨target, path, h1, h2⟩ | ⟨h1, h2⟩
  · left; exact ⟨target, path, by rw [h1]; rfl, h2⟩
  · right; exact ⟨by rw [h1]; rfl, h2⟩

/-- C44: for the place's own label the result is the empty list, without any search. -/
theorem C44_own_label (shuffle : Nat → List (List Str × Place) → List (List Str × Place)) (p : Place) :
    placeFindNode shuffle p p.label = .ok none := by
  unfold placeFindNode; simp

/-! ### C41 -/

theorem isInfix_space_word {l : Str} (h : Word l) : isInfix u!" " l = false := by
  rw [Bool.eq_false_iff]
  intro hm
  simp only [isInfix_singleton] at hm
  have := h.2 _ hm
  exact absurd this (by decide)

theorem readReading_text (r : Option Str) (h : ∀ x, r = some x → Word x ∧ x ≠ u!"None") : readReading (readingText r) = r := by
  cases r with
  | none => rfl
  | some x => simp [readReading, readingText, (h x rfl).2]

theorem word_readingText (r : Option Str) (h : ∀ x, r = some x → Word x ∧ x ≠ u!"None") : Word (readingText r) := by
  cases r with
  | none => decide
  | some x => exact (h x rfl).1

theorem word_showNat (n : Nat) : Word (showNat n) :=
  ⟨showNat_ne_nil n, fun c hc => asciiDigit_not_space (showNat_digits n c hc)⟩

theorem placeFromLine_toLine (r : Str → Str) (d : Nat) (label : Str) (reading : Option Str) (hl : Word label)
    (hr : ∀ x, reading = some x → Word x ∧ x ≠ u!"None") :
    placeFromLine (placeToLine r d label reading none ++ u!"\n") = .ok ((d : Int), label, reading, none) := by
  have hw : splitWs (rstrip (placeToLine r d label reading none ++ u!"\n")) = [showNat d, label, readingText reading] := by
    rw [splitWs_rstrip]
    have e : placeToLine r d label reading none ++ u!"\n" =
        join [0x20] [showNat d, label, readingText reading] ++ u!"\n" := by
      simp [placeToLine, join, List.append_assoc]
    rw [e]
    unfold splitWs
    rw [splitWsAux_append_spaces _ _ (by decide)]
    exact splitWs_join _ (by
      intro w hw
      simp only [List.mem_cons, List.not_mem_nil, or_false] at hw
      rcases hw with rfl | rfl | rfl
      · exact word_showNat d
      · exact hl
      · exact word_readingText reading hr)
  unfold placeFromLine
  rw [hw]
  simp only [pyInt_showNat, bind_ok, readReading_text reading hr]
  have hi : placeInit label reading none = .ok () := by
    unfold placeInit
    rw [if_neg]
    rintro (h | h | h)
    · rw [isInfix_space_word hl] at h; cases h
    · cases reading with
      | none => revert h; decide
      | some x => rw [show (some x).getD [] = x from rfl, isInfix_space_word (hr x rfl).1] at h; cases h
    · revert h; decide
  rw [hi]; rfl

mutual
/-- The store built for a hierarchy whose places get references from `n` on, in pre-order. -/
def Place.enc (n : Nat) : Place → List PNode
  | .node l r a k => ⟨l, r, a, k.refs (n + 1)⟩ :: k.enc (n + 1)
def Places.enc (n : Nat) : Places → List PNode
  | .nil => []
  | .cons _ p rest => p.enc n ++ rest.enc (n + p.size)
/-- The dictionary of the entries. -/
def Places.refs (n : Nat) : Places → Dict Str Nat
  | .nil => []
  | .cons key p rest => (key, n) :: rest.refs (n + p.size)
end

theorem Places.keys_refs (n : Nat) : ∀ k : Places, Dict.keys (k.refs n) = k.items.map Prod.fst
  | .nil => rfl
  | .cons key p rest => by
    have := Places.keys_refs (n + p.size) rest
    simp only [Dict.keys] at this ⊢
    simp only [Places.refs, Places.items, List.map_cons, this]

mutual
theorem place_enc_length (n : Nat) : ∀ p : Place, (p.enc n).length = p.size
  | .node l r a k => by simp only [Place.enc, Place.size, List.length_cons, places_enc_length (n + 1) k]; omega
theorem places_enc_length (n : Nat) : ∀ k : Places, (k.enc n).length = k.size
  | .nil => rfl
  | .cons _ p rest => by
    simp only [Places.enc, Places.size, List.length_append, place_enc_length n p, places_enc_length (n + p.size) rest]
end

mutual
theorem holds_enc (pre post : List PNode) (n : Nat) (hn : pre.length = n) :
    ∀ p : Place, Spec.Holds (pre ++ p.enc n ++ post) n p
  | .node l r a k => by
    have h := holdsAll_enc (pre ++ [⟨l, r, a, k.refs (n + 1)⟩]) post (n + 1) (by simp [hn]) k
    have e : pre ++ [⟨l, r, a, k.refs (n + 1)⟩] ++ k.enc (n + 1) ++ post = pre ++ (Place.node l r a k).enc n ++ post := by
      simp [Place.enc]
    rw [e] at h
    refine ⟨⟨l, r, a, k.refs (n + 1)⟩, ?_, rfl, rfl, rfl, h⟩
    simp [Place.enc, ← hn]
theorem holdsAll_enc (pre post : List PNode) (n : Nat) (hn : pre.length = n) :
    ∀ k : Places, Spec.HoldsAll (pre ++ k.enc n ++ post) (k.refs n) k
  | .nil => rfl
  | .cons key p rest => by
    refine ⟨n, rest.refs (n + p.size), rfl, ?_, ?_⟩
    · have := holds_enc pre (rest.enc (n + p.size) ++ post) n hn p
      simpa [Places.enc, List.append_assoc] using this
    · have := holdsAll_enc (pre ++ p.enc n) post (n + p.size) (by simp [hn, place_enc_length]) rest
      simpa [Places.enc, List.append_assoc] using this
end

/-- Adding entries to a place of the store. -/
def addKids (st : PStore) (x : Nat) (K : Dict Str Nat) : PStore := st.modify x (fun n => { n with kids := n.kids ++ K })

theorem addKids_nil (st : PStore) (x : Nat) : addKids st x [] = st := by
  unfold addKids
  apply List.ext_getElem?
  intro i
  rw [List.getElem?_modify]
  cases st[i]? <;> simp

theorem addKids_append (st : PStore) (x : Nat) (more : PStore) (K : Dict Str Nat) (hx : x < st.length) :
    addKids (st ++ more) x K = addKids st x K ++ more := by
  unfold addKids
  apply List.ext_getElem?
  intro i
  rw [List.getElem?_modify]
  by_cases hi : i < st.length
  · rw [List.getElem?_append_left hi, List.getElem?_append_left (by simpa using hi), List.getElem?_modify]
  · have : x ≠ i := by omega
    rw [List.getElem?_append_right (by omega), List.getElem?_append_right (by simp; omega)]
    simp [this]

theorem addKids_add (st : PStore) (x : Nat) (K L : Dict Str Nat) :
    addKids (addKids st x K) x L = addKids st x (K ++ L) := by
  unfold addKids
  apply List.ext_getElem?
  intro i
  simp only [List.getElem?_modify]
  cases st[i]? with
  | none => rfl
  | some n => by_cases h : x = i <;> simp [h, List.append_assoc]

theorem addKids_length (st : PStore) (x : Nat) (K : Dict Str Nat) : (addKids st x K).length = st.length := by
  unfold addKids; simp

theorem addKids_get (st : PStore) (x : Nat) (K : Dict Str Nat) :
    (addKids st x K)[x]? = (st[x]?).map (fun n => { n with kids := n.kids ++ K }) := by
  unfold addKids; rw [List.getElem?_modify]; simp

theorem addKids_concat (st : PStore) (nd : PNode) (K : Dict Str Nat) :
    addKids (st ++ [nd]) st.length K = st ++ [{ nd with kids := nd.kids ++ K }] := by
  unfold addKids
  apply List.ext_getElem?
  intro i
  rw [List.getElem?_modify]
  by_cases hi : i < st.length
  · have : st.length ≠ i := by omega
    rw [List.getElem?_append_left hi, List.getElem?_append_left hi]; simp [this]
  · rw [List.getElem?_append_right (by omega), List.getElem?_append_right (by omega)]
    by_cases h : i = st.length
    · subst h; simp
    · have : i - st.length ≠ 0 := by omega
      obtain ⟨m, hm⟩ := Nat.exists_eq_succ_of_ne_zero this
      simp [hm]

/-- The state of the loader: where a line of depth `d` would be attached. -/
def LoadAt (st : LoadState) (d : Nat) (Q : List Nat) : Prop :=
  ∃ ld : Nat, st.lastDepth = ld ∧ st.path.length = ld + 1 ∧
    ((d = ld + 1 ∧ Q = st.path ++ [st.lastNode]) ∨ (d ≤ ld ∧ Q = st.path.take (d + 1)))

theorem loadPath_at {st : LoadState} {d : Nat} {Q : List Nat} (h : LoadAt st d Q) : loadPath st d = .ok Q := by
  obtain ⟨ld, h1, h2, ⟨rfl, rfl⟩ | ⟨h3, rfl⟩⟩ := h
  · unfold loadPath; rw [h1]; simp
  · unfold loadPath
    rw [h1, if_neg (by omega)]
    by_cases e : d = ld
    · subst e; simp [List.take_of_length_le (Nat.le_of_eq h2)]
    · rw [if_neg (by omega), if_pos (by omega)]
      unfold dropEnd
      rw [h2, show ld + 1 - ((ld : Int) - d).toNat = d + 1 by omega]

theorem loadAt_length {st : LoadState} {d : Nat} {Q : List Nat} (h : LoadAt st d Q) : Q.length = d + 1 := by
  obtain ⟨ld, h1, h2, ⟨rfl, rfl⟩ | ⟨h3, rfl⟩⟩ := h
  · simp [h2]
  · rw [List.length_take]; omega

/-- The line of a place. -/
def lineOf (r : Str → Str) (dp : Nat × Place) : Str := placeToLine r dp.1 dp.2.label dp.2.reading dp.2.aliases ++ u!"\n"

theorem loadLoop_append (st : LoadState) (a b : List Str) :
    loadLoop st (a ++ b) = (loadLoop st a).bind (fun st' => loadLoop st' b) := by
  induction a generalizing st with
  | nil => rfl
  | cons l a ih =>
    simp only [List.cons_append, loadLoop]
    cases h : loadStep st l with
    | error e => rfl
    | ok st1 => simp only [bind_ok, ih]

mutual
theorem load_place (r : Str → Str) (p : Place) (hp : p.storable) (st : LoadState) (d : Nat) (Q : List Nat) (x : Nat)
    (h : LoadAt st d Q) (hQ : Q.getLast? = some x) (nd : PNode) (hx : st.store[x]? = some nd)
    (hfresh : p.label ∉ Dict.keys nd.kids) :
    ∃ st', loadLoop st ((p.preorder d).map (lineOf r)) = .ok st' ∧ LoadAt st' d Q ∧
      st'.store = addKids st.store x [(p.label, st.store.length)] ++ p.enc st.store.length := by
  match p with
  | .node l rd a k =>
    obtain ⟨hl, hr, ha, hnd, hk⟩ := hp
    subst ha
    have hxl : x < st.store.length := (List.getElem?_eq_some_iff.1 hx).1
    -- the line of the place itself
    have hstep : loadStep st (lineOf r (d, .node l rd none k)) =
        .ok ⟨addKids st.store x [(l, st.store.length)] ++ [⟨l, rd, none, []⟩], Q, d, st.store.length⟩ := by
      unfold loadStep lineOf
      simp only [Place.label, Place.reading, Place.aliases]
      rw [placeFromLine_toLine r d l rd hl hr]
      simp only [bind_ok, loadPath_at h, storeAppend, hQ]
      congr 2
      rw [← addKids_append _ _ _ _ hxl]
      unfold addKids
      apply List.ext_getElem?
      intro i
      rw [List.getElem?_modify, List.getElem?_modify]
      by_cases hi : x = i
      · subst hi
        rw [List.getElem?_append_left hxl, hx]
        have := Dict.set_of_not_mem nd.kids l st.store.length hfresh
        simp [this]
      · simp [hi]
    let st1 : LoadState := ⟨addKids st.store x [(l, st.store.length)] ++ [⟨l, rd, none, []⟩], Q, d, st.store.length⟩
    have hQl := loadAt_length h
    have h1 : LoadAt st1 (d + 1) (Q ++ [st.store.length]) := ⟨d, rfl, hQl, Or.inl ⟨rfl, rfl⟩⟩
    obtain ⟨st2, e2, h2, s2⟩ := load_places r k hk st1 (d + 1) (Q ++ [st.store.length]) st.store.length h1
      (by simp) ⟨l, rd, none, []⟩ (by
        show (addKids st.store x [(l, st.store.length)] ++ [_])[st.store.length]? = _
        rw [List.getElem?_append_right (by rw [addKids_length]; exact Nat.le_refl _)]; simp [addKids_length]) hnd (by simp [Dict.keys])
    refine ⟨st2, ?_, ?_, ?_⟩
    · simp only [Place.preorder, List.map_cons, loadLoop]
      rw [hstep]
      exact e2
    · obtain ⟨ld, a1, a2, a3⟩ := h2
      refine ⟨ld, a1, a2, Or.inr ?_⟩
      rcases a3 with ⟨b1, b2⟩ | ⟨b1, b2⟩
      · have := List.append_inj_left' b2 rfl
        refine ⟨by omega, ?_⟩
        rw [← this, List.take_of_length_le (by omega)]
      · refine ⟨by omega, ?_⟩
        have := congrArg (List.take (d + 1)) b2
        rw [List.take_take, show min (d + 1) (d + 1 + 1) = d + 1 by omega, List.take_append_of_le_length (by omega),
          List.take_of_length_le (by omega)] at this
        exact this
    · rw [s2]
      show addKids (addKids st.store x [(l, st.store.length)] ++ [⟨l, rd, none, []⟩]) st.store.length _ ++ _ = _
      have el : st1.store.length = st.store.length + 1 := by
        show (addKids st.store x [(l, st.store.length)] ++ [_]).length = _
        simp [addKids_length]
      rw [el]
      have := addKids_concat (addKids st.store x [(l, st.store.length)]) ⟨l, rd, none, []⟩ (k.refs (st.store.length + 1))
      rw [addKids_length] at this
      rw [this]
      simp [Place.enc, Place.label]
theorem load_places (r : Str → Str) (k : Places) (hk : k.storable) (st : LoadState) (d : Nat) (Q : List Nat) (x : Nat)
    (h : LoadAt st d Q) (hQ : Q.getLast? = some x) (nd : PNode) (hx : st.store[x]? = some nd)
    (hnd : (k.items.map Prod.fst).Nodup) (hfresh : ∀ key ∈ k.items.map Prod.fst, key ∉ Dict.keys nd.kids) :
    ∃ st', loadLoop st ((k.preorder d).map (lineOf r)) = .ok st' ∧ LoadAt st' d Q ∧
      st'.store = addKids st.store x (k.refs st.store.length) ++ k.enc st.store.length := by
  match k with
  | .nil => exact ⟨st, rfl, h, by simp [Places.refs, Places.enc, addKids_nil]⟩
  | .cons key p rest =>
    obtain ⟨hkey, hp, hrest⟩ := hk
    have hxl : x < st.store.length := (List.getElem?_eq_some_iff.1 hx).1
    simp only [Places.items, List.map_cons, List.nodup_cons] at hnd
    obtain ⟨st1, e1, h1, s1⟩ := load_place r p hp st d Q x h hQ nd hx (by
      rw [← hkey]; exact hfresh key (by simp [Places.items]))
    have hx1 : st1.store[x]? = some { nd with kids := nd.kids ++ [(p.label, st.store.length)] } := by
      rw [s1, List.getElem?_append_left (by rw [addKids_length]; exact hxl), addKids_get, hx]; rfl
    obtain ⟨st2, e2, h2, s2⟩ := load_places r rest hrest st1 d Q x h1 hQ _ hx1 hnd.2 (by
      intro key' hk' hm
      simp only [Dict.keys, List.map_append, List.mem_append, List.map_cons, List.map_nil, List.mem_singleton] at hm
      rcases hm with hm | hm
      · exact hfresh key' (by simp only [Places.items, List.map_cons]; exact List.mem_cons_of_mem _ hk') hm
      · rw [hm, ← hkey] at hk'; exact hnd.1 hk')
    refine ⟨st2, ?_, h2, ?_⟩
    · simp only [Places.preorder, List.map_append]
      rw [loadLoop_append, e1]; exact e2
    · have el : st1.store.length = st.store.length + p.size := by
        rw [s1]; simp [addKids_length, place_enc_length]
      rw [s2, el, s1, addKids_append _ _ _ _ (by rw [addKids_length]; exact hxl), addKids_add, hkey]
      simp [Places.refs, Places.enc, List.append_assoc]
end

theorem placeDump_eq (r : Str → Str) (p : Place) : placeDump r p = (p.preorder 0).map (lineOf r) := by
  unfold placeDump; rw [C42_walk]; rfl

/-- C41, for hierarchies without aliases: `from_file` on the dumped lines gives the same hierarchy: labels, readings,
absence of aliases, entries and their order.  Missing: places with aliases, for which the claim fails, see
`C41_aliases_refuted`. -/
theorem C41_roundtrip_partial (r : Str → Str) (p : Place) (hp : p.storable) :
    ∃ st, placeFromFile (placeDump r p) = .ok st ∧ Spec.Holds st 0 p := by
  rw [placeDump_eq]
  match p with
  | .node l rd a k =>
    obtain ⟨hl, hr, ha, hnd, hk⟩ := hp
    subst ha
    have h1 : LoadAt ⟨[⟨l, rd, none, []⟩], [0], 0, 0⟩ 1 [0, 0] := ⟨0, rfl, rfl, Or.inl ⟨rfl, rfl⟩⟩
    obtain ⟨st, e, _, s⟩ := load_places r k hk ⟨[⟨l, rd, none, []⟩], [0], 0, 0⟩ 1 [0, 0] 0 h1 rfl ⟨l, rd, none, []⟩ rfl hnd
      (by simp [Dict.keys])
    refine ⟨st.store, ?_, ?_⟩
    · simp only [Place.preorder, List.map_cons, placeFromFile]
      rw [show lineOf r (0, .node l rd none k) = placeToLine r 0 l rd none ++ u!"\n" from rfl,
        placeFromLine_toLine r 0 l rd hl hr]
      simp only [bind_ok]
      rw [if_neg (by simp), e]; rfl
    · have : st.store = [] ++ (Place.node l rd none k).enc 0 ++ [] := by
        rw [s]
        simp [addKids, Place.enc]
      rw [this]
      exact holds_enc [] [] 0 rfl _

/-! #### Aliases -/

/-- The pieces of the printed alias list. -/
theorem listRepr_words (xs : List Str) : ∀ (pre x : Str), (∀ c ∈ pre, isSpace c = false) → Word x → (∀ y ∈ xs, Word y) →
    ∃ ws : List Str, ws.length = xs.length + 1 ∧ (∀ w ∈ ws, Word w) ∧ pre ++ join u!", " (x :: xs) ++ u!"]" = join [0x20] ws := by
  induction xs with
  | nil =>
    intro pre x hpre hx _
    refine ⟨[pre ++ x ++ u!"]"], rfl, ?_, by simp [join]⟩
    intro w hw
    simp only [List.mem_singleton] at hw
    subst hw
    refine ⟨by simp, ?_⟩
    intro c hc
    simp only [List.mem_append, List.mem_singleton] at hc
    rcases hc with (hc | hc) | rfl
    · exact hpre c hc
    · exact hx.2 c hc
    · decide
  | cons y ys ih =>
    intro pre x hpre hx hys
    obtain ⟨ws, h1, h2, h3⟩ := ih [] y (by simp) (hys y (by simp)) (fun z hz => hys z (by simp [hz]))
    refine ⟨(pre ++ x ++ u!",") :: ws, by simp [h1], ?_, ?_⟩
    · intro w hw
      rcases List.mem_cons.1 hw with rfl | hw
      · refine ⟨by simp, ?_⟩
        intro c hc
        simp only [List.mem_append, List.mem_singleton] at hc
        rcases hc with (hc | hc) | rfl
        · exact hpre c hc
        · exact hx.2 c hc
        · decide
      · exact h2 w hw
    · cases ws with
      | nil => simp at h1
      | cons w ws =>
        rw [join_cons_cons, join_cons_cons, ← h3]
        simp [List.append_assoc]

theorem storeAppend_aliases {st st' : PStore} {path : List Nat} {n : Nat} {l : Str} (h : storeAppend st path n l = .ok st') (i : Nat) :
    st'[i]?.map PNode.aliases = st[i]?.map PNode.aliases := by
  unfold storeAppend at h
  split at h
  · cases h
  · rename_i p _
    cases h
    rw [List.getElem?_modify]
    cases st[i]? with
    | none => rfl
    | some nd => by_cases hp : p = i <;> simp [hp]

theorem loadLoop_aliases (lines : List Str) : ∀ (st st' : LoadState) (a : Option (List Str)),
    loadLoop st lines = .ok st' → st.store[0]?.map PNode.aliases = some a → st'.store[0]?.map PNode.aliases = some a := by
  induction lines with
  | nil => intro st st' a h ha; cases h; exact ha
  | cons l ls ih =>
    intro st st' a h ha
    simp only [loadLoop] at h
    obtain ⟨st1, e1, e2⟩ := bind_eq_ok.1 h
    refine ih st1 st' a e2 ?_
    unfold loadStep at e1
    obtain ⟨⟨d, lb, rd, al⟩, _, e1⟩ := bind_eq_ok.1 e1
    obtain ⟨path, _, e1⟩ := bind_eq_ok.1 e1
    obtain ⟨store, e3, e1⟩ := bind_eq_ok.1 e1
    cases e1
    rw [storeAppend_aliases e3]
    cases hs : st.store with
    | nil => rw [hs] at ha; cases ha
    | cons n ns => rw [hs] at ha; simpa using ha

/-- C41 fails for places with aliases: their list is printed as Python prints lists but read as a colon-separated text.
Whatever the place, its entries, and the `repr` of strings (which has quotes around the text): reading back the dump of a
place with aliases never gives the same place. -/
theorem C41_aliases_refuted (r : Str → Str) (hr : ∀ s, Word s → Word (r s) ∧ s.length + 2 ≤ (r s).length)
    (l : Str) (hl : Word l) (rd : Option Str) (hrd : ∀ x, rd = some x → Word x ∧ x ≠ u!"None")
    (a : Str) (as : List Str) (has : ∀ x ∈ a :: as, Word x) (k : Places) :
    ¬ ∃ st, placeFromFile (placeDump r (.node l rd (some (a :: as)) k)) = .ok st ∧
      Spec.Holds st 0 (.node l rd (some (a :: as)) k) := by
  rintro ⟨st, h1, h2⟩
  rw [placeDump_eq] at h1
  simp only [Place.preorder, List.map_cons, placeFromFile] at h1
  obtain ⟨⟨d', l', rd', al'⟩, e1, h1⟩ := bind_eq_ok.1 h1
  -- the pieces of the first line
  obtain ⟨ws, w1, w2, w3⟩ := listRepr_words (as.map r) u!"[" (r a) (by decide) (hr a (has a (by simp))).1 (by
    intro y hy
    obtain ⟨x, hx, rfl⟩ := List.mem_map.1 hy
    exact (hr x (has x (by simp [hx]))).1)
  have hline : splitWs (rstrip (lineOf r (0, .node l rd (some (a :: as)) k))) = showNat 0 :: l :: readingText rd :: ws := by
    rw [splitWs_rstrip]
    have e : lineOf r (0, .node l rd (some (a :: as)) k) = join [0x20] (showNat 0 :: l :: readingText rd :: ws) ++ u!"\n" := by
      cases ws with
      | nil => simp at w1
      | cons w ws =>
        rw [join_cons_cons, join_cons_cons, join_cons_cons, ← w3]
        simp [lineOf, placeToLine, Place.label, Place.reading, Place.aliases, listRepr, List.append_assoc]
    rw [e]
    unfold splitWs
    rw [splitWsAux_append_spaces _ _ (by decide)]
    exact splitWs_join _ (by
      intro w hw
      simp only [List.mem_cons] at hw
      rcases hw with rfl | rfl | rfl | hw
      · exact word_showNat 0
      · exact hl
      · exact word_readingText rd hrd
      · exact w2 w hw)
  unfold placeFromLine at e1
  rw [hline] at e1
  -- the aliases that were read
  have hal : al' ≠ some (a :: as) := by
    intro hal
    cases ws with
    | nil => simp at w1
    | cons w ws =>
      cases ws with
      | cons w' ws => cases e1
      | nil =>
        have has0 : as = [] := by simpa using w1
        subst has0
        simp only at e1
        obtain ⟨_, _, e1⟩ := bind_eq_ok.1 e1
        obtain ⟨_, _, e1⟩ := bind_eq_ok.1 e1
        cases e1
        simp only [Option.some.injEq] at hal
        have hj := join_splitChr c!":" w
        rw [hal] at hj
        simp only [List.map_nil, join] at w3 hj
        have := (hr a (has a (by simp))).2
        have := congrArg List.length w3
        rw [← hj] at this
        simp at this
        omega
  by_cases hd : d' ≠ 0
  · rw [if_pos hd] at h1; cases h1
  · rw [if_neg hd] at h1
    cases hll : loadLoop ⟨[⟨l', rd', al', []⟩], [0], 0, 0⟩ ((k.preorder (0 + 1)).map (lineOf r)) with
    | error e => rw [hll] at h1; cases h1
    | ok st1 =>
      rw [hll] at h1
      cases h1
      have := loadLoop_aliases _ _ _ al' hll rfl
      obtain ⟨n, n1, _, _, n2, _⟩ := h2
      rw [n1] at this
      simp only [Option.map_some, Option.some.injEq] at this
      rw [n2] at this
      exact hal this.symm

/-! ### The hypotheses can be met -/

/-- A small hierarchy. -/
def demoPlace : Place :=
  .node u!"world" none none
    (.cons u!"japan" (.node u!"japan" (some u!"nihon") none
        (.cons u!"tokyo" (.node u!"tokyo" (some u!"toukyou") none .nil)
        (.cons u!"paris" (.node u!"paris" none none .nil) .nil)))
    (.cons u!"france" (.node u!"france" none none
        (.cons u!"paris" (.node u!"paris" (some u!"pari") none .nil) .nil)) .nil))

instance : DecidablePred Word := fun s => by unfold Word; infer_instance

example : demoPlace.storable := by
  simp only [demoPlace, Place.storable, Places.storable, Places.items, Place.label, and_true, true_and, reduceCtorEq,
    false_implies, implies_true, Option.some.injEq, forall_eq', List.map_cons, List.map_nil]
  decide +kernel
example : demoPlace.keysDistinct := by
  simp only [demoPlace, Place.keysDistinct, Places.keysDistinct, Places.items, and_true]
  decide +kernel
example : placeDump id demoPlace = [u!"0 world None\n", u!"1 japan nihon\n", u!"2 tokyo toukyou\n", u!"2 paris None\n",
    u!"1 france None\n", u!"2 paris pari\n"] := by decide +kernel
example : (placeFromFile (placeDump id demoPlace)).map (fun st => st.map (fun n => (n.label, n.kids))) =
    .ok [(u!"world", [(u!"japan", 1), (u!"france", 4)]), (u!"japan", [(u!"tokyo", 2), (u!"paris", 3)]), (u!"tokyo", []),
      (u!"paris", []), (u!"france", [(u!"paris", 5)]), (u!"paris", [])] := by decide +kernel
example : (placeWalkWithPath demoPlace).1.map (fun x => (x.1, x.2.label)) =
    [(u!"", u!"world"), (u!"world", u!"japan"), (u!"world/japan", u!"tokyo"), (u!"world/japan", u!"paris"),
      (u!"world", u!"france"), (u!"world/france", u!"paris")] := by decide +kernel
example : (placeFindNode (fun _ l => l.reverse) demoPlace u!"paris").map (fun o => o.map Prod.snd) =
    .ok (some [u!"japan", u!"paris"]) := by decide +kernel
example : (placeFindNode (fun _ l => l) demoPlace u!"paris").map (fun o => o.map Prod.snd) =
    .ok (some [u!"france", u!"paris"]) := by decide +kernel
/-- The text between quotes satisfies the hypothesis on `repr`. -/
example : ∀ s, Word s → Word (u!"'" ++ s ++ u!"'") ∧ s.length + 2 ≤ (u!"'" ++ s ++ u!"'").length := by
  intro s hs
  refine ⟨⟨by simp, ?_⟩, by simp⟩
  intro c hc
  simp only [List.mem_append, List.mem_singleton] at hc
  rcases hc with (rfl | hc) | rfl
  · decide
  · exact hs.2 c hc
  · decide
/-- One alias comes back changed; two make the file unreadable. -/
example : placeFromLine (placeToLine (fun s => u!"'" ++ s ++ u!"'") 0 u!"edo" none (some [u!"tokyo"])) =
    .ok (0, u!"edo", none, some [u!"['tokyo']"]) := by decide +kernel
example : placeFromLine (placeToLine (fun s => u!"'" ++ s ++ u!"'") 0 u!"edo" none (some [u!"tokyo", u!"tokio"])) =
    .error .valueError := by decide +kernel

end Cjk
