import Verif.Props.TreeDraw
import Verif.Props.PruneTwice
/-!
# C176: a copy of a tree answers like the tree
-/

namespace Cjk
open Py

/-- What can be seen of a node by itself: its label, its attributes, and the labels its children are entered under. -/
def Spec.nodeView (h : Heap) (r : Nat) : Str × Attrib × List Str := ((h.node r).label, (h.node r).attrib, Dict.keys (h.node r).children)

/-- The same of a node of a tree. -/
def ATree.view (t : ATree) : Str × Attrib × List Str := (t.label, t.attrib, t.kids.items.map Prod.fst)

theorem Rep.view {h : Heap} {t : ATree} (hr : Rep h t) : Spec.nodeView h t.ref = t.view := by
  obtain ⟨h1, h2, h3⟩ := hr.lookup
  unfold Spec.nodeView ATree.view
  rw [h1, h2, h3, AForest.dict, Dict.keys, List.map_map]
  rfl

theorem view_bare {t t' : ATree} (h : t'.bare = t.bare) : t'.view = t.view := by
  obtain ⟨h1, h2, h3⟩ := bare_parts h
  have := congrArg (List.map Prod.fst) h3
  rw [List.map_map, List.map_map] at this
  unfold ATree.view
  rw [h1, h2]
  exact congrArg (fun x => (t.label, t.attrib, x)) this

mutual
theorem pre_alike (h h' : Heap) : ∀ t t' : ATree, Rep h t → Rep h' t' → t'.bare = t.bare →
    t'.pre.map (Spec.nodeView h') = t.pre.map (Spec.nodeView h) ∧ t'.post.map (Spec.nodeView h') = t.post.map (Spec.nodeView h)
  | .node r l a k, .node r' l' a' k', hr, hr', hb => by
    have hv := view_bare hb
    rw [← hr.view, ← hr'.view] at hv
    simp only [ATree.bare, ATree.node.injEq, true_and] at hb
    obtain ⟨h1, h2⟩ := pre_alike_kids h h' k k' hr.2 hr'.2 hb.2.2
    refine ⟨?_, ?_⟩
    · rw [ATree.pre, ATree.pre, List.map_cons, List.map_cons, h1]
      exact congrArg (· :: _) hv
    · rw [ATree.post, ATree.post, List.map_append, List.map_append, h2]
      exact congrArg (fun x => _ ++ [x]) hv
theorem pre_alike_kids (h h' : Heap) : ∀ k k' : AForest, RepF h k → RepF h' k' → k'.bare = k.bare →
    k'.pre.map (Spec.nodeView h') = k.pre.map (Spec.nodeView h) ∧ k'.post.map (Spec.nodeView h') = k.post.map (Spec.nodeView h)
  | .nil, .nil, _, _, _ => ⟨rfl, rfl⟩
  | .nil, .cons _ _ _, _, _, hb => by cases hb
  | .cons _ _ _, .nil, _, _, hb => by cases hb
  | .cons key t rest, .cons key' t' rest', hr, hr', hb => by
    simp only [AForest.bare, AForest.cons.injEq] at hb
    obtain ⟨a1, a2⟩ := pre_alike h h' t t' hr.1 hr'.1 hb.2.1
    obtain ⟨b1, b2⟩ := pre_alike_kids h h' rest rest' hr.2 hr'.2 hb.2.2
    refine ⟨?_, ?_⟩
    · rw [AForest.pre, AForest.pre, List.map_append, List.map_append, a1, b1]
    · rw [AForest.post, AForest.post, List.map_append, List.map_append, a2, b2]
end

theorem path_alike (h h' : Heap) : ∀ (ks : List Str) (t t' : ATree), Rep h t → Rep h' t' → t'.bare = t.bare →
    (∃ x x', getPath h t.ref ks = .ok x ∧ getPath h' t'.ref ks = .ok x' ∧ Spec.nodeView h' x' = Spec.nodeView h x) ∨
    (getPath h t.ref ks = .error .keyError ∧ getPath h' t'.ref ks = .error .keyError)
  | [], t, t', hr, hr', hb => Or.inl ⟨_, _, rfl, rfl, by rw [hr.view, hr'.view, view_bare hb]⟩
  | k :: ks, t, t', hr, hr', hb => by
    have hi := (bare_parts hb).2.2
    have hg : (Dict.get? t'.kids.items k).map ATree.bare = (Dict.get? t.kids.items k).map ATree.bare := by
      rw [← get?_map_snd, ← get?_map_snd, hi]
    have hd : ∀ (h : Heap) (t : ATree), Rep h t → Dict.getItem (h.node t.ref).children k =
        (match Dict.get? t.kids.items k with | some c => .ok c.ref | none => .error .keyError) := by
      intro h t hr
      unfold Dict.getItem
      rw [hr.lookup.2.1]
      unfold AForest.dict
      rw [get?_map_snd]
      cases Dict.get? t.kids.items k <;> rfl
    simp only [getPath]
    rw [hd h t hr, hd h' t' hr']
    cases h1 : Dict.get? t.kids.items k with
    | none =>
      rw [h1] at hg
      cases h2 : Dict.get? t'.kids.items k with
      | none => exact Or.inr ⟨rfl, rfl⟩
      | some c' => rw [h2] at hg; cases hg
    | some c =>
      rw [h1] at hg
      cases h2 : Dict.get? t'.kids.items k with
      | none => rw [h2] at hg; cases hg
      | some c' =>
        rw [h2] at hg
        exact path_alike h h' ks c c' (hr.kids _ (Dict.mem_of_get?_eq_some h1)) (hr'.kids _ (Dict.mem_of_get?_eq_some h2)) (Option.some.inj hg)

mutual
theorem level_alike : ∀ (t t' : ATree) (d : Nat), t'.bare = t.bare → (t'.level d).map ATree.label = (t.level d).map ATree.label
  | .node r l a k, .node r' l' a' k', 0, hb => by
    simp only [ATree.bare, ATree.node.injEq, true_and] at hb
    simp [ATree.level, ATree.label, hb.1]
  | .node r l a k, .node r' l' a' k', d + 1, hb => by
    simp only [ATree.bare, ATree.node.injEq, true_and] at hb
    rw [ATree.level, ATree.level]
    exact level_alike_kids k k' d hb.2.2
theorem level_alike_kids : ∀ (k k' : AForest) (d : Nat), k'.bare = k.bare → (k'.level d).map ATree.label = (k.level d).map ATree.label
  | .nil, .nil, _, _ => rfl
  | .nil, .cons _ _ _, _, hb => by cases hb
  | .cons _ _ _, .nil, _, hb => by cases hb
  | .cons key t rest, .cons key' t' rest', d, hb => by
    simp only [AForest.bare, AForest.cons.injEq] at hb
    rw [AForest.level, AForest.level, List.map_append, List.map_append, level_alike t t' d hb.2.1, level_alike_kids rest rest' d hb.2.2]
end

mutual
theorem sub_level (s : ATree) : ∀ t : ATree, s ∈ t.subs → ∃ d, s ∈ t.level d
  | .node r l a k => fun h => by
    rw [ATree.subs, List.mem_cons] at h
    rcases h with rfl | h
    · exact ⟨0, by simp [ATree.level]⟩
    · obtain ⟨d, hd⟩ := sub_level_kids s k h
      exact ⟨d + 1, by rw [ATree.level]; exact hd⟩
theorem sub_level_kids (s : ATree) : ∀ k : AForest, s ∈ k.subs → ∃ d, s ∈ k.level d
  | .nil => fun h => by cases h
  | .cons key t rest => fun h => by
    rw [AForest.subs, List.mem_append] at h
    rcases h with h | h
    · obtain ⟨d, hd⟩ := sub_level s t h
      exact ⟨d, by rw [AForest.level]; exact List.mem_append_left _ hd⟩
    · obtain ⟨d, hd⟩ := sub_level_kids s rest h
      exact ⟨d, by rw [AForest.level]; exact List.mem_append_right _ hd⟩
end

mutual
theorem level_sub (s : ATree) : ∀ (t : ATree) (d : Nat), s ∈ t.level d → s ∈ t.subs
  | .node r l a k, 0 => fun h => by rw [ATree.level, List.mem_singleton] at h; subst h; simp [ATree.subs]
  | .node r l a k, d + 1 => fun h => by
    rw [ATree.level] at h
    rw [ATree.subs]
    exact List.mem_cons_of_mem _ (level_sub_kids s k d h)
theorem level_sub_kids (s : ATree) : ∀ (k : AForest) (d : Nat), s ∈ k.level d → s ∈ k.subs
  | .nil, _ => fun h => by cases h
  | .cons key t rest, d => fun h => by
    rw [AForest.level, List.mem_append] at h
    rw [AForest.subs, List.mem_append]
    exact h.imp (level_sub s t d) (level_sub_kids s rest d)
end

/-- **C176** (copying).  The copy stands beside the unchanged tree, and the walks over both, in pre-order and in post-order, see the same labels, attributes and keys
of children in the same order. -/
theorem C176_walks (h : Heap) (t : ATree) (ht : IsTree h t) (hl : t.keysAreLabels) (hroot : parentTruthy h t.ref = false) (fuel : Nat) (hf : 2 * t.size < fuel) :
    ∃ h' r' pre pre' post post', treeCopy h fuel t.ref = some (.ok (h', r')) ∧
      walkPre h' fuel t.ref = some pre ∧ walkPre h' fuel r' = some pre' ∧ pre'.map (Spec.nodeView h') = pre.map (Spec.nodeView h') ∧
      walkPost h' fuel t.ref = some post ∧ walkPost h' fuel r' = some post' ∧ post'.map (Spec.nodeView h') = post.map (Spec.nodeView h') := by
  obtain ⟨h', t', e1, e2, e3, e4, e5, e6⟩ := C49_copy h t ht.rep ht.keys hl hroot fuel (by omega)
  have ht' : IsTree h' t := ⟨ht.rep.frame t (fun x hx => e6 x (ht.rep.refs_lt x hx)), ht.distinct, ht.keys⟩
  have hs := size_bare t t' e3
  obtain ⟨a1, a2⟩ := pre_alike h' h' t t' ht'.rep e2.rep e3
  exact ⟨h', t'.ref, t.pre, t'.pre, t.post, t'.post, e1, (C46_order h' t ht' fuel (by omega)).1, (C46_order h' t' e2 fuel (by omega)).1, a1,
    (C47_order h' t ht' fuel hf).1, (C47_order h' t' e2 fuel (by omega)).1, a2⟩

mutual
theorem level_view_alike : ∀ (t t' : ATree) (d : Nat), t'.bare = t.bare → (t'.level d).map ATree.view = (t.level d).map ATree.view
  | .node r l a k, .node r' l' a' k', 0, hb => by
    simp only [ATree.level, List.map_cons, List.map_nil, view_bare hb]
  | .node r l a k, .node r' l' a' k', d + 1, hb => by
    simp only [ATree.bare, ATree.node.injEq, true_and] at hb
    rw [ATree.level, ATree.level]
    exact level_view_alike_kids k k' d hb.2.2
theorem level_view_alike_kids : ∀ (k k' : AForest) (d : Nat), k'.bare = k.bare → (k'.level d).map ATree.view = (k.level d).map ATree.view
  | .nil, .nil, _, _ => rfl
  | .nil, .cons _ _ _, _, hb => by cases hb
  | .cons _ _ _, .nil, _, hb => by cases hb
  | .cons key t rest, .cons key' t' rest', d, hb => by
    simp only [AForest.bare, AForest.cons.injEq] at hb
    rw [AForest.level, AForest.level, List.map_append, List.map_append, level_view_alike t t' d hb.2.1, level_view_alike_kids rest rest' d hb.2.2]
end

/-- **C176** (level by level).  `walk_breadth_first`, whose order within a level is random, sees on each level the same nodes in the copy as in the tree. -/
theorem C176_breadth (shuffle shuffle' : Nat → List Nat → List Nat) (hs : ∀ n l, (shuffle n l).Perm l) (hs' : ∀ n l, (shuffle' n l).Perm l)
    (h : Heap) (t : ATree) (ht : IsTree h t) (hl : t.keysAreLabels) (hroot : parentTruthy h t.ref = false) (fuel : Nat) (hf : t.size < fuel) :
    ∃ (h' : Heap) (r' : Nat) (parts parts' : List (List Nat)), treeCopy h fuel t.ref = some (.ok (h', r')) ∧ walkBfs shuffle h' fuel t.ref = some parts.flatten ∧
      walkBfs shuffle' h' fuel r' = some parts'.flatten ∧
      ∀ d, ((parts[d]?).getD []).Perm ((t.level d).map ATree.ref) ∧
        (((parts'[d]?).getD []).map (Spec.nodeView h')).Perm (((parts[d]?).getD []).map (Spec.nodeView h')) := by
  obtain ⟨h', t', e1, e2, e3, e4, e5, e6⟩ := C49_copy h t ht.rep ht.keys hl hroot fuel hf
  have ht' : IsTree h' t := ⟨ht.rep.frame t (fun x hx => e6 x (ht.rep.refs_lt x hx)), ht.distinct, ht.keys⟩
  have hsz := size_bare t t' e3
  obtain ⟨parts, a1, a2, _⟩ := C48_breadth_first shuffle hs h' t ht' fuel hf
  obtain ⟨parts', b1, b2, _⟩ := C48_breadth_first shuffle' hs' h' t' e2 fuel (by omega)
  refine ⟨h', t'.ref, parts, parts', e1, a1, b1, fun d => ⟨a2 d, ?_⟩⟩
  have views : ∀ u : ATree, Rep h' u → ((u.level d).map ATree.ref).map (Spec.nodeView h') = (u.level d).map ATree.view := by
    intro u hu
    rw [List.map_map]
    exact List.map_congr_left (fun s hs => (hu.of_mem_subs u s (level_sub s u d hs)).view)
  refine ((b2 d).map _).trans (List.Perm.trans ?_ ((a2 d).map _).symm)
  rw [views t ht'.rep, views t' e2.rep, level_view_alike t t' d e3]

/-- **C176** (paths and drawings).  `get_path` finds a node in the copy exactly if it finds one in the tree, the same label, attributes and keys of children; and the
drawings are the same, for every method that represents a node by its label and attributes. -/
theorem C176_paths (h : Heap) (t : ATree) (ht : IsTree h t) (hl : t.keysAreLabels) (hroot : parentTruthy h t.ref = false) (fuel : Nat) (hf : t.size < fuel) :
    ∃ h' r', treeCopy h fuel t.ref = some (.ok (h', r')) ∧
      (∀ ks, (∃ x x', getPath h' t.ref ks = .ok x ∧ getPath h' r' ks = .ok x' ∧ Spec.nodeView h' x' = Spec.nodeView h' x) ∨
        (getPath h' t.ref ks = .error .keyError ∧ getPath h' r' ks = .error .keyError)) ∧
      (∀ f : Str → Attrib → Except PyErr Str,
        treeLayout h' fuel r' (fun n => f n.label n.attrib) = treeLayout h' fuel t.ref (fun n => f n.label n.attrib)) := by
  obtain ⟨h', t', e1, e2, e3, e4, e5, e6⟩ := C49_copy h t ht.rep ht.keys hl hroot fuel hf
  have ht' : Rep h' t := ht.rep.frame t (fun x hx => e6 x (ht.rep.refs_lt x hx))
  refine ⟨h', t'.ref, e1, fun ks => path_alike h' h' ks t t' ht' e2.rep e3, fun f => ?_⟩
  rw [(C86_layout h' t' e2.rep _ fuel (by rw [size_bare t t' e3]; omega)).1, (C86_layout h' t ht' _ fuel (by omega)).1]
  congr 1
  have key : ∀ (t : ATree), Rep h' t → ∀ m ∈ t.marked, f (h'.node m.2.ref).label (h'.node m.2.ref).attrib = f m.2.label m.2.attrib := by
    intro t hr m hm
    have := (hr.of_mem_subs t m.2 (mem_marked hm)).lookup
    rw [this.1, this.2.2]
  refine printed_congr f _ _ _ _ (key t' e2.rep) (key t ht') ?_
  rw [← ATree.marked_bare t', e3, ATree.marked_bare]

/-- **C176** (searching).  Whatever the shuffles, `find_node` finds a node in the copy exactly if it finds one in the tree, on the same level. -/
theorem C176_find (shuffle shuffle' : Nat → List Nat → List Nat) (hs : ∀ n l, (shuffle n l).Perm l) (hs' : ∀ n l, (shuffle' n l).Perm l)
    (h : Heap) (t : ATree) (ht : IsTree h t) (hl : t.keysAreLabels) (hroot : parentTruthy h t.ref = false) (fuel : Nat) (hf : t.size < fuel) (label : Str) :
    ∃ h' t', treeCopy h fuel t.ref = some (.ok (h', t'.ref)) ∧ IsTree h' t' ∧
      ((∃ d s s', treeFindNode shuffle h' fuel t.ref label = some (.ok s.ref) ∧ treeFindNode shuffle' h' fuel t'.ref label = some (.ok s'.ref) ∧
        s ∈ t.level d ∧ s' ∈ t'.level d ∧ s.label = label ∧ s'.label = label) ∨
      (treeFindNode shuffle h' fuel t.ref label = some (.error .keyError) ∧ treeFindNode shuffle' h' fuel t'.ref label = some (.error .keyError))) := by
  obtain ⟨h', t', e1, e2, e3, e4, e5, e6⟩ := C49_copy h t ht.rep ht.keys hl hroot fuel hf
  have ht' : IsTree h' t := ⟨ht.rep.frame t (fun x hx => e6 x (ht.rep.refs_lt x hx)), ht.distinct, ht.keys⟩
  have hsz := size_bare t t' e3
  have lab : ∀ {u u' : ATree} {d : Nat} {s : ATree}, u'.bare = u.bare → s ∈ u'.level d → ∃ s' ∈ u.level d, s'.label = s.label := by
    intro u u' d s hb hm
    have : s.label ∈ (u'.level d).map ATree.label := List.mem_map_of_mem hm
    rw [level_alike u u' d hb] at this
    obtain ⟨s', h1, h2⟩ := List.mem_map.1 this
    exact ⟨s', h1, h2⟩
  refine ⟨h', t', e1, e2, ?_⟩
  rcases C48_find_node shuffle hs h' t ht' fuel hf label with ⟨d, s, a1, a2, a3, a4⟩ | ⟨a1, a2⟩
  · rcases C48_find_node shuffle' hs' h' t' e2 fuel (by omega) label with ⟨d', s', b1, b2, b3, b4⟩ | ⟨b1, b2⟩
    · have hd : d = d' := by
        rcases Nat.lt_trichotomy d d' with hlt | heq | hlt
        · obtain ⟨s2, h1, h2⟩ := lab e3.symm a2
          exact absurd (h2.trans a3) (b4 d hlt s2 h1)
        · exact heq
        · obtain ⟨s2, h1, h2⟩ := lab e3 b2
          exact absurd (h2.trans b3) (a4 d' hlt s2 h1)
      subst hd
      exact Or.inl ⟨d, s, s', a1, b1, a2, b2, a3, b3⟩
    · obtain ⟨s2, h1, h2⟩ := lab e3.symm a2
      exact absurd (h2.trans a3) (b2 s2 (level_sub s2 t' d h1))
  · rcases C48_find_node shuffle' hs' h' t' e2 fuel (by omega) label with ⟨d', s', b1, b2, b3, b4⟩ | ⟨b1, b2⟩
    · obtain ⟨s2, h1, h2⟩ := lab e3 b2
      exact absurd (h2.trans b3) (a2 s2 (level_sub s2 t d' h1))
    · exact Or.inr ⟨a1, b1⟩

/-- **C176** (pruning).  Pruning the copy gives the same tree as pruning the tree, or nothing if that gives nothing. -/
theorem C176_prune (p : Str → Attrib → Bool) (h : Heap) (t : ATree) (hr : Rep h t) (hk : t.keysDistinct) (hl : t.keysAreLabels)
    (hroot : (h.node t.ref).parent = none) (fuel : Nat) (hf : 2 * t.size < fuel) :
    ∃ h' r', treeCopy h fuel t.ref = some (.ok (h', r')) ∧
      ((∃ h1 t1 h2 t2, treePrune p h' fuel t.ref = some (.ok (h1, some t1.ref)) ∧ treePrune p h' fuel r' = some (.ok (h2, some t2.ref)) ∧
        IsTree h1 t1 ∧ IsTree h2 t2 ∧ t2.bare = t1.bare) ∨
      ∃ h1 h2, treePrune p h' fuel t.ref = some (.ok (h1, none)) ∧ treePrune p h' fuel r' = some (.ok (h2, none))) := by
  obtain ⟨h', t', e1, e2, e3, e4, e5, e6⟩ := C49_copy h t hr hk hl (by unfold parentTruthy; rw [hroot]) fuel (by omega)
  have ht' : Rep h' t := hr.frame t (fun x hx => e6 x (hr.refs_lt x hx))
  have hsz := size_bare t t' e3
  have hroot1 : parentTruthy h' t'.ref = false := by
    obtain ⟨r, l, a, k⟩ := t'
    have := e4.1
    simp [parentTruthy, ATree.ref, this]
  have hroot0 : parentTruthy h' t.ref = false := by
    have hx := e6 t.ref hr.lt
    have hn : h'.node t.ref = h.node t.ref := by unfold Heap.node; rw [hx]
    unfold parentTruthy
    rw [hn, hroot]
  obtain ⟨h1, res, a1, _, a3, a4⟩ := C50_prune p h' t ht' hk hl hroot0 fuel hf
  obtain ⟨h2, res', b1, _, b3, b4⟩ := C50_prune p h' t' e2.rep e2.keys (keysAreLabels_of_bare _ _ e3 hl) hroot1 fuel (by omega)
  refine ⟨h', t'.ref, e1, ?_⟩
  obtain ⟨c1, c2⟩ := trim_bare p t t' e3
  cases hlive : t.live p with
  | true =>
    rw [hlive] at c2
    obtain ⟨t1, rfl, g1, g2, _⟩ := a3 ((live_iff p t).1 hlive)
    obtain ⟨t2, rfl, g3, g4, _⟩ := b3 ((live_iff p t').1 c2)
    exact Or.inl ⟨h1, t1, h2, t2, a1, b1, g1, g3, by rw [g4, g2, c1]⟩
  | false =>
    rw [hlive] at c2
    have dead : ∀ u : ATree, u.live p = false → ∀ s ∈ u.subs, p s.label s.attrib = false := by
      intro u hu s hs
      cases hp : p s.label s.attrib with
      | false => rfl
      | true => rw [(live_iff p u).2 ⟨s, hs, hp⟩] at hu; cases hu
    rw [a4 (dead t hlive)] at a1
    rw [b4 (dead t' c2)] at b1
    exact Or.inr ⟨h1, h2, a1, b1⟩

/-- Non-vacuity: the tree of C173. -/
example : IsTree pruneDemoHeap pruneDemo ∧ pruneDemo.keysAreLabels ∧ parentTruthy pruneDemoHeap pruneDemo.ref = false := by
  refine ⟨⟨?_, by decide +kernel, ?_⟩, ?_, by decide +kernel⟩
  · refine ⟨⟨none, rfl⟩, ⟨⟨some 0, rfl⟩, ⟨⟨some 1, rfl⟩, trivial⟩, trivial⟩, ⟨⟨some 0, rfl⟩, trivial⟩, trivial⟩
  · exact ⟨by decide +kernel, ⟨by decide +kernel, ⟨by decide +kernel, trivial⟩, trivial⟩, ⟨by decide +kernel, trivial⟩, trivial⟩
  · exact ⟨rfl, ⟨rfl, trivial, trivial⟩, rfl, trivial, trivial⟩

end Cjk
