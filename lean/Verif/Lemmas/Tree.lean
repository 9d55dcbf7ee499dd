import Verif.Spec.Tree
import Mathlib.Data.List.Perm.Basic
/-!
# Lemmas on annotated trees and heaps
-/

namespace Cjk
open Py

mutual
theorem ATree.ind_aux {P : ATree → Prop} (h : ∀ r l a k, (∀ kt ∈ AForest.items k, P kt.2) → P (.node r l a k)) :
    ∀ t : ATree, P t
  | .node r l a k => h r l a k (AForest.ind_aux h k)
theorem AForest.ind_aux {P : ATree → Prop} (h : ∀ r l a k, (∀ kt ∈ AForest.items k, P kt.2) → P (.node r l a k)) :
    ∀ k : AForest, ∀ kt ∈ k.items, P kt.2
  | .nil, kt, hm => by simp [AForest.items] at hm
  | .cons key t rest, kt, hm => by
    simp only [AForest.items, List.mem_cons] at hm
    rcases hm with rfl | hm
    · exact ATree.ind_aux h t
    · exact AForest.ind_aux h rest kt hm
end

/-- Induction over trees, children as a list. -/
theorem ATree.ind {P : ATree → Prop} (t : ATree)
    (h : ∀ r l a k, (∀ kt ∈ AForest.items k, P kt.2) → P (.node r l a k)) : P t := ATree.ind_aux h t

namespace AForest

@[simp] theorem items_ofList (l : List (Str × ATree)) : (ofList l).items = l := by
  induction l with
  | nil => rfl
  | cons kt l ih => obtain ⟨k, t⟩ := kt; simp [ofList, items, ih]

@[simp] theorem ofList_items : ∀ k : AForest, ofList k.items = k
  | .nil => rfl
  | .cons key t rest => by simp only [items, ofList, ofList_items rest]

theorem items_injective {k k' : AForest} (h : k.items = k'.items) : k = k' := by
  rw [← ofList_items k, h, ofList_items]

theorem subs_eq : ∀ k : AForest, k.subs = k.items.flatMap (fun kt => kt.2.subs)
  | .nil => rfl
  | .cons key t rest => by simp only [subs, items, List.flatMap_cons, subs_eq rest]

theorem refs_eq (k : AForest) : k.refs = k.items.flatMap (fun kt => kt.2.refs) := by
  unfold refs ATree.refs; rw [subs_eq, List.map_flatMap]

theorem level_eq (d : Nat) : ∀ k : AForest, k.level d = k.items.flatMap (fun kt => kt.2.level d)
  | .nil => by simp [level, items]
  | .cons key t rest => by simp only [level, items, List.flatMap_cons, level_eq d rest]

theorem bare_items : ∀ k : AForest, k.bare.items = k.items.map (fun kt => (kt.1, kt.2.bare))
  | .nil => rfl
  | .cons key t rest => by simp only [bare, items, List.map_cons, bare_items rest]

theorem keysDistinct_iff : ∀ k : AForest, k.keysDistinct ↔ ∀ kt ∈ k.items, kt.2.keysDistinct
  | .nil => by simp [keysDistinct, items]
  | .cons key t rest => by simp only [keysDistinct, items, List.forall_mem_cons, keysDistinct_iff rest]

theorem keysAreLabels_iff : ∀ k : AForest, k.keysAreLabels ↔ ∀ kt ∈ k.items, kt.1 = kt.2.label ∧ kt.2.keysAreLabels
  | .nil => by simp [keysAreLabels, items]
  | .cons key t rest => by simp only [keysAreLabels, items, List.forall_mem_cons, keysAreLabels_iff rest, and_assoc]

theorem live_eq (p : Str → Attrib → Bool) : ∀ k : AForest, k.live p = k.items.any (fun kt => kt.2.live p)
  | .nil => rfl
  | .cons key t rest => by simp only [live, items, List.any_cons, live_eq p rest]

theorem trim_items (p : Str → Attrib → Bool) : ∀ k : AForest,
    (k.trim p).items = (k.items.filter (fun kt => kt.2.live p)).map (fun kt => (kt.1, kt.2.trim p))
  | .nil => rfl
  | .cons key t rest => by
    simp only [trim, items]
    by_cases h : t.live p = true
    · rw [if_pos h, List.filter_cons_of_pos (by simpa using h)]
      simp only [items, List.map_cons, trim_items p rest]
    · rw [if_neg h, List.filter_cons_of_neg (by simpa using h), trim_items p rest]

theorem isEmpty_items (k : AForest) : k.dict.isEmpty = k.items.isEmpty := by
  unfold dict; cases k.items <;> rfl

theorem values_dict (k : AForest) : Dict.values k.dict = k.items.map (fun kt => kt.2.ref) := by
  unfold dict Dict.values; rw [List.map_map]; rfl

theorem keys_dict (k : AForest) : Dict.keys k.dict = k.items.map Prod.fst := by
  unfold dict Dict.keys; rw [List.map_map]; rfl

end AForest

theorem RepF_iff (h : Heap) : ∀ k : AForest, RepF h k ↔ ∀ kt ∈ k.items, Rep h kt.2
  | .nil => by simp [RepF, AForest.items]
  | .cons key t rest => by simp only [RepF, AForest.items, List.forall_mem_cons, RepF_iff h rest]

theorem ParF_iff (h : Heap) (r : Nat) : ∀ k : AForest, ParF h r k ↔ ∀ kt ∈ k.items, Par h (some r) kt.2
  | .nil => by simp [ParF, AForest.items]
  | .cons key t rest => by simp only [ParF, AForest.items, List.forall_mem_cons, ParF_iff h r rest]

theorem ATree.subs_node (r : Nat) (l : Str) (a : Attrib) (k : AForest) :
    (ATree.node r l a k).subs = .node r l a k :: k.items.flatMap (fun kt => kt.2.subs) := by
  rw [ATree.subs, AForest.subs_eq]

theorem ATree.refs_node (r : Nat) (l : Str) (a : Attrib) (k : AForest) :
    (ATree.node r l a k).refs = r :: k.items.flatMap (fun kt => kt.2.refs) := by
  unfold ATree.refs; rw [ATree.subs_node]; simp [ATree.ref, List.map_flatMap]

/-- Number of nodes. -/
def ATree.size (t : ATree) : Nat := t.subs.length

theorem ATree.size_node (r : Nat) (l : Str) (a : Attrib) (k : AForest) :
    (ATree.node r l a k).size = 1 + (k.items.map (fun kt => kt.2.size)).sum := by
  unfold ATree.size; rw [ATree.subs_node]; simp [List.length_flatMap]; omega

theorem ATree.size_pos (t : ATree) : 0 < t.size := by
  cases t; rw [ATree.size_node]; omega

theorem ATree.mem_subs_self (t : ATree) : t ∈ t.subs := by
  obtain ⟨r, l, a, k⟩ := t; rw [ATree.subs_node]; simp

theorem ATree.ref_mem_refs (t : ATree) : t.ref ∈ t.refs := List.mem_map_of_mem t.mem_subs_self

theorem Rep.node {h : Heap} {t : ATree} (hr : Rep h t) :
    ∃ par, h[t.ref]? = some ⟨t.label, t.kids.dict, t.attrib, par⟩ := by
  obtain ⟨r, l, a, k⟩ := t; exact hr.1

theorem Rep.kids {h : Heap} {t : ATree} (hr : Rep h t) : ∀ kt ∈ t.kids.items, Rep h kt.2 := by
  obtain ⟨r, l, a, k⟩ := t; exact (RepF_iff h k).1 hr.2

theorem Rep.lookup {h : Heap} {t : ATree} (hr : Rep h t) :
    (h.node t.ref).label = t.label ∧ (h.node t.ref).children = t.kids.dict ∧ (h.node t.ref).attrib = t.attrib := by
  obtain ⟨par, e⟩ := hr.node
  unfold Heap.node; rw [e]; exact ⟨rfl, rfl, rfl⟩

theorem Rep.lt {h : Heap} {t : ATree} (hr : Rep h t) : t.ref < h.length := by
  obtain ⟨par, e⟩ := hr.node
  exact (List.getElem?_eq_some_iff.1 e).1

theorem Rep.of_mem_subs {h : Heap} (t : ATree) (hr : Rep h t) : ∀ s ∈ t.subs, Rep h s := by
  induction t using ATree.ind with
  | h r l a k ih =>
    intro s hs
    rw [ATree.subs_node] at hs
    rcases List.mem_cons.1 hs with rfl | hs
    · exact hr
    · obtain ⟨kt, hkt, hs⟩ := List.mem_flatMap.1 hs
      exact ih kt hkt (hr.kids kt hkt) s hs

theorem Rep.refs_lt {h : Heap} {t : ATree} (hr : Rep h t) : ∀ x ∈ t.refs, x < h.length := by
  intro x hx
  obtain ⟨s, hs, rfl⟩ := List.mem_map.1 hx
  exact (hr.of_mem_subs t s hs).lt

/-- `Rep` depends only on the heap at the references of the tree. -/
theorem Rep.frame {h h' : Heap} (t : ATree) (hr : Rep h t) (he : ∀ x ∈ t.refs, h'[x]? = h[x]?) : Rep h' t := by
  induction t using ATree.ind with
  | h r l a k ih =>
    rw [ATree.refs_node] at he
    obtain ⟨⟨par, e⟩, hk⟩ := hr
    refine ⟨⟨par, by rw [he r (by simp)]; exact e⟩, ?_⟩
    rw [RepF_iff] at hk ⊢
    intro kt hkt
    refine ih kt hkt (hk kt hkt) ?_
    intro x hx
    exact he x (List.mem_cons_of_mem _ (List.mem_flatMap.2 ⟨kt, hkt, hx⟩))

theorem Par.frame {h h' : Heap} {par : Option Nat} (t : ATree) (hr : Par h par t)
    (he : ∀ x ∈ t.refs, (h'.node x).parent = (h.node x).parent) : Par h' par t := by
  induction t using ATree.ind generalizing par with
  | h r l a k ih =>
    rw [ATree.refs_node] at he
    obtain ⟨e, hk⟩ := hr
    refine ⟨by rw [he r (by simp)]; exact e, ?_⟩
    rw [ParF_iff] at hk ⊢
    intro kt hkt
    refine ih kt hkt (hk kt hkt) ?_
    intro x hx
    exact he x (List.mem_cons_of_mem _ (List.mem_flatMap.2 ⟨kt, hkt, hx⟩))

theorem node_congr {h h' : Heap} {x : Nat} (e : h'[x]? = h[x]?) : h'.node x = h.node x := by
  unfold Heap.node; rw [e]

theorem Par.parent {h : Heap} {par : Option Nat} {t : ATree} (hp : Par h par t) : (h.node t.ref).parent = par := by
  obtain ⟨r, l, a, k⟩ := t; exact hp.1

theorem Par.kids {h : Heap} {par : Option Nat} {t : ATree} (hp : Par h par t) :
    ∀ kt ∈ t.kids.items, Par h (some t.ref) kt.2 := by
  obtain ⟨r, l, a, k⟩ := t; exact (ParF_iff h r k).1 hp.2

theorem upd_getElem? (h : Heap) (r : Nat) (f : TNode → TNode) (i : Nat) :
    (h.upd r f)[i]? = if r = i then h[i]?.map f else h[i]? := by
  unfold Heap.upd
  rw [List.getElem?_modify]
  by_cases e : r = i <;> simp [e]

@[simp] theorem upd_length (h : Heap) (r : Nat) (f : TNode → TNode) : (h.upd r f).length = h.length := by
  unfold Heap.upd; simp

theorem upd_node_ne (h : Heap) {r i : Nat} (f : TNode → TNode) (e : r ≠ i) : (h.upd r f).node i = h.node i := by
  unfold Heap.node; rw [upd_getElem?, if_neg e]

theorem upd_node_eq (h : Heap) {r : Nat} (f : TNode → TNode) (e : r < h.length) : (h.upd r f).node r = f (h.node r) := by
  unfold Heap.node; rw [upd_getElem?, if_pos rfl]
  obtain ⟨n, hn⟩ : ∃ n, h[r]? = some n := ⟨_, List.getElem?_eq_getElem e⟩
  rw [hn]; rfl

theorem keysDistinct_of_mem {t : ATree} (ht : t.keysDistinct) :
    (t.kids.items.map Prod.fst).Nodup ∧ ∀ kt ∈ t.kids.items, kt.2.keysDistinct := by
  obtain ⟨r, l, a, k⟩ := t
  exact ⟨ht.1, (AForest.keysDistinct_iff k).1 ht.2⟩

theorem refs_sublist_kid {t : ATree} {kt : Str × ATree} (h : kt ∈ t.kids.items) : kt.2.refs.Sublist t.refs := by
  obtain ⟨r, l, a, k⟩ := t
  rw [ATree.refs_node]
  obtain ⟨pre, post, e⟩ := List.append_of_mem h
  simp only [ATree.kids] at e
  rw [e, List.flatMap_append, List.flatMap_cons]
  exact ((List.sublist_append_left _ _).trans (List.sublist_append_right _ _)).trans (List.sublist_cons_self _ _)

theorem IsTree.kid {h : Heap} {t : ATree} (ht : IsTree h t) {kt : Str × ATree} (hk : kt ∈ t.kids.items) :
    IsTree h kt.2 :=
  ⟨ht.rep.kids kt hk, ht.distinct.sublist (refs_sublist_kid hk), (keysDistinct_of_mem ht.keys).2 kt hk⟩

/-- A permutation of images is the image of a permutation. -/
theorem perm_map_lift {α β : Type} (f : α → β) {l l' : List β} (h : l.Perm l') :
    ∀ ts : List α, l' = ts.map f → ∃ ts' : List α, ts'.Perm ts ∧ l = ts'.map f := by
  induction h with
  | nil =>
    intro ts e
    cases ts with
    | nil => exact ⟨[], List.Perm.nil, rfl⟩
    | cons t ts => cases e
  | cons x _ ih =>
    intro ts e
    cases ts with
    | nil => cases e
    | cons t ts =>
      simp only [List.map_cons, List.cons.injEq] at e
      obtain ⟨ts', h1, h2⟩ := ih ts e.2
      exact ⟨t :: ts', h1.cons t, by rw [h2, List.map_cons, e.1]⟩
  | swap x y l =>
    intro ts e
    match ts, e with
    | [], e => cases e
    | [t], e => simp at e
    | t :: u :: ts, e =>
      simp only [List.map_cons, List.cons.injEq] at e
      exact ⟨u :: t :: ts, List.Perm.swap _ _ _, by rw [e.1, e.2.1, e.2.2]; rfl⟩
  | trans _ _ ih1 ih2 =>
    intro ts e
    obtain ⟨ts1, h1, e1⟩ := ih2 ts e
    obtain ⟨ts2, h2, e2⟩ := ih1 ts1 e1
    exact ⟨ts2, h2.trans h1, e2⟩

end Cjk
