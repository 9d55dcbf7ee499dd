import Verif.Lemmas.Tree
import Verif.Py.Split
import Verif.Py.Exc
/-!
# C46-C48, C52: walks and paths of trees
-/

namespace Cjk
open Py

/-! ### C46 -/

theorem AForest.pre_eq : ∀ k : AForest, k.pre = k.items.reverse.flatMap (fun kt => kt.2.pre)
  | .nil => rfl
  | .cons _ t rest => by
    simp only [AForest.pre, AForest.items, List.reverse_cons, List.flatMap_append, AForest.pre_eq rest, List.flatMap_cons,
      List.flatMap_nil, List.append_nil]

theorem reverse_flatMap_perm {α β : Type} (l : List α) (f : α → List β) : (l.reverse.flatMap f).Perm (l.flatMap f) :=
  (List.reverse_perm l).flatMap_right f

theorem flatMap_perm_congr {α β : Type} (l : List α) (f g : α → List β) (h : ∀ x ∈ l, (f x).Perm (g x)) :
    (l.flatMap f).Perm (l.flatMap g) := List.Perm.flatMap_left l h

theorem pre_perm (t : ATree) : t.pre.Perm t.refs := by
  induction t using ATree.ind with
  | h r l a k ih =>
    rw [ATree.pre, ATree.refs_node, AForest.pre_eq]
    exact ((reverse_flatMap_perm _ _).trans (flatMap_perm_congr _ _ _ ih)).cons r

theorem preLoop_eq (h : Heap) (fuel : Nat) (ts : List ATree) (hr : ∀ t ∈ ts, Rep h t)
    (hf : (ts.map ATree.size).sum < fuel) : preLoop h fuel (ts.map ATree.ref) = some (ts.flatMap ATree.pre) := by
  induction fuel generalizing ts with
  | zero => omega
  | succ fuel ih =>
    cases ts with
    | nil => rfl
    | cons t ts =>
      have ht := hr t (by simp)
      simp only [List.map_cons, preLoop]
      rw [ht.lookup.2.1, AForest.values_dict]
      have e : (t.kids.items.map (fun kt => kt.2.ref)).reverse ++ ts.map ATree.ref =
          ((t.kids.items.reverse.map Prod.snd) ++ ts).map ATree.ref := by
        rw [List.map_append, List.map_map, ← List.map_reverse]; rfl
      rw [e, ih]
      · obtain ⟨r, l, a, k⟩ := t
        simp only [Option.map_some, List.flatMap_append, List.flatMap_cons, ATree.pre, ATree.kids, ATree.ref,
          List.cons_append, AForest.pre_eq, List.flatMap_map]
      · intro s hs
        rcases List.mem_append.1 hs with hs | hs
        · obtain ⟨kt, hkt, rfl⟩ := List.mem_map.1 hs
          exact ht.kids kt (List.mem_reverse.1 hkt)
        · exact hr s (by simp [hs])
      · obtain ⟨r, l, a, k⟩ := t
        simp only [List.map_cons, List.sum_cons, ATree.size_node] at hf
        simp only [List.map_append, List.sum_append, ATree.kids, List.map_map, List.map_reverse, List.sum_reverse]
        have e : (ATree.size ∘ Prod.snd : Str × ATree → Nat) = fun kt => kt.2.size := rfl
        rw [e]; omega

theorem before_cons {r d : Nat} {l : List Nat} (h : d ∈ l) : Before r d (r :: l) :=
  (List.singleton_sublist.2 h).cons_cons r

theorem pre_before (t : ATree) : ∀ s ∈ t.subs, ∀ d ∈ s.kids.refs, Before s.ref d t.pre := by
  induction t using ATree.ind with
  | h r l a k ih =>
    intro s hs d hd
    rw [ATree.subs_node] at hs
    rw [ATree.pre]
    rcases List.mem_cons.1 hs with rfl | hs
    · refine before_cons ?_
      have := (pre_perm (.node r l a k)).mem_iff (a := d)
      rw [AForest.pre_eq, (reverse_flatMap_perm _ _).mem_iff, (flatMap_perm_congr _ _ _ (fun kt _ => pre_perm kt.2)).mem_iff,
        ← AForest.refs_eq]
      exact hd
    · obtain ⟨kt, hkt, hs⟩ := List.mem_flatMap.1 hs
      refine (ih kt hkt s hs d hd).trans ?_
      rw [AForest.pre_eq]
      obtain ⟨p, q, e⟩ := List.append_of_mem (List.mem_reverse.2 hkt)
      rw [e, List.flatMap_append, List.flatMap_cons]
      exact ((List.sublist_append_left _ _).trans (List.sublist_append_right _ _)).trans (List.sublist_cons_self _ _)

/-- C46: `walk_preorder` (and `walk`) terminates on every tree and yields every node exactly once, each before all its
descendants. -/
theorem C46_preorder (h : Heap) (t : ATree) (ht : IsTree h t) (fuel : Nat) (hf : t.size < fuel) :
    ∃ out, walkPre h fuel t.ref = some out ∧ out.Perm t.refs ∧ out.Nodup ∧
      ∀ s ∈ t.subs, ∀ d ∈ s.kids.refs, Before s.ref d out := by
  refine ⟨t.pre, ?_, pre_perm t, (pre_perm t).nodup_iff.2 ht.distinct, pre_before t⟩
  have := preLoop_eq h fuel [t] (by simpa using ht.rep) (by simpa using hf)
  simpa [walkPre] using this

/-- C46: the order exactly: a node, then the subtrees of its children in one piece each, the child added last first. -/
theorem C46_order (h : Heap) (t : ATree) (ht : IsTree h t) (fuel : Nat) (hf : t.size < fuel) :
    walkPre h fuel t.ref = some t.pre ∧ ∀ s ∈ t.subs, s.pre <:+: t.pre := by
  constructor
  · have := preLoop_eq h fuel [t] (by simpa using ht.rep) (by simpa using hf)
    simpa [walkPre] using this
  · clear ht hf
    induction t using ATree.ind with
    | h r l a k ih =>
      intro s hs
      rw [ATree.subs_node] at hs
      rcases List.mem_cons.1 hs with rfl | hs
      · exact List.infix_refl _
      · obtain ⟨kt, hkt, hs⟩ := List.mem_flatMap.1 hs
        refine (ih kt hkt s hs).trans ?_
        rw [ATree.pre, AForest.pre_eq]
        obtain ⟨p, q, e⟩ := List.append_of_mem (List.mem_reverse.2 hkt)
        rw [e, List.flatMap_append, List.flatMap_cons]
        exact ⟨r :: p.flatMap (fun kt => kt.2.pre), q.flatMap (fun kt => kt.2.pre), by simp⟩

/-! ### C47 -/

theorem AForest.post_eq : ∀ k : AForest, k.post = k.items.reverse.flatMap (fun kt => kt.2.post)
  | .nil => rfl
  | .cons _ t rest => by
    simp only [AForest.post, AForest.items, List.reverse_cons, List.flatMap_append, AForest.post_eq rest, List.flatMap_cons,
      List.flatMap_nil, List.append_nil]

theorem post_perm (t : ATree) : t.post.Perm t.refs := by
  induction t using ATree.ind with
  | h r l a k ih =>
    rw [ATree.post, ATree.refs_node, AForest.post_eq]
    refine List.perm_append_comm.trans ?_
    exact ((reverse_flatMap_perm _ _).trans (flatMap_perm_congr _ _ _ ih)).cons r

theorem post_before (t : ATree) : ∀ s ∈ t.subs, ∀ d ∈ s.kids.refs, Before d s.ref t.post := by
  induction t using ATree.ind with
  | h r l a k ih =>
    intro s hs d hd
    rw [ATree.subs_node] at hs
    rw [ATree.post]
    rcases List.mem_cons.1 hs with rfl | hs
    · show ([d] ++ [r]).Sublist _
      refine List.Sublist.append (List.singleton_sublist.2 ?_) (List.Sublist.refl _)
      rw [AForest.post_eq, (reverse_flatMap_perm _ _).mem_iff, (flatMap_perm_congr _ _ _ (fun kt _ => post_perm kt.2)).mem_iff,
        ← AForest.refs_eq]
      exact hd
    · obtain ⟨kt, hkt, hs⟩ := List.mem_flatMap.1 hs
      refine (ih kt hkt s hs d hd).trans ?_
      rw [AForest.post_eq]
      obtain ⟨p, q, e⟩ := List.append_of_mem (List.mem_reverse.2 hkt)
      rw [e, List.flatMap_append, List.flatMap_cons]
      exact ((List.sublist_append_left _ _).trans (List.sublist_append_right _ _)).trans (List.sublist_append_left _ _)

/-- Number of rounds of the post-order loop for a tree. -/
def ATree.rounds (t : ATree) : Nat := (t.subs.map (fun s => if s.kids.items.isEmpty then 1 else 2)).sum

theorem ATree.rounds_node (r : Nat) (l : Str) (a : Attrib) (k : AForest) :
    (ATree.node r l a k).rounds = (if k.items.isEmpty then 1 else 2) + (k.items.map (fun kt => kt.2.rounds)).sum := by
  unfold ATree.rounds
  rw [ATree.subs_node, List.map_cons, List.sum_cons, List.map_flatMap]
  congr 1
  induction k.items with
  | nil => rfl
  | cons kt l ih => simp only [List.flatMap_cons, List.sum_append, List.map_cons, List.sum_cons, ih]

theorem ATree.rounds_le (t : ATree) : t.rounds ≤ 2 * t.size := by
  unfold ATree.rounds ATree.size
  induction t.subs with
  | nil => simp
  | cons s l ih =>
    simp only [List.map_cons, List.sum_cons, List.length_cons]
    split <;> omega

theorem postLoop_list (h : Heap) (ts : List ATree)
    (H : ∀ t ∈ ts, ∀ fuel stack, postLoop h (fuel + t.rounds) ((t.ref, false) :: stack) =
      (postLoop h fuel stack).map (t.post ++ ·)) (fuel : Nat) (stack : List (Nat × Bool)) :
    postLoop h (fuel + (ts.map ATree.rounds).sum) (ts.map (fun t => (t.ref, false)) ++ stack) =
      (postLoop h fuel stack).map (ts.flatMap ATree.post ++ ·) := by
  induction ts with
  | nil => cases hp : postLoop h fuel stack <;> simp [hp]
  | cons t ts ih =>
    have e : fuel + ((t :: ts).map ATree.rounds).sum = (fuel + (ts.map ATree.rounds).sum) + t.rounds := by
      simp only [List.map_cons, List.sum_cons]; omega
    rw [e, List.map_cons, List.cons_append, H t (by simp), ih (fun s hs => H s (by simp [hs])), Option.map_map]
    congr 1
    funext x
    simp [List.append_assoc]

theorem postLoop_tree (h : Heap) (t : ATree) (hr : Rep h t) : ∀ (fuel : Nat) (stack : List (Nat × Bool)),
    postLoop h (fuel + t.rounds) ((t.ref, false) :: stack) = (postLoop h fuel stack).map (t.post ++ ·) := by
  induction t using ATree.ind with
  | h r l a k ih =>
    intro fuel stack
    have hk : (h.node r).children = k.dict := hr.lookup.2.1
    rw [ATree.rounds_node]
    by_cases he : k.items.isEmpty = true
    · have hnil : k.items = [] := by simpa using he
      have e : fuel + ((if k.items.isEmpty then 1 else 2) + (k.items.map (fun kt => kt.2.rounds)).sum) = fuel + 1 := by
        rw [hnil]; simp
      rw [e]
      show postLoop h _ ((r, false) :: stack) = _
      simp only [postLoop, hk, AForest.isEmpty_items, he]
      simp [ATree.post, AForest.post_eq, hnil]
    · have e : fuel + ((if k.items.isEmpty then 1 else 2) + (k.items.map (fun kt => kt.2.rounds)).sum) =
          ((fuel + 1) + ((k.items.reverse.map Prod.snd).map ATree.rounds).sum) + 1 := by
        rw [if_neg he, List.map_map, List.map_reverse, List.sum_reverse]
        have : (ATree.rounds ∘ Prod.snd : Str × ATree → Nat) = fun kt => kt.2.rounds := rfl
        rw [this]; omega
      rw [e]
      show postLoop h _ ((r, false) :: stack) = _
      rw [postLoop]
      simp only [hk, AForest.isEmpty_items, he, Bool.or_false, Bool.false_eq_true, if_false, AForest.values_dict]
      have e2 : (k.items.map (fun kt => kt.2.ref)).reverse.map (fun x => (x, false)) =
          (k.items.reverse.map Prod.snd).map (fun t => (t.ref, false)) := by
        rw [← List.map_reverse, List.map_map, List.map_map]; rfl
      rw [e2, postLoop_list h]
      · simp only [postLoop, Bool.true_or, if_true, Option.map_map]
        congr 1
        funext x
        simp only [ATree.post, AForest.post_eq, List.flatMap_map, List.append_assoc, Function.comp, List.singleton_append]
      · intro s hs
        obtain ⟨kt, hkt, rfl⟩ := List.mem_map.1 hs
        have hkt := List.mem_reverse.1 hkt
        exact ih kt hkt (hr.kids kt hkt)

theorem walkPost_eq (h : Heap) (t : ATree) (hr : Rep h t) (fuel : Nat) (hf : 2 * t.size < fuel) :
    walkPost h fuel t.ref = some t.post := by
  have := t.rounds_le
  obtain ⟨f, rfl⟩ : ∃ f, fuel = (f + 1) + t.rounds := ⟨fuel - 1 - t.rounds, by omega⟩
  unfold walkPost
  rw [postLoop_tree h t hr]
  simp [postLoop]

/-- C47: `walk_postorder` terminates on every tree and yields every node exactly once, each after all its descendants. -/
theorem C47_postorder (h : Heap) (t : ATree) (ht : IsTree h t) (fuel : Nat) (hf : 2 * t.size < fuel) :
    ∃ out, walkPost h fuel t.ref = some out ∧ out.Perm t.refs ∧ out.Nodup ∧
      ∀ s ∈ t.subs, ∀ d ∈ s.kids.refs, Before d s.ref out :=
  ⟨t.post, walkPost_eq h t ht.rep fuel hf, post_perm t, (post_perm t).nodup_iff.2 ht.distinct, post_before t⟩

/-- C47: the order exactly: the subtrees of the children in one piece each, the child added last first, then the node. -/
theorem C47_order (h : Heap) (t : ATree) (ht : IsTree h t) (fuel : Nat) (hf : 2 * t.size < fuel) :
    walkPost h fuel t.ref = some t.post ∧ ∀ s ∈ t.subs, s.post <:+: t.post := by
  refine ⟨walkPost_eq h t ht.rep fuel hf, ?_⟩
  clear ht hf
  induction t using ATree.ind with
  | h r l a k ih =>
    intro s hs
    rw [ATree.subs_node] at hs
    rcases List.mem_cons.1 hs with rfl | hs
    · exact List.infix_refl _
    · obtain ⟨kt, hkt, hs⟩ := List.mem_flatMap.1 hs
      refine (ih kt hkt s hs).trans ?_
      rw [ATree.post, AForest.post_eq]
      obtain ⟨p, q, e⟩ := List.append_of_mem (List.mem_reverse.2 hkt)
      rw [e, List.flatMap_append, List.flatMap_cons]
      exact ⟨p.flatMap (fun kt => kt.2.post), q.flatMap (fun kt => kt.2.post) ++ [r], by simp⟩

/-! ### C48 -/

/-- The children of a node. -/
def ATree.children (t : ATree) : List ATree := t.kids.items.map Prod.snd

theorem level_succ (t : ATree) : ∀ d, t.level (d + 1) = (t.level d).flatMap ATree.children := by
  induction t using ATree.ind with
  | h r l a k ih =>
    intro d
    cases d with
    | zero =>
      simp only [ATree.level, AForest.level_eq, List.flatMap_cons, List.flatMap_nil, List.append_nil, ATree.children, ATree.kids]
      have : ∀ l : List (Str × ATree), l.flatMap (fun kt => kt.2.level 0) = l.map Prod.snd := by
        intro l
        induction l with
        | nil => rfl
        | cons kt l ih =>
          obtain ⟨key, ⟨r', l', a', k'⟩⟩ := kt
          simp [ATree.level, ih]
      exact this _
    | succ d =>
      simp only [ATree.level, AForest.level_eq, List.flatMap_assoc]
      have : ∀ l : List (Str × ATree), (∀ kt ∈ l, ∀ d, kt.2.level (d + 1) = (kt.2.level d).flatMap ATree.children) →
          l.flatMap (fun kt => kt.2.level (d + 1)) = l.flatMap (fun kt => (kt.2.level d).flatMap ATree.children) := by
        intro l
        induction l with
        | nil => intro _; rfl
        | cons kt l ih =>
          intro hl
          rw [List.flatMap_cons, List.flatMap_cons, hl kt (by simp), ih (fun x hx => hl x (by simp [hx]))]
      exact this _ ih

theorem level_zero (t : ATree) : t.level 0 = [t] := by cases t; rfl

theorem level_nil_of_le (t : ATree) {d d' : Nat} (h : t.level d = []) (hle : d ≤ d') : t.level d' = [] := by
  induction d', hle using Nat.le_induction with
  | base => exact h
  | succ d' _ ih => rw [level_succ, ih]; rfl

theorem level_subset (t : ATree) : ∀ d, ∀ s ∈ t.level d, s ∈ t.subs := by
  induction t using ATree.ind with
  | h r l a k ih =>
    intro d s hs
    rw [ATree.subs_node]
    cases d with
    | zero => simp only [ATree.level, List.mem_singleton] at hs; simp [hs]
    | succ d =>
      simp only [ATree.level, AForest.level_eq] at hs
      obtain ⟨kt, hkt, hs⟩ := List.mem_flatMap.1 hs
      exact List.mem_cons_of_mem _ (List.mem_flatMap.2 ⟨kt, hkt, ih kt hkt d s hs⟩)

theorem mem_level_of_mem_subs (t : ATree) : ∀ s ∈ t.subs, ∃ d, s ∈ t.level d := by
  induction t using ATree.ind with
  | h r l a k ih =>
    intro s hs
    rw [ATree.subs_node] at hs
    rcases List.mem_cons.1 hs with rfl | hs
    · exact ⟨0, by simp [ATree.level]⟩
    · obtain ⟨kt, hkt, hs⟩ := List.mem_flatMap.1 hs
      obtain ⟨d, hd⟩ := ih kt hkt s hs
      refine ⟨d + 1, ?_⟩
      simp only [ATree.level, AForest.level_eq]
      exact List.mem_flatMap.2 ⟨kt, hkt, hd⟩

theorem size_children (t : ATree) : (t.children.map ATree.size).sum + 1 = t.size := by
  obtain ⟨r, l, a, k⟩ := t
  rw [ATree.size_node]
  simp only [ATree.children, ATree.kids, List.map_map]
  have : (ATree.size ∘ Prod.snd : Str × ATree → Nat) = fun kt => kt.2.size := rfl
  rw [this]; omega

theorem sizes_children (ts : List ATree) :
    ((ts.flatMap ATree.children).map ATree.size).sum + ts.length = (ts.map ATree.size).sum := by
  induction ts with
  | nil => rfl
  | cons t ts ih =>
    have := size_children t
    simp only [List.flatMap_cons, List.map_append, List.sum_append, List.length_cons, List.map_cons, List.sum_cons]
    omega

/-- Finishing a level. -/
theorem bfsLoop_level (shuffle : Nat → List Nat → List Nat) (h : Heap) (fuel n : Nat) (t : ATree) (ts : List ATree)
    (next : List Nat) (hr : ∀ s ∈ t :: ts, Rep h s) :
    bfsLoop shuffle h (fuel + (t :: ts).length) n ((t :: ts).map ATree.ref) next =
      (bfsLoop shuffle h fuel (n + 1)
        (shuffle n (next ++ ((t :: ts).flatMap ATree.children).map ATree.ref)).reverse []).map ((t :: ts).map ATree.ref ++ ·) := by
  induction ts generalizing t next with
  | nil =>
    have ht := hr t (by simp)
    simp only [List.length_cons, List.length_nil, List.map_cons, List.map_nil, bfsLoop, List.isEmpty_nil, if_true,
      List.flatMap_cons, List.flatMap_nil, List.append_nil, List.singleton_append]
    rw [ht.lookup.2.1, AForest.values_dict]
    simp [ATree.children, Function.comp_def]
  | cons u us ih =>
    have ht := hr t (by simp)
    have e : fuel + (t :: u :: us).length = (fuel + (u :: us).length) + 1 := by simp; omega
    rw [e]
    simp only [List.map_cons, bfsLoop, List.isEmpty_cons, Bool.false_eq_true, if_false]
    have := ih u (next ++ Dict.values (h.node t.ref).children) (fun s hs => hr s (by
      rcases List.mem_cons.1 hs with rfl | hs <;> simp [*]))
    simp only [List.map_cons] at this
    rw [this, ht.lookup.2.1, AForest.values_dict, Option.map_map]
    simp [ATree.children, Function.comp_def, List.flatMap_cons]

theorem bfs_levels (shuffle : Nat → List Nat → List Nat) (hs : ∀ n l, (shuffle n l).Perm l) (h : Heap) (t : ATree)
    (hr : Rep h t) (fuel n d : Nat) (fr : List ATree) (hfr : fr.Perm (t.level d)) (hf : (fr.map ATree.size).sum < fuel) :
    ∃ parts : List (List Nat), bfsLoop shuffle h fuel n (fr.map ATree.ref) [] = some parts.flatten ∧
      ∀ i, ((parts[i]?).getD []).Perm ((t.level (d + i)).map ATree.ref) := by
  induction fuel using Nat.strong_induction_on generalizing n d fr with
  | _ fuel ih =>
    cases fr with
    | nil =>
      obtain ⟨f, rfl⟩ : ∃ f, fuel = f + 1 := ⟨fuel - 1, by omega⟩
      refine ⟨[], rfl, ?_⟩
      intro i
      rw [level_nil_of_le t hfr.symm.eq_nil (Nat.le_add_right d i)]
      exact List.Perm.nil
    | cons u us =>
      have hsz := sizes_children (u :: us)
      have hlen : (u :: us).length ≤ fuel := by omega
      obtain ⟨f, hfe⟩ : ∃ f, fuel = f + (u :: us).length := ⟨fuel - (u :: us).length, by omega⟩
      have hrep : ∀ s ∈ u :: us, Rep h s := fun s hs' =>
        hr.of_mem_subs t s (level_subset t d s (hfr.mem_iff.1 hs'))
      have hperm : ((shuffle n (((u :: us).flatMap ATree.children).map ATree.ref)).reverse).Perm
          (((u :: us).flatMap ATree.children).map ATree.ref) := (List.reverse_perm _).trans (hs n _)
      obtain ⟨fr', hp', e'⟩ := perm_map_lift ATree.ref hperm _ rfl
      have hlev : fr'.Perm (t.level (d + 1)) := by
        rw [level_succ]; exact hp'.trans (hfr.flatMap_right _)
      have hsum : (fr'.map ATree.size).sum = (((u :: us).flatMap ATree.children).map ATree.size).sum :=
        (hp'.map ATree.size).sum_nat
      have hpos : 0 < (u :: us).length := by simp
      obtain ⟨parts, e1, e2⟩ := ih f (by omega) (n + 1) (d + 1) fr' hlev (by omega)
      refine ⟨(u :: us).map ATree.ref :: parts, ?_, ?_⟩
      · rw [hfe, bfsLoop_level shuffle h f n u us [] hrep, List.nil_append, e', e1]
        simp
      · intro i
        cases i with
        | zero => simpa using hfr.map ATree.ref
        | succ i =>
          have := e2 i
          rw [show d + 1 + i = d + (i + 1) by omega] at this
          simpa using this

/-- Height of a tree. -/
theorem exists_empty_level (t : ATree) : ∃ H, t.level H = [] := by
  induction t using ATree.ind with
  | h r l a k ih =>
    have : ∀ items : List (Str × ATree), (∀ kt ∈ items, ∃ H, kt.2.level H = []) →
        ∃ H, items.flatMap (fun kt => kt.2.level H) = [] := by
      intro items
      induction items with
      | nil => intro _; exact ⟨0, rfl⟩
      | cons kt items ih =>
        intro hh
        obtain ⟨H1, e1⟩ := hh kt (by simp)
        obtain ⟨H2, e2⟩ := ih (fun x hx => hh x (by simp [hx]))
        refine ⟨max H1 H2, ?_⟩
        rw [List.flatMap_cons, level_nil_of_le _ e1 (Nat.le_max_left _ _), List.nil_append, List.flatMap_eq_nil_iff]
        intro x hx
        exact level_nil_of_le _ (List.flatMap_eq_nil_iff.1 e2 x hx) (Nat.le_max_right _ _)
    obtain ⟨H, e⟩ := this k.items ih
    exact ⟨H + 1, by simp only [ATree.level, AForest.level_eq]; exact e⟩

theorem levels_perm (t : ATree) : ∀ H, t.level H = [] → ((List.range H).flatMap t.level).Perm t.subs := by
  induction t using ATree.ind with
  | h r l a k ih =>
    intro H hH
    cases H with
    | zero => simp [ATree.level] at hH
    | succ H =>
      rw [List.range_succ_eq_map, List.flatMap_cons, List.flatMap_map, ATree.subs_node]
      simp only [ATree.level, AForest.level_eq, List.singleton_append]
      refine List.Perm.cons _ ?_
      have hH' : ∀ kt ∈ k.items, kt.2.level H = [] := by
        simp only [ATree.level, AForest.level_eq] at hH
        exact fun kt hkt => List.flatMap_eq_nil_iff.1 hH kt hkt
      have : ∀ items : List (Str × ATree), (∀ kt ∈ items, ((List.range H).flatMap kt.2.level).Perm kt.2.subs) →
          ((List.range H).flatMap (fun d => items.flatMap (fun kt => kt.2.level d))).Perm (items.flatMap (fun kt => kt.2.subs)) := by
        intro items
        induction items with
        | nil => intro _; simp
        | cons kt items ih =>
          intro hh
          simp only [List.flatMap_cons]
          refine (List.flatMap_append_perm _ _ _).symm.trans ?_
          exact (hh kt (by simp)).append (ih (fun x hx => hh x (by simp [hx])))
      exact this _ (fun kt hkt => ih kt hkt H (hH' kt hkt))

theorem parts_perm (t : ATree) (parts : List (List Nat)) (hp : ∀ i, ((parts[i]?).getD []).Perm ((t.level i).map ATree.ref)) :
    parts.flatten.Perm t.refs := by
  obtain ⟨H0, e0⟩ := exists_empty_level t
  let H := max H0 parts.length
  have eH : t.level H = [] := level_nil_of_le t e0 (Nat.le_max_left _ _)
  have h1 : parts.flatten = (List.range H).flatMap (fun i => (parts[i]?).getD []) := by
    have hle : parts.length ≤ H := Nat.le_max_right _ _
    generalize H = H at hle
    clear eH hp
    induction parts generalizing H with
    | nil => simp
    | cons x parts ih =>
      obtain ⟨H', rfl⟩ : ∃ H', H = H' + 1 := ⟨H - 1, by simp at hle; omega⟩
      rw [List.range_succ_eq_map, List.flatMap_cons, List.flatMap_map, List.flatten_cons]
      congr 1
      rw [ih H' (by simpa using hle)]
      simp
  rw [h1]
  have h2 := (levels_perm t H eH).map ATree.ref
  rw [List.map_flatMap] at h2
  exact (flatMap_perm_congr _ _ _ (fun i _ => hp i)).trans h2

/-- C48: for every outcome of the shuffles, `walk_breadth_first` terminates on every tree, yields every node exactly
once, and does so level by level: the output is the concatenation of a permutation of each level. -/
theorem C48_breadth_first (shuffle : Nat → List Nat → List Nat) (hs : ∀ n l, (shuffle n l).Perm l) (h : Heap) (t : ATree)
    (ht : IsTree h t) (fuel : Nat) (hf : t.size < fuel) :
    ∃ parts : List (List Nat), walkBfs shuffle h fuel t.ref = some parts.flatten ∧
      (∀ d, ((parts[d]?).getD []).Perm ((t.level d).map ATree.ref)) ∧
      parts.flatten.Perm t.refs ∧ parts.flatten.Nodup := by
  obtain ⟨parts, e1, e2⟩ := bfs_levels shuffle hs h t ht.rep fuel 0 0 [t] (by rw [level_zero]) (by simpa using hf)
  simp only [Nat.zero_add] at e2
  have hp := parts_perm t parts e2
  exact ⟨parts, e1, e2, hp, hp.nodup_iff.2 ht.distinct⟩

/-- If the walk ends, the search finds the first node of the walk with the label. -/
theorem bfsFind_eq (shuffle : Nat → List Nat → List Nat) (h : Heap) (label : Str) : ∀ (fuel n : Nat) (fr next out : List Nat),
    bfsLoop shuffle h fuel n fr next = some out → bfsFind shuffle h label fuel n fr next =
      some (match out.find? (fun x => (h.node x).label = label) with | some x => .ok x | none => .error .keyError) := by
  intro fuel
  induction fuel with
  | zero => intro n fr next out e; cases e
  | succ fuel ih =>
    intro n fr next out e
    cases fr with
    | nil => cases e; rfl
    | cons r fr =>
      simp only [bfsLoop] at e
      simp only [bfsFind]
      by_cases hl : (h.node r).label = label
      · rw [if_pos hl]
        split at e
        all_goals
          obtain ⟨out', _, rfl⟩ := Option.map_eq_some_iff.1 e
          simp [hl]
      · rw [if_neg hl]
        split at e
        · rename_i he
          obtain ⟨out', e', rfl⟩ := Option.map_eq_some_iff.1 e
          rw [if_pos he, ih _ _ _ _ e']
          simp [hl]
        · rename_i he
          obtain ⟨out', e', rfl⟩ := Option.map_eq_some_iff.1 e
          rw [if_neg he, ih _ _ _ _ e']
          simp [hl]

/-- C48: `find_node` returns a node with the label at the least depth, or raises `KeyError` if no node has the label. -/
theorem C48_find_node (shuffle : Nat → List Nat → List Nat) (hs : ∀ n l, (shuffle n l).Perm l) (h : Heap) (t : ATree)
    (ht : IsTree h t) (fuel : Nat) (hf : t.size < fuel) (label : Str) :
    (∃ d s, treeFindNode shuffle h fuel t.ref label = some (.ok s.ref) ∧ s ∈ t.level d ∧ s.label = label ∧
      ∀ d' < d, ∀ s' ∈ t.level d', s'.label ≠ label) ∨
    (treeFindNode shuffle h fuel t.ref label = some (.error .keyError) ∧ ∀ s ∈ t.subs, s.label ≠ label) := by
  obtain ⟨parts, e1, e2, e3, _⟩ := C48_breadth_first shuffle hs h t ht fuel hf
  have hlab : ∀ s ∈ t.subs, (h.node s.ref).label = s.label := fun s hs' => (ht.rep.of_mem_subs t s hs').lookup.1
  unfold treeFindNode
  rw [bfsFind_eq shuffle h label _ _ _ _ _ e1]
  cases hfind : parts.flatten.find? (fun x => decide ((h.node x).label = label)) with
  | none =>
    right
    refine ⟨by simp [hfind], ?_⟩
    intro s hs' hl
    have := List.find?_eq_none.1 hfind s.ref (e3.mem_iff.2 (List.mem_map_of_mem hs'))
    rw [hlab s hs'] at this
    simp [hl] at this
  | some x =>
    left
    obtain ⟨hx, as, ys, zs, bs, hparts, has, hys⟩ := List.find?_flatten_eq_some_iff.1 hfind
    have hd := e2 as.length
    rw [hparts, List.getElem?_append_right (Nat.le_refl _)] at hd
    simp only [Nat.sub_self, List.getElem?_cons_zero, Option.getD_some] at hd
    have hxm : x ∈ (t.level as.length).map ATree.ref := hd.mem_iff.1 (by simp)
    obtain ⟨s, hs', rfl⟩ := List.mem_map.1 hxm
    refine ⟨as.length, s, by simp [hfind], hs', ?_, ?_⟩
    · have := hlab s (level_subset t _ s hs')
      rw [← this]; simpa using hx
    · intro d' hd' s' hs'' hl
      have h1 := e2 d'
      rw [hparts, List.getElem?_append_left hd', List.getElem?_eq_getElem hd', Option.getD_some] at h1
      have hm : s'.ref ∈ as[d'] := h1.mem_iff.2 (List.mem_map_of_mem hs'')
      have := has _ (List.getElem_mem hd') _ hm
      rw [hlab s' (level_subset t _ s' hs'')] at this
      simp [hl] at this

/-! ### C52 -/

theorem ancestorsLoop_eq (h : Heap) (fuel : Nat) (res : List Nat) (x : Nat) :
    ancestorsLoop h fuel x (res ++ [x]) = pathLoop h fuel (res ++ [x]) := by
  induction fuel generalizing res x with
  | zero => rfl
  | succ fuel ih =>
    simp only [ancestorsLoop, pathLoop, List.getLast?_concat, Option.getD_some]
    cases (h.node x).parent with
    | none => rfl
    | some p => exact ih (res ++ [x]) p

/-- C52: in every heap, `ancestors` and `path_from_root` are the same list. -/
theorem C52_same (h : Heap) (fuel : Nat) (x : Nat) : ancestors h fuel x = pathFromRoot h fuel x :=
  ancestorsLoop_eq h fuel [] x

/-- A list of nodes from a root down, each the parent of the next. -/
def ParentChain (h : Heap) (path : List Nat) : Prop :=
  ∀ i a b, path[i]? = some a → path[i + 1]? = some b → (h.node b).parent = some a

theorem pathLoop_chain (h : Heap) (fuel : Nat) (res : List Nat) (x : Nat) (out : List Nat)
    (hc : ∀ i a b, (res ++ [x])[i]? = some a → (res ++ [x])[i + 1]? = some b → (h.node a).parent = some b)
    (e : pathLoop h fuel (res ++ [x]) = some out) :
    ∃ more : List Nat, out = ((res ++ [x]) ++ more).reverse ∧
      (∃ root, out.head? = some root ∧ (h.node root).parent = none) ∧
      (∀ i a b, ((res ++ [x]) ++ more)[i]? = some a → ((res ++ [x]) ++ more)[i + 1]? = some b → (h.node a).parent = some b) := by
  induction fuel generalizing res x with
  | zero => cases e
  | succ fuel ih =>
    simp only [pathLoop, List.getLast?_concat, Option.getD_some] at e
    cases hp : (h.node x).parent with
    | none =>
      rw [hp] at e
      simp only [Option.some.injEq] at e
      refine ⟨[], by rw [List.append_nil]; exact e.symm, ⟨x, by rw [← e]; simp, hp⟩, by rw [List.append_nil]; exact hc⟩
    | some p =>
      rw [hp] at e
      obtain ⟨more, h1, h2, h3⟩ := ih (res ++ [x]) p (by
        intro i a b ha hb
        by_cases hi : i + 1 < (res ++ [x]).length
        · rw [List.getElem?_append_left (by omega)] at ha
          rw [List.getElem?_append_left hi] at hb
          exact hc i a b ha hb
        · have hlen : i + 1 < (res ++ [x] ++ [p]).length := (List.getElem?_eq_some_iff.1 hb).1
          simp only [List.length_append, List.length_cons, List.length_nil] at hlen hi
          have hi' : i = res.length := by omega
          subst hi'
          simp only [List.append_assoc, List.singleton_append] at ha hb
          rw [List.getElem?_append_right (Nat.le_refl _)] at ha
          rw [List.getElem?_append_right (by omega)] at hb
          simp at ha hb
          subst ha; subst hb; exact hp) e
      exact ⟨p :: more, by rw [h1]; simp, h2, by simpa [List.append_assoc] using h3⟩

/-- C52: in every heap, if the path is computed at all, it starts at a node without parent, ends at the node itself, and
each node in it is the parent of the next. -/
theorem C52_chain (h : Heap) (fuel : Nat) (x : Nat) (path : List Nat) (e : pathFromRoot h fuel x = some path) :
    (∃ root, path.head? = some root ∧ (h.node root).parent = none) ∧ path.getLast? = some x ∧ ParentChain h path := by
  obtain ⟨more, h1, h2, h3⟩ := pathLoop_chain h fuel [] x path (by
    intro i a b _ hb
    have := (List.getElem?_eq_some_iff.1 hb).1
    simp at this) e
  refine ⟨h2, by rw [h1]; simp, ?_⟩
  intro i a b ha hb
  rw [h1] at ha hb
  have hlt := (List.getElem?_eq_some_iff.1 hb).1
  rw [List.length_reverse] at hlt
  rw [List.getElem?_reverse (by omega)] at ha
  rw [List.getElem?_reverse hlt] at hb
  refine h3 _ b a hb ?_
  rw [← ha]; congr 1; omega

/-- The references along a path of keys, the root first. -/
def ATree.along : ATree → List Str → List Nat
  | t, [] => [t.ref]
  | t, k :: ks =>
    match Dict.get? t.kids.items k with
    | some c => t.ref :: c.along ks
    | none => [t.ref]

theorem pathLoop_along (h : Heap) (t : ATree) (par : Option Nat) (hp : Par h par t) (ks : List Str) (s : ATree)
    (hs : t.walkDown ks = some s) (fuel : Nat) (res : List Nat) :
    pathLoop h (fuel + ks.length) (res ++ [s.ref]) = pathLoop h fuel (res ++ (t.along ks).reverse) := by
  induction ks generalizing t par fuel res with
  | nil => cases hs; rfl
  | cons k ks ih =>
    simp only [ATree.walkDown] at hs
    cases hg : Dict.get? t.kids.items k with
    | none => rw [hg] at hs; cases hs
    | some c =>
      rw [hg] at hs
      have hc := hp.kids _ (Dict.mem_of_get?_eq_some hg)
      have e : fuel + (k :: ks).length = (fuel + 1) + ks.length := by simp; omega
      rw [e, ih c (some t.ref) hc hs (fuel + 1) res]
      simp only [ATree.along, hg, List.reverse_cons]
      rw [← List.append_assoc]
      have hne : ∃ w, (c.along ks).reverse = w ++ [c.ref] := by
        cases ks with
        | nil => exact ⟨[], rfl⟩
        | cons k' ks' =>
          simp only [ATree.along]
          cases Dict.get? c.kids.items k' with
          | none => exact ⟨[], rfl⟩
          | some c' => exact ⟨_, by rw [List.reverse_cons]⟩
      obtain ⟨w, hw⟩ := hne
      rw [hw, pathLoop]
      rw [← List.append_assoc, List.getLast?_concat, Option.getD_some, hc.parent]

theorem along_length (t : ATree) (ks : List Str) (s : ATree) (hs : t.walkDown ks = some s) :
    (t.along ks).length = ks.length + 1 := by
  induction ks generalizing t with
  | nil => rfl
  | cons k ks ih =>
    simp only [ATree.walkDown] at hs
    cases hg : Dict.get? t.kids.items k with
    | none => rw [hg] at hs; cases hs
    | some c => rw [hg] at hs; simp only [ATree.along, hg, List.length_cons, ih c hs]

theorem get?_map_snd {V W : Type} (f : V → W) (d : Dict Str V) (k : Str) :
    Dict.get? (d.map (fun kv => (kv.1, f kv.2)) : Dict Str W) k = (Dict.get? d k).map f := by
  induction d with
  | nil => rfl
  | cons kv d ih =>
    obtain ⟨k', v⟩ := kv
    simp only [List.map_cons, Dict.get?_cons, ih]
    split <;> rfl

theorem along_labels (h : Heap) (t : ATree) (hr : Rep h t) (hl : t.keysAreLabels) (ks : List Str) (s : ATree)
    (hs : t.walkDown ks = some s) : (t.along ks).map (fun x => (h.node x).label) = t.label :: ks := by
  induction ks generalizing t with
  | nil => simp [ATree.along, hr.lookup.1]
  | cons k ks ih =>
    simp only [ATree.walkDown] at hs
    cases hg : Dict.get? t.kids.items k with
    | none => rw [hg] at hs; cases hs
    | some c =>
      rw [hg] at hs
      have hm := Dict.mem_of_get?_eq_some hg
      have hkl : k = c.label ∧ c.keysAreLabels := by
        obtain ⟨r, l, a, kk⟩ := t
        exact (AForest.keysAreLabels_iff kk).1 hl (k, c) hm
      simp only [ATree.along, hg, List.map_cons, hr.lookup.1, ih c (hr.kids _ hm) hkl.2 hs, ← hkl.1]

theorem getPath_down (h : Heap) (t : ATree) (hr : Rep h t) (ks : List Str) (s : ATree) (hs : t.walkDown ks = some s) :
    getPath h t.ref ks = .ok s.ref := by
  induction ks generalizing t with
  | nil => cases hs; rfl
  | cons k ks ih =>
    simp only [ATree.walkDown] at hs
    cases hg : Dict.get? t.kids.items k with
    | none => rw [hg] at hs; cases hs
    | some c =>
      rw [hg] at hs
      simp only [getPath]
      have : Dict.getItem (h.node t.ref).children k = .ok c.ref := by
        unfold Dict.getItem
        rw [hr.lookup.2.1]
        unfold AForest.dict
        rw [get?_map_snd, hg]; rfl
      rw [this]
      exact ih c (hr.kids _ (Dict.mem_of_get?_eq_some hg)) hs

/-- C52: on every tree whose parent links are right and whose root has no parent, `path_from_root` of the node reached by
keys `ks` terminates; the path has one node more than `ks`, starts at the root, ends at the node, and `get_path` from the
root with the labels of the path below the root leads back to the node. -/
theorem C52_tree (h : Heap) (t : ATree) (hr : Rep h t) (hp : Par h none t) (hl : t.keysAreLabels) (ks : List Str) (s : ATree)
    (hs : t.walkDown ks = some s) (fuel : Nat) (hf : ks.length < fuel) :
    ∃ path, pathFromRoot h fuel s.ref = some path ∧ path.length = ks.length + 1 ∧ path.head? = some t.ref ∧
      path.getLast? = some s.ref ∧ getPath h t.ref (path.tail.map (fun x => (h.node x).label)) = .ok s.ref := by
  have hpath : pathFromRoot h fuel s.ref = some (t.along ks) := by
    obtain ⟨f, rfl⟩ : ∃ f, fuel = (f + 1) + ks.length := ⟨fuel - 1 - ks.length, by omega⟩
    have := pathLoop_along h t none hp ks s hs (f + 1) []
    rw [List.nil_append, List.nil_append] at this
    unfold pathFromRoot
    rw [this]
    have hne : ∃ w, (t.along ks).reverse = w ++ [t.ref] := by
      cases ks with
      | nil => exact ⟨[], rfl⟩
      | cons k' ks' =>
        simp only [ATree.along]
        cases Dict.get? t.kids.items k' with
        | none => exact ⟨[], rfl⟩
        | some c' => exact ⟨_, by rw [List.reverse_cons]⟩
    obtain ⟨w, hw⟩ := hne
    rw [hw, pathLoop, List.getLast?_concat, Option.getD_some, hp.parent]
    simp only [← hw, List.reverse_reverse]
  obtain ⟨⟨root, hroot, _⟩, hlast, _⟩ := C52_chain h fuel s.ref _ hpath
  refine ⟨t.along ks, hpath, along_length t ks s hs, ?_, hlast, ?_⟩
  · cases ks with
    | nil => rfl
    | cons k ks =>
      simp only [ATree.along]
      cases Dict.get? t.kids.items k <;> rfl
  · have := along_labels h t hr hl ks s hs
    have e : (t.along ks).tail.map (fun x => (h.node x).label) = ks := by
      rw [List.map_tail, this]; rfl
    rw [e]
    exact getPath_down h t hr ks s hs

/-- C52: `get_path` also takes the path as a text, with or without a leading slash, if the labels have no slashes in them
and the first is not empty. -/
theorem C52_text (h : Heap) (r : Nat) (k : Str) (ks : List Str) (hk : k ≠ []) (hns : ∀ l ∈ k :: ks, c!"/" ∉ l) :
    getPathText h r (join u!"/" (k :: ks)) = getPath h r (k :: ks) ∧
    getPathText h r (u!"/" ++ join u!"/" (k :: ks)) = getPath h r (k :: ks) := by
  have h1 : lstripSlash (join u!"/" (k :: ks)) = join u!"/" (k :: ks) := by
    cases k with
    | nil => exact absurd rfl hk
    | cons c k =>
      have hc : c ≠ c!"/" := fun e => hns (c :: k) (by simp) (by rw [e]; simp)
      cases ks with
      | nil => simp [join, lstripSlash, hc]
      | cons k' ks => rw [join_cons_cons]; simp [lstripSlash, hc]
  have h2 : splitChr c!"/" (join u!"/" (k :: ks)) = k :: ks := splitChr_join _ _ (by simp) hns
  constructor
  · unfold getPathText; rw [h1, h2]
  · unfold getPathText
    have : lstripSlash (u!"/" ++ join u!"/" (k :: ks)) = lstripSlash (join u!"/" (k :: ks)) := by
      simp [lstripSlash]
    rw [this, h1, h2]

end Cjk
