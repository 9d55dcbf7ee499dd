import Verif.Model.TreeAsk
import Verif.Props.TreePrune
import Verif.Props.TreePrograms
/-!
# C134: `prune` with any predicate
-/

namespace Cjk
open Py

/-! ### What `prune` should do -/

mutual
/-- What is left of a tree with the nodes `above` it: the children are dealt with from the last to the first; a node that keeps
a child stays without being asked about, any other node stays if the predicate says so. -/
def Spec.pruned {S : Type} (ask : PruneAsk S) (s : S) (above : NodeView) : ATree → Except PyErr (Option ATree) × S
  | .node r l a k =>
    match Spec.prunedKids ask s ((l, a) :: above) k with
    | (.error e, s1) => (.error e, s1)
    | (.ok (.cons key t rest), s1) => (.ok (some (.node r l a (.cons key t rest))), s1)
    | (.ok .nil, s1) =>
      match ask s1 ((l, a) :: above) with
      | (.error e, s2) => (.error e, s2)
      | (.ok true, s2) => (.ok (some (.node r l a .nil)), s2)
      | (.ok false, s2) => (.ok none, s2)
/-- The children that are left. -/
def Spec.prunedKids {S : Type} (ask : PruneAsk S) (s : S) (above : NodeView) : AForest → Except PyErr AForest × S
  | .nil => (.ok .nil, s)
  | .cons key t rest =>
    match Spec.prunedKids ask s above rest with
    | (.error e, s1) => (.error e, s1)
    | (.ok rest', s1) =>
      match Spec.pruned ask s1 above t with
      | (.error e, s2) => (.error e, s2)
      | (.ok none, s2) => (.ok rest', s2)
      | (.ok (some t'), s2) => (.ok (.cons key t' rest'), s2)
end

/-- `prune` of a tree: a root that is left without children is asked about once more. -/
def Spec.prune {S : Type} (ask : PruneAsk S) (s : S) (t : ATree) : Except PyErr (Option ATree) × S :=
  match Spec.pruned ask s [] t with
  | (.error e, s1) => (.error e, s1)
  | (.ok (some (.node r l a (.cons key c rest))), s1) => (.ok (some (.node r l a (.cons key c rest))), s1)
  | (.ok _, s1) =>
    match ask s1 [(t.label, t.attrib)] with
    | (.error e, s2) => (.error e, s2)
    | (.ok true, s2) => (.ok (some (.node t.ref t.label t.attrib .nil)), s2)
    | (.ok false, s2) => (.ok none, s2)

/-! ### What is left is part of the tree -/

/-- The top of a tree stays as it is, and the rest is part of the rest. -/
def PartOf (t' t : ATree) : Prop :=
  t'.ref = t.ref ∧ t'.label = t.label ∧ t'.attrib = t.attrib ∧ t'.refs.Sublist t.refs ∧
    (t.keysDistinct → t'.keysDistinct) ∧ (t.keysAreLabels → t'.keysAreLabels)

/-- Some of the children, each as a part of itself. -/
def PartsOf (k' k : AForest) : Prop :=
  (k'.items.map (fun kt => (kt.1, kt.2.ref))).Sublist (k.items.map (fun kt => (kt.1, kt.2.ref))) ∧
  (k'.items.flatMap (fun kt => kt.2.refs)).Sublist (k.items.flatMap (fun kt => kt.2.refs)) ∧
  (k.keysDistinct → k'.keysDistinct) ∧ (k.keysAreLabels → k'.keysAreLabels)

mutual
theorem pruned_part {S : Type} (ask : PruneAsk S) : ∀ (t : ATree) (s : S) (above : NodeView) (t' : ATree) (s' : S),
    Spec.pruned ask s above t = (.ok (some t'), s') → PartOf t' t
  | .node r l a k, s, above, t', s', e => by
    rw [Spec.pruned] at e
    have H := pruned_parts ask k s ((l, a) :: above)
    generalize Spec.prunedKids ask s ((l, a) :: above) k = x at e H
    obtain ⟨res, s1⟩ := x
    cases res with
    | error er => cases e
    | ok k' =>
      obtain ⟨h1, h2, h3, h4⟩ := H k' s1 rfl
      have hgoal : PartOf (.node r l a k') (.node r l a k) := by
        refine ⟨rfl, rfl, rfl, ?_, ?_, h4⟩
        · rw [ATree.refs_node, ATree.refs_node]; exact h2.cons_cons _
        · rintro ⟨d1, d2⟩
          refine ⟨?_, h3 d2⟩
          have := h1.map Prod.fst
          simp only [List.map_map] at this
          exact List.Nodup.sublist this d1
      cases k' with
      | cons key c rest =>
        simp only [Prod.mk.injEq, Except.ok.injEq, Option.some.injEq] at e
        rw [← e.1]; exact hgoal
      | nil =>
        simp only at e
        generalize ask s1 ((l, a) :: above) = y at e
        obtain ⟨b, s2⟩ := y
        cases b with
        | error er => cases e
        | ok b =>
          cases b with
          | false => cases e
          | true =>
            simp only [Prod.mk.injEq, Except.ok.injEq, Option.some.injEq] at e
            rw [← e.1]; exact hgoal
theorem pruned_parts {S : Type} (ask : PruneAsk S) : ∀ (k : AForest) (s : S) (above : NodeView) (k' : AForest) (s' : S),
    Spec.prunedKids ask s above k = (.ok k', s') → PartsOf k' k
  | .nil, s, above, k', s', e => by
    rw [Spec.prunedKids] at e
    cases e
    exact ⟨List.Sublist.refl _, List.Sublist.refl _, id, id⟩
  | .cons key t rest, s, above, k', s', e => by
    rw [Spec.prunedKids] at e
    have H := pruned_parts ask rest s above
    generalize Spec.prunedKids ask s above rest = x at e H
    obtain ⟨res, s1⟩ := x
    cases res with
    | error er => cases e
    | ok rest' =>
      obtain ⟨h1, h2, h3, h4⟩ := H rest' s1 rfl
      have H2 := pruned_part ask t s1 above
      simp only at e
      generalize Spec.pruned ask s1 above t = y at e H2
      obtain ⟨res, s2⟩ := y
      cases res with
      | error er => cases e
      | ok o =>
        cases o with
        | none =>
          simp only [Prod.mk.injEq, Except.ok.injEq] at e
          rw [← e.1]
          refine ⟨?_, ?_, fun d => h3 d.2, fun d => h4 d.2.2⟩
          · simp only [AForest.items, List.map_cons]; exact h1.cons _
          · simp only [AForest.items, List.flatMap_cons]
            exact h2.trans (List.sublist_append_right _ _)
        | some t' =>
          obtain ⟨g1, g2, g3, g4, g5, g6⟩ := H2 t' s2 rfl
          simp only [Prod.mk.injEq, Except.ok.injEq] at e
          rw [← e.1]
          refine ⟨?_, ?_, fun d => ⟨g5 d.1, h3 d.2⟩, fun d => ⟨by rw [g2]; exact d.1, g6 d.2.1, h4 d.2.2⟩⟩
          · simp only [AForest.items, List.map_cons, g1]; exact h1.cons_cons _
          · simp only [AForest.items, List.flatMap_cons]
            exact g4.append h2
end

/-! ### The loop -/

/-- `q` and the nodes above it are `anc`, with labels and attributes `vs`. -/
def Above (h : Heap) : Option Nat → List Nat → NodeView → Prop
  | none, [], [] => True
  | some q, x :: anc, v :: vs => q = x ∧ v = ((h.node q).label, (h.node q).attrib) ∧ Above h (h.node q).parent anc vs
  | _, _, _ => False

theorem Above.frame {h h' : Heap} {par : Option Nat} {anc : List Nat} {vs : NodeView} (ha : Above h par anc vs)
    (he : ∀ x ∈ anc, (h'.node x).label = (h.node x).label ∧ (h'.node x).attrib = (h.node x).attrib ∧
      (h'.node x).parent = (h.node x).parent) : Above h' par anc vs := by
  induction anc generalizing par vs with
  | nil => cases par <;> cases vs <;> first | exact ha
  | cons x anc ih =>
    cases par with
    | none => cases vs <;> cases ha
    | some q =>
      cases vs with
      | nil => cases ha
      | cons v vs =>
        obtain ⟨rfl, h2, h3⟩ := ha
        obtain ⟨e1, e2, e3⟩ := he q (by simp)
        refine ⟨rfl, by rw [h2, e1, e2], ?_⟩
        rw [e3]
        exact ih h3 (fun y hy => he y (by simp [hy]))

theorem viewUp_above {h : Heap} {par : Option Nat} {anc : List Nat} {vs : NodeView} (ha : Above h par anc vs) (r : Nat)
    (hp : (h.node r).parent = par) (up : Nat) (hu : anc.length < up) :
    viewUp h up r = some (((h.node r).label, (h.node r).attrib) :: vs) := by
  induction anc generalizing par vs r up with
  | nil =>
    obtain ⟨up, rfl⟩ : ∃ u, up = u + 1 := ⟨up - 1, by simp at hu; omega⟩
    cases par with
    | some q => cases vs <;> cases ha
    | none =>
      cases vs with
      | cons _ _ => cases ha
      | nil => simp only [viewUp, hp]
  | cons x anc ih =>
    obtain ⟨up, rfl⟩ : ∃ u, up = u + 1 := ⟨up - 1, by simp at hu; omega⟩
    cases par with
    | none => cases vs <;> cases ha
    | some q =>
      cases vs with
      | nil => cases ha
      | cons v vs =>
        obtain ⟨rfl, h2, h3⟩ := ha
        simp only [viewUp, hp]
        rw [ih h3 q rfl up (by simpa using hu), h2]; rfl

/-- What is true after the loop has processed a subtree and `res` is left of it. -/
structure AskPruned (h h1 : Heap) (par : Option Nat) (t : ATree) (res : Option ATree) : Prop where
  len : h1.length = h.length
  frame : ∀ i, i ∉ t.refs → par ≠ some i → h1[i]? = h[i]?
  parent : ∀ q, par = some q →
    h1[q]? = (h[q]?).map (fun n => if res.isSome then n else { n with children := Dict.del n.children t.label })
  live : ∀ t', res = some t' → Rep h1 t' ∧ Par h1 par t'
  dead : res = none → h1[t.ref]? = some ⟨t.label, [], t.attrib, none⟩

/-- The loop on a subtree does what the specification says. -/
def AskTree {S : Type} (ask : PruneAsk S) (up : Nat) (t : ATree) : Prop :=
  ∀ (h : Heap) (s : S) (par : Option Nat) (anc : List Nat) (vs : NodeView), Rep h t → t.refs.Nodup → t.keysDistinct →
    t.keysAreLabels → Par h par t → Attached h par t → Above h par anc vs → (∀ x ∈ anc, x ∉ t.refs) → anc.length + t.size ≤ up →
    ∀ (fuel : Nat) (stack : List (Nat × Bool)),
    match Spec.pruned ask s vs t with
    | (.error e, s') => ∃ h1, pruneLoopAsk ask up (fuel + t.rounds) h s ((t.ref, false) :: stack) = some (h1, s', some e) ∧
        h1.length = h.length ∧ ∀ i, i ∉ t.refs → par ≠ some i → h1[i]? = h[i]?
    | (.ok res, s') => ∃ h1, pruneLoopAsk ask up (fuel + t.rounds) h s ((t.ref, false) :: stack) =
        pruneLoopAsk ask up fuel h1 s' stack ∧ AskPruned h h1 par t res

theorem filter_sublist_keys {α β : Type} [DecidableEq α] {l' l : List (α × β)} (h : l'.Sublist l) (hn : (l.map Prod.fst).Nodup) :
    l.filter (fun e => decide (e.1 ∈ l'.map Prod.fst)) = l' := by
  induction h with
  | slnil => rfl
  | cons x h ih =>
    rw [List.map_cons, List.nodup_cons] at hn
    rw [List.filter_cons_of_neg, ih hn.2]
    intro hm
    exact hn.1 ((h.map Prod.fst).subset (by simpa using hm))
  | cons_cons x h ih =>
    rw [List.map_cons, List.nodup_cons] at hn
    rw [List.filter_cons_of_pos (by simp)]
    congr 1
    refine Eq.trans ?_ (ih hn.2)
    apply List.filter_congr
    intro e he
    have : e.1 ≠ x.1 := fun ee => hn.1 (by rw [← ee]; exact List.mem_map_of_mem he)
    simp [this]

theorem askForest {S : Type} (ask : PruneAsk S) (up x : Nat) : ∀ (k : AForest), (∀ kt ∈ k.items, AskTree ask up kt.2) →
    ∀ (h : Heap) (s : S) (nx : TNode) (anc : List Nat) (vs : NodeView), h[x]? = some nx → Dict.WF nx.children →
    (∀ kt ∈ k.items, Rep h kt.2 ∧ Par h (some x) kt.2 ∧ x ∉ kt.2.refs ∧ kt.1 = kt.2.label ∧
      Dict.get? nx.children kt.1 = some kt.2.ref ∧ kt.2.keysDistinct ∧ kt.2.keysAreLabels) →
    (k.items.flatMap (fun kt => kt.2.refs)).Nodup → (k.items.map Prod.fst).Nodup → Above h (some x) anc vs →
    (∀ y ∈ anc, y ∉ k.items.flatMap (fun kt => kt.2.refs)) → anc.length + (k.items.map (fun kt => kt.2.size)).sum ≤ up →
    ∀ (fuel : Nat) (stack : List (Nat × Bool)),
    match Spec.prunedKids ask s vs k with
    | (.error e, s') => ∃ h1, pruneLoopAsk ask up (fuel + (k.items.map (fun kt => kt.2.rounds)).sum) h s
          (k.items.reverse.map (fun kt => (kt.2.ref, false)) ++ stack) = some (h1, s', some e) ∧
        h1.length = h.length ∧ ∀ i, i ∉ k.items.flatMap (fun kt => kt.2.refs) → i ≠ x → h1[i]? = h[i]?
    | (.ok k', s') => ∃ h1, pruneLoopAsk ask up (fuel + (k.items.map (fun kt => kt.2.rounds)).sum) h s
          (k.items.reverse.map (fun kt => (kt.2.ref, false)) ++ stack) = pruneLoopAsk ask up fuel h1 s' stack ∧
        h1.length = h.length ∧ (∀ i, i ∉ k.items.flatMap (fun kt => kt.2.refs) → i ≠ x → h1[i]? = h[i]?) ∧
        h1[x]? = some { nx with children := nx.children.filter (fun e =>
          decide (e.1 ∉ k.items.map Prod.fst) || decide (e.1 ∈ k'.items.map Prod.fst)) } ∧
        RepF h1 k' ∧ ParF h1 x k'
  | .nil, _, h, s, nx, anc, vs, hx, _, _, _, _, _, _, _, fuel, stack => by
    rw [Spec.prunedKids]
    refine ⟨h, by simp [AForest.items], rfl, fun _ _ _ => rfl, ?_, trivial, trivial⟩
    rw [hx]; simp [AForest.items]
  | .cons key t rest, H, h, s, nx, anc, vs, hx, hwf, hkids, hdis, hkd, habove, hanc, hup, fuel, stack => by
    have HF := askForest ask up x rest (fun kt hkt => H kt (by simp [AForest.items, hkt])) h s nx anc vs hx hwf
      (fun kt hkt => hkids kt (by simp [AForest.items, hkt]))
    simp only [AForest.items, List.flatMap_cons, List.map_cons, List.nodup_append, List.nodup_cons, List.mem_append,
      List.sum_cons] at hdis hkd hanc hup
    have HF := HF hdis.2.1 hkd.2 habove (fun y hy => fun hm => hanc y hy (Or.inr hm)) (by omega) (fuel + t.rounds) ((t.ref, false) :: stack)
    have efuel : fuel + ((AForest.cons key t rest).items.map (fun kt => kt.2.rounds)).sum =
        fuel + t.rounds + (rest.items.map (fun kt => kt.2.rounds)).sum := by
      simp only [AForest.items, List.map_cons, List.sum_cons]; omega
    have estack : (AForest.cons key t rest).items.reverse.map (fun kt => (kt.2.ref, false)) ++ stack =
        rest.items.reverse.map (fun kt => (kt.2.ref, false)) ++ (t.ref, false) :: stack := by
      simp [AForest.items]
    rw [efuel, estack, Spec.prunedKids]
    generalize hpk : Spec.prunedKids ask s vs rest = xx at HF
    obtain ⟨res, s1⟩ := xx
    cases res with
    | error er =>
      obtain ⟨h1, e1, e2, e3⟩ := HF
      refine ⟨h1, e1, e2, ?_⟩
      intro i hi hix
      simp only [AForest.items, List.flatMap_cons, List.mem_append, not_or] at hi
      exact e3 i hi.2 hix
    | ok rest' =>
      obtain ⟨h1, e1, e2, e3, e4, e5, e6⟩ := HF
      obtain ⟨k1, k2, k3, k4, k5, k6, k7⟩ := hkids (key, t) (by simp [AForest.items])
      simp only at k1 k2 k3 k4 k5 k6 k7
      have hparts := pruned_parts ask rest s vs rest' s1 hpk
      have hkeys' : (rest'.items.map Prod.fst).Sublist (rest.items.map Prod.fst) := by
        have := hparts.1.map Prod.fst
        simp only [List.map_map] at this
        exact this
      have htx : ∀ i ∈ t.refs, h1[i]? = h[i]? := by
        intro i hi
        refine e3 i (fun hm => hdis.2.2 i hi i hm rfl) (fun e => k3 (by rw [← e]; exact hi))
      have hkeep : Dict.get? (nx.children.filter (fun e => decide (e.1 ∉ rest.items.map Prod.fst) ||
          decide (e.1 ∈ rest'.items.map Prod.fst))) key = some t.ref := by
        have hw2 : Dict.WF (nx.children.filter (fun e => decide (e.1 ∉ rest.items.map Prod.fst) ||
          decide (e.1 ∈ rest'.items.map Prod.fst))) := by
          unfold Dict.WF Dict.keys at hwf ⊢
          exact hwf.sublist (List.filter_sublist.map _)
        rw [Dict.get?_eq_some_iff hw2, List.mem_filter]
        refine ⟨(Dict.get?_eq_some_iff hwf _ _).1 k5, ?_⟩
        simp only [Bool.or_eq_true, decide_eq_true_eq]
        exact Or.inl hkd.1
      have hatt : Attached h1 (some x) t := by
        intro q hq; cases hq
        exact ⟨k3, _, e4, by rw [← k4]; exact hkeep⟩
      have habove1 : Above h1 (some x) anc vs := by
        refine habove.frame ?_
        intro y hy
        by_cases hyx : y = x
        · subst hyx
          have a1 : h.node y = nx := by unfold Heap.node; rw [hx]; rfl
          rw [a1]; unfold Heap.node; rw [e4]; exact ⟨rfl, rfl, rfl⟩
        · have := node_congr (e3 y (fun hm => hanc y hy (Or.inr hm)) hyx)
          rw [this]; exact ⟨rfl, rfl, rfl⟩
      have HT := H (key, t) (by simp [AForest.items]) h1 s1 (some x) anc vs (k1.frame t htx) hdis.1 k6 k7
        (k2.frame t (fun i hi => by rw [node_congr (htx i hi)])) hatt habove1 (fun y hy hm => hanc y hy (Or.inl hm)) (by
          simp only; omega) fuel stack
      simp only at HT ⊢
      generalize hpt : Spec.pruned ask s1 vs t = yy at HT
      obtain ⟨res, s2⟩ := yy
      cases res with
      | error er =>
        obtain ⟨h2, f1, f2, f3⟩ := HT
        refine ⟨h2, by rw [e1, f1], by rw [f2, e2], ?_⟩
        intro i hi hix
        simp only [AForest.items, List.flatMap_cons, List.mem_append, not_or] at hi
        rw [f3 i hi.1 (by intro e; cases e; exact hix rfl), e3 i hi.2 hix]
      | ok o =>
        obtain ⟨h2, f1, f2⟩ := HT
        have hrest : ∀ i, i ∈ rest'.items.flatMap (fun kt => kt.2.refs) → h2[i]? = h1[i]? := by
          intro i hi
          have hi' := hparts.2.1.subset hi
          refine f2.frame i (fun hm => hdis.2.2 i hm i hi' rfl) ?_
          intro e; cases e
          obtain ⟨kt, hkt, hm⟩ := List.mem_flatMap.1 hi'
          exact (hkids kt (by simp [AForest.items, hkt])).2.2.1 hm
        have hrep2 : RepF h2 rest' := by
          rw [RepF_iff] at e5 ⊢
          exact fun kt hkt => (e5 kt hkt).frame kt.2 (fun i hi => hrest i (List.mem_flatMap.2 ⟨kt, hkt, hi⟩))
        have hpar2 : ParF h2 x rest' := by
          rw [ParF_iff] at e6 ⊢
          exact fun kt hkt => (e6 kt hkt).frame kt.2 (fun i hi => by
            rw [node_congr (hrest i (List.mem_flatMap.2 ⟨kt, hkt, hi⟩))])
        have hframe : ∀ i, i ∉ (AForest.cons key t rest).items.flatMap (fun kt => kt.2.refs) → i ≠ x → h2[i]? = h[i]? := by
          intro i hi hix
          simp only [AForest.items, List.flatMap_cons, List.mem_append, not_or] at hi
          rw [f2.frame i hi.1 (by intro e; cases e; exact hix rfl), e3 i hi.2 hix]
        have hpx := f2.parent x rfl
        rw [e4] at hpx
        cases o with
        | none =>
          refine ⟨h2, by rw [e1, f1], by rw [f2.len, e2], hframe, ?_, hrep2, hpar2⟩
          rw [hpx]
          simp only [Option.map_some, Option.isSome_none, Bool.false_eq_true, if_false]
          have hw2 : Dict.WF (nx.children.filter (fun e => decide (e.1 ∉ rest.items.map Prod.fst) ||
            decide (e.1 ∈ rest'.items.map Prod.fst))) := by
            unfold Dict.WF Dict.keys at hwf ⊢
            exact hwf.sublist (List.filter_sublist.map _)
          rw [del_eq_filter _ hw2, List.filter_filter]
          congr 2
          apply List.filter_congr
          intro e _
          rw [← k4]
          simp only [AForest.items, List.map_cons, List.mem_cons]
          by_cases he : e.1 = key
          · have : key ∉ rest'.items.map Prod.fst := fun hm => hkd.1 (hkeys'.subset hm)
            simp [he, this]
          · simp [he]
        | some t' =>
          obtain ⟨g1, g2⟩ := f2.live t' rfl
          have hp := pruned_part ask t s1 vs t' s2 hpt
          refine ⟨h2, by rw [e1, f1], by rw [f2.len, e2], hframe, ?_, ⟨g1, hrep2⟩, ⟨g2, hpar2⟩⟩
          rw [hpx]
          simp only [Option.map_some, Option.isSome_some, if_true]
          congr 2
          apply List.filter_congr
          intro e _
          simp only [AForest.items, List.map_cons, List.mem_cons]
          by_cases he : e.1 = key
          · simp [he, hkd.1]
          · simp [he]

/-- The decision at a node, when its children have been processed and `k1` is left of them. -/
theorem ask_decide {S : Type} (ask : PruneAsk S) (up : Nat) (h : Heap) (s : S) (par : Option Nat) (r : Nat) (l : Str) (a : Attrib)
    (k k1 : AForest) (anc : List Nat) (vs : NodeView) (hr : h[r]? = some ⟨l, k1.dict, a, par⟩)
    (hatt : Attached h par (.node r l a k)) (hrep : RepF h k1) (hpar : ParF h r k1) (habove : Above h par anc vs)
    (hup : anc.length < up) (fuel : Nat) (stack : List (Nat × Bool)) (b : Bool) (hb : b = true ∨ k1.items = []) :
    match (match k1 with
      | .cons key t rest => (.ok (some (.node r l a (.cons key t rest))), s)
      | .nil => (match ask s ((l, a) :: vs) with
        | (.error e, s2) => (.error e, s2)
        | (.ok true, s2) => (.ok (some (.node r l a .nil)), s2)
        | (.ok false, s2) => (.ok none, s2)) : Except PyErr (Option ATree) × S) with
    | (.error e, s') => pruneLoopAsk ask up (fuel + 1) h s ((r, b) :: stack) = some (h, s', some e)
    | (.ok res, s') => ∃ h1, pruneLoopAsk ask up (fuel + 1) h s ((r, b) :: stack) =
        pruneLoopAsk ask up fuel h1 s' stack ∧ AskPruned h h1 par (.node r l a k) res := by
  have hnode : h.node r = ⟨l, k1.dict, a, par⟩ := by unfold Heap.node; rw [hr]; rfl
  have hcond : (b || k1.dict.isEmpty) = true := by
    rcases hb with rfl | hb
    · rfl
    · rw [AForest.isEmpty_items, hb]; simp
  have hview := viewUp_above habove r (by rw [hnode]) up hup
  rw [hnode] at hview
  simp only at hview
  rw [pruneLoopAsk]
  simp only [hnode]
  rw [if_pos hcond, AForest.isEmpty_items, hview]
  have stay : ∀ t', t' = ATree.node r l a k1 → AskPruned h h par (.node r l a k) (some t') := by
    rintro t' rfl
    refine ⟨rfl, fun _ _ _ => rfl, by intro q _; simp, ?_, by intro e; cases e⟩
    intro t' e; cases e
    exact ⟨⟨⟨par, hr⟩, hrep⟩, ⟨by rw [hnode], hpar⟩⟩
  cases k1 with
  | cons key t rest =>
    simp only [AForest.items, List.isEmpty_cons, Bool.not_false, if_true]
    exact ⟨h, rfl, stay _ rfl⟩
  | nil =>
    simp only [AForest.items, List.isEmpty_nil, Bool.not_true, Bool.false_eq_true, if_false]
    generalize ask s ((l, a) :: vs) = y
    obtain ⟨b, s2⟩ := y
    cases b with
    | error e => rfl
    | ok b =>
      cases b with
      | true => exact ⟨h, rfl, stay _ rfl⟩
      | false =>
        simp only
        have hr' : h[r]? = some ⟨l, [], a, par⟩ := hr
        cases par with
        | none =>
          obtain ⟨h', e1, e2, e3⟩ := unlink_root h r _ hr' rfl
          refine ⟨h', by rw [e1], e2, fun i _ _ => e3 i, (by intro q hq; cases hq), (by intro t' e; cases e), ?_⟩
          intro _
          rw [ATree.ref, e3, hr']; rfl
        | some q =>
          obtain ⟨hq1, nq, hq2, hq3⟩ := hatt q rfl
          have hne : r ≠ q := by
            intro e; apply hq1; rw [← e, ATree.refs_node]; simp
          obtain ⟨h', e1, e2, e3, e4, e5⟩ := unlink_child h r q _ nq hr' hq2 hne rfl hq3
          refine ⟨h', by rw [e1], e2, ?_, ?_, (by intro t' e; cases e), fun _ => e5⟩
          · intro i hi1 hi2
            refine e3 i ?_ (by intro e; rw [e] at hi2; exact hi2 rfl)
            intro e; apply hi1; rw [e, ATree.refs_node]; simp
          · intro q' hq'
            cases hq'
            rw [e4, hq2]; rfl

theorem askTree {S : Type} (ask : PruneAsk S) (up : Nat) (t : ATree) : AskTree ask up t := by
  induction t using ATree.ind with
  | h r l a k ih =>
    intro h s par anc vs hrep hnd hkd hkl hpar hatt habove hanc hup fuel stack
    obtain ⟨⟨par', hr⟩, hk⟩ := hrep
    have hk' := hk
    rw [RepF_iff] at hk
    obtain ⟨hp1, hp2⟩ := hpar
    have hnode : h.node r = ⟨l, k.dict, a, par'⟩ := by unfold Heap.node; rw [hr]; rfl
    have hpe : par' = par := by rw [hnode] at hp1; exact hp1
    subst hpe
    have hp2' := hp2
    rw [ParF_iff] at hp2
    rw [ATree.refs_node, List.nodup_cons] at hnd
    obtain ⟨hkd1, hkd2⟩ := hkd
    rw [AForest.keysDistinct_iff] at hkd2
    have hkl' := (AForest.keysAreLabels_iff k).1 hkl
    rw [ATree.size_node] at hup
    rw [ATree.rounds_node, Spec.pruned]
    by_cases he : k.items = []
    · have hnil : k = .nil := by apply AForest.items_injective; rw [he]; rfl
      subst hnil
      have e : fuel + ((if (AForest.nil.items).isEmpty then 1 else 2) + (AForest.nil.items.map (fun kt => kt.2.rounds)).sum) = fuel + 1 := by
        simp [AForest.items]
      rw [e, Spec.prunedKids]
      have HD := ask_decide ask up h s par' r l a .nil .nil anc vs hr hatt hk' hp2' habove (by omega) fuel stack false (Or.inr rfl)
      simp only at HD ⊢
      generalize ask s ((l, a) :: vs) = y at HD
      obtain ⟨b, s2⟩ := y
      cases b with
      | error e => exact ⟨h, HD, rfl, fun _ _ _ => rfl⟩
      | ok b => cases b <;> exact HD
    · have e : fuel + ((if k.items.isEmpty then 1 else 2) + (k.items.map (fun kt => kt.2.rounds)).sum) =
          ((fuel + 1) + (k.items.map (fun kt => kt.2.rounds)).sum) + 1 := by
        rw [if_neg (by simpa using he)]; omega
      rw [e]
      have hemp : k.dict.isEmpty = false := by rw [AForest.isEmpty_items]; simpa using he
      have estep : pruneLoopAsk ask up (((fuel + 1) + (k.items.map (fun kt => kt.2.rounds)).sum) + 1) h s ((r, false) :: stack) =
          pruneLoopAsk ask up ((fuel + 1) + (k.items.map (fun kt => kt.2.rounds)).sum) h s
            (k.items.reverse.map (fun kt => (kt.2.ref, false)) ++ (r, true) :: stack) := by
        rw [pruneLoopAsk]
        simp only [hnode, hemp, Bool.or_false, Bool.false_eq_true, if_false, AForest.values_dict]
        rw [← List.map_reverse, List.map_map]; rfl
      have hwf : Dict.WF k.dict := by unfold Dict.WF; rw [AForest.keys_dict]; exact hkd1
      have hanc' : ∀ y ∈ anc, y ≠ r ∧ y ∉ k.items.flatMap (fun kt => kt.2.refs) := by
        intro y hy
        have := hanc y hy
        rw [ATree.refs_node, List.mem_cons, not_or] at this
        exact this
      have HF := askForest ask up r k ih h s ⟨l, k.dict, a, par'⟩ (r :: anc) ((l, a) :: vs) hr hwf
        (by
          intro kt hkt
          refine ⟨hk kt hkt, hp2 kt hkt, ?_, (hkl' kt hkt).1, ?_, hkd2 kt hkt, (hkl' kt hkt).2⟩
          · intro hm; exact hnd.1 (List.mem_flatMap.2 ⟨kt, hkt, hm⟩)
          · rw [Dict.get?_eq_some_iff hwf]
            exact List.mem_map_of_mem (f := fun kt : Str × ATree => (kt.1, kt.2.ref)) hkt)
        hnd.2 hkd1 ⟨rfl, by rw [hnode], by rw [hnode]; exact habove⟩
        (by
          intro y hy
          rcases List.mem_cons.1 hy with rfl | hy
          · exact hnd.1
          · exact (hanc' y hy).2)
        (by simp only [List.length_cons]; omega) (fuel + 1) ((r, true) :: stack)
      show match (match Spec.prunedKids ask s ((l, a) :: vs) k with
        | (.error e, s1) => _
        | (.ok (.cons key t rest), s1) => _
        | (.ok .nil, s1) => _ : Except PyErr (Option ATree) × S) with
        | (.error e, s') => ∃ h1, pruneLoopAsk ask up _ h s ((r, false) :: stack) = _ ∧ _
        | (.ok res, s') => ∃ h1, pruneLoopAsk ask up _ h s ((r, false) :: stack) = _ ∧ _
      rw [estep]
      generalize hpk : Spec.prunedKids ask s ((l, a) :: vs) k = xx at HF
      obtain ⟨res, s1⟩ := xx
      cases res with
      | error er =>
        obtain ⟨h1, e1, e2, e3⟩ := HF
        refine ⟨h1, e1, e2, ?_⟩
        intro i hi _
        rw [ATree.refs_node, List.mem_cons, not_or] at hi
        exact e3 i hi.2 hi.1
      | ok k' =>
        obtain ⟨h1, e1, e2, e3, e4, e5, e6⟩ := HF
        have hparts := pruned_parts ask k s ((l, a) :: vs) k' s1 hpk
        have hdict : k.dict.filter (fun e => decide (e.1 ∉ k.items.map Prod.fst) || decide (e.1 ∈ k'.items.map Prod.fst)) = k'.dict := by
          have : k.dict.filter (fun e => decide (e.1 ∉ k.items.map Prod.fst) || decide (e.1 ∈ k'.items.map Prod.fst)) =
              k.dict.filter (fun e => decide (e.1 ∈ k'.dict.map Prod.fst)) := by
            apply List.filter_congr
            intro e hm
            have h1 : e.1 ∈ k.items.map Prod.fst := by
              rw [← AForest.keys_dict]; exact List.mem_map_of_mem (f := Prod.fst) hm
            have h2 : k'.dict.map Prod.fst = k'.items.map Prod.fst := AForest.keys_dict k'
            rw [h2]; simp only [h1, not_true_eq_false, decide_false, Bool.false_or]
          rw [this]
          have hd : (k.dict.map Prod.fst).Nodup := by
            rw [show k.dict.map Prod.fst = k.items.map Prod.fst from AForest.keys_dict k]; exact hkd1
          refine Eq.trans ?_ (filter_sublist_keys (l := k.dict) (l' := k'.dict) hparts.1 hd)
          apply List.filter_congr
          intro e _
          congr
        simp only at e4
        rw [hdict] at e4
        have hnotin : ∀ i, i ∉ (ATree.node r l a k).refs → h1[i]? = h[i]? := by
          intro i hi
          rw [ATree.refs_node, List.mem_cons, not_or] at hi
          exact e3 i hi.2 hi.1
        have hatt1 : Attached h1 par' (.node r l a k) := by
          intro q hq
          obtain ⟨g1, nq, g2, g3⟩ := hatt q hq
          exact ⟨g1, nq, by rw [hnotin q g1]; exact g2, g3⟩
        have habove1 : Above h1 par' anc vs := by
          refine habove.frame ?_
          intro y hy
          rw [node_congr (hnotin y (hanc y hy))]; exact ⟨rfl, rfl, rfl⟩
        have HD := ask_decide ask up h1 s1 par' r l a k k' anc vs e4 hatt1 e5 e6 habove1 (by omega) fuel stack true (Or.inl rfl)
        rw [e1]
        have lift : ∀ (res : Option ATree) (s2 : S), (∃ h2, pruneLoopAsk ask up (fuel + 1) h1 s1 ((r, true) :: stack) =
            pruneLoopAsk ask up fuel h2 s2 stack ∧ AskPruned h1 h2 par' (.node r l a k) res) →
            ∃ h2, pruneLoopAsk ask up (fuel + 1) h1 s1 ((r, true) :: stack) =
              pruneLoopAsk ask up fuel h2 s2 stack ∧ AskPruned h h2 par' (.node r l a k) res := by
          rintro res s2 ⟨h2, g1, g2⟩
          refine ⟨h2, g1, by rw [g2.len, e2], ?_, ?_, g2.live, g2.dead⟩
          · intro i h1' h2'
            rw [g2.frame i h1' h2', hnotin i h1']
          · intro q hq
            rw [g2.parent q hq, hnotin q (hatt q hq).1]
        cases k' with
        | cons key c rest => exact lift _ _ HD
        | nil =>
          simp only at HD ⊢
          generalize ask s1 ((l, a) :: vs) = y at HD
          obtain ⟨b, s2⟩ := y
          cases b with
          | error e => exact ⟨h1, HD, e2, fun i hi _ => hnotin i hi⟩
          | ok b => cases b <;> exact lift _ _ HD

/-! ### The result -/

mutual
theorem pruned_bare {S : Type} (ask : PruneAsk S) : ∀ (t : ATree) (s : S) (above : NodeView),
    Spec.pruned ask s above t.bare = ((Spec.pruned ask s above t).1.map (Option.map ATree.bare), (Spec.pruned ask s above t).2)
  | .node r l a k, s, above => by
    rw [ATree.bare, Spec.pruned, Spec.pruned, prunedKids_bare ask k]
    generalize Spec.prunedKids ask s ((l, a) :: above) k = x
    obtain ⟨res, s1⟩ := x
    cases res with
    | error e => rfl
    | ok k' =>
      cases k' with
      | cons key c rest => rfl
      | nil =>
        simp only [Except.map, AForest.bare]
        generalize ask s1 ((l, a) :: above) = y
        obtain ⟨b, s2⟩ := y
        cases b with
        | error e => rfl
        | ok b => cases b <;> rfl
theorem prunedKids_bare {S : Type} (ask : PruneAsk S) : ∀ (k : AForest) (s : S) (above : NodeView),
    Spec.prunedKids ask s above k.bare = ((Spec.prunedKids ask s above k).1.map AForest.bare, (Spec.prunedKids ask s above k).2)
  | .nil, s, above => by rw [AForest.bare, Spec.prunedKids]; rfl
  | .cons key t rest, s, above => by
    rw [AForest.bare, Spec.prunedKids, Spec.prunedKids, prunedKids_bare ask rest]
    generalize Spec.prunedKids ask s above rest = x
    obtain ⟨res, s1⟩ := x
    cases res with
    | error e => rfl
    | ok rest' =>
      simp only [Except.map]
      rw [pruned_bare ask t]
      generalize Spec.pruned ask s1 above t = y
      obtain ⟨b, s2⟩ := y
      cases b with
      | error e => rfl
      | ok b => cases b <;> rfl
end

/-- C134: `prune` with any predicate does what the specification says, whatever the predicate answers or raises, and leaves
every node that existed as it was. -/
theorem C134_prune {S : Type} (ask : PruneAsk S) (s : S) (h : Heap) (t : ATree) (hr : Rep h t) (hk : t.keysDistinct)
    (hl : t.keysAreLabels) (hroot : parentTruthy h t.ref = false) (fuel : Nat) (hf : 2 * t.size < fuel) :
    ∃ h' res, treePruneAsk ask h fuel t.ref s = some (h', (Spec.prune ask s t).2, res) ∧ (∀ x < h.length, h'[x]? = h[x]?) ∧
      match (Spec.prune ask s t).1 with
      | .error e => res = .error e
      | .ok none => res = .ok none
      | .ok (some left) => ∃ t', res = .ok (some t'.ref) ∧ IsTree h' t' ∧ t'.bare = left.bare ∧ Par h' none t' := by
  obtain ⟨h1, t', e1, ht', hb, hp', hnew, hold⟩ := C49_copy h t hr hk hl hroot fuel (by omega)
  have hkl' := keysAreLabels_of_bare t t' hb hl
  have hsize := size_bare t t' hb
  have hrounds := t'.rounds_le
  obtain ⟨f, rfl⟩ : ∃ f, fuel = (f + 1) + t'.rounds := ⟨fuel - 1 - t'.rounds, by omega⟩
  have HT := askTree ask (f + 1 + t'.rounds) t' h1 s none [] [] ht'.rep ht'.distinct ht'.keys hkl' hp' (by intro q hq; cases hq)
    trivial (by intro x hx; cases hx) (by simp only [List.length_nil]; omega) (f + 1) []
  have hcopy : (Spec.pruned ask s [] t').1.map (Option.map ATree.bare) = (Spec.pruned ask s [] t).1.map (Option.map ATree.bare) ∧
      (Spec.pruned ask s [] t').2 = (Spec.pruned ask s [] t).2 := by
    have a1 := pruned_bare ask t' s []
    have a2 := pruned_bare ask t s []
    rw [hb, a2, Prod.mk.injEq] at a1
    exact ⟨a1.1.symm, a1.2.symm⟩
  have hlab : t'.label = t.label ∧ t'.attrib = t.attrib := by
    cases t; cases t'
    simp only [ATree.bare, ATree.node.injEq, true_and] at hb
    exact ⟨hb.1, hb.2.1⟩
  have hpart := pruned_part ask t' s []
  unfold treePruneAsk
  rw [e1]
  simp only
  unfold Spec.prune
  generalize Spec.pruned ask s [] t' = xx at HT hcopy hpart
  generalize Spec.pruned ask s [] t = yy at hcopy
  obtain ⟨res, s1⟩ := xx
  obtain ⟨res', s1'⟩ := yy
  simp only at hcopy
  obtain ⟨hc1, rfl⟩ := hcopy
  have hframe : ∀ h2 : Heap, (∀ i, i ∉ t'.refs → h2[i]? = h1[i]?) → ∀ x < h.length, h2[x]? = h[x]? := by
    intro h2 hh x hx
    rw [hh x (fun hm => absurd (hnew x hm) (by omega)), hold x hx]
  cases res with
  | error e =>
    cases res' with
    | ok _ => cases hc1
    | error e' =>
      cases hc1
      obtain ⟨h2, g1, g2, g3⟩ := HT
      rw [g1]
      exact ⟨h2, .error e, rfl, hframe h2 (fun i hi => g3 i hi (by intro e; cases e)), rfl⟩
  | ok o =>
    cases res' with
    | error _ => cases hc1
    | ok o' =>
      obtain ⟨h2, g1, g2⟩ := HT
      rw [g1, pruneLoopAsk]
      have hfr := hframe h2 (fun i hi => g2.frame i hi (by intro e; cases e))
      simp only
      -- a root without children is asked about again
      have bare_root : ∀ (o' : Option ATree), (∀ r l a key c rest, o' ≠ some (.node r l a (.cons key c rest))) →
          (∃ par', h2[t'.ref]? = some ⟨t'.label, [], t'.attrib, par'⟩) → (h2.node t'.ref).parent = none →
          ∃ h' res, (pruneResultAsk ask (f + 1 + t'.rounds) h2 s1 t'.ref).map (fun x => (h2, x.2, x.1)) =
            some (h', ((match (Except.ok o', s1) with
              | (.error e, s1) => (.error e, s1)
              | (.ok (some (.node r l a (.cons key c rest))), s1) => (.ok (some (.node r l a (.cons key c rest))), s1)
              | (.ok _, s1) =>
                match ask s1 [(t.label, t.attrib)] with
                | (.error e, s2) => (.error e, s2)
                | (.ok true, s2) => (.ok (some (.node t.ref t.label t.attrib .nil)), s2)
                | (.ok false, s2) => (.ok none, s2)) : Except PyErr (Option ATree) × S).2, res) ∧
            (∀ x < h.length, h'[x]? = h[x]?) ∧
            match ((match (Except.ok o', s1) with
              | (.error e, s1) => (.error e, s1)
              | (.ok (some (.node r l a (.cons key c rest))), s1) => (.ok (some (.node r l a (.cons key c rest))), s1)
              | (.ok _, s1) =>
                match ask s1 [(t.label, t.attrib)] with
                | (.error e, s2) => (.error e, s2)
                | (.ok true, s2) => (.ok (some (.node t.ref t.label t.attrib .nil)), s2)
                | (.ok false, s2) => (.ok none, s2)) : Except PyErr (Option ATree) × S).1 with
            | .error e => res = .error e
            | .ok none => res = .ok none
            | .ok (some left) => ∃ t', res = .ok (some t'.ref) ∧ IsTree h' t' ∧ t'.bare = left.bare ∧ Par h' none t' := by
        rintro o' ho ⟨par', hn⟩ hpn
        have hnode : h2.node t'.ref = ⟨t'.label, [], t'.attrib, par'⟩ := by unfold Heap.node; rw [hn]; rfl
        have hpe : par' = none := by rw [hnode] at hpn; exact hpn
        subst hpe
        have hview : viewUp h2 (f + 1 + t'.rounds) t'.ref = some [(t.label, t.attrib)] := by
          rw [viewUp_above (par := none) (anc := []) (vs := []) trivial t'.ref hpn _ (by simp; omega), hnode, hlab.1, hlab.2]
        have hres : pruneResultAsk ask (f + 1 + t'.rounds) h2 s1 t'.ref = some (match ask s1 [(t.label, t.attrib)] with
            | (.error e, s') => (.error e, s')
            | (.ok true, s') => (.ok (some t'.ref), s')
            | (.ok false, s') => (.ok none, s')) := by
          unfold pruneResultAsk
          rw [hnode, hview]
          simp only [List.isEmpty_nil, Bool.not_true, Bool.false_eq_true, if_false]
          generalize ask s1 [(t.label, t.attrib)] = y
          obtain ⟨b, s2⟩ := y
          cases b with
          | error e => rfl
          | ok b => cases b <;> rfl
        rw [hres]
        have hleaf : ∀ s2 : S, ∃ h' res, (some (h2, s2, Except.ok (some t'.ref)) : Option (Heap × S × Except PyErr (Option Nat))) =
            some (h', s2, res) ∧ (∀ x < h.length, h'[x]? = h[x]?) ∧
            ∃ t'', res = .ok (some t''.ref) ∧ IsTree h' t'' ∧ t''.bare = (ATree.node t.ref t.label t.attrib .nil).bare ∧ Par h' none t'' := by
          intro s2
          refine ⟨h2, _, rfl, hfr, .node t'.ref t'.label t'.attrib .nil, rfl, ⟨⟨⟨none, hn⟩, trivial⟩, ?_, ?_⟩, ?_, ⟨hpn, trivial⟩⟩
          · rw [ATree.refs_node]; simp [AForest.items]
          · exact ⟨by simp [AForest.items], trivial⟩
          · simp only [ATree.bare, hlab.1, hlab.2]
        match o', ho with
        | none, _ =>
          simp only
          generalize ask s1 [(t.label, t.attrib)] = y
          obtain ⟨b, s2⟩ := y
          cases b with
          | error e => exact ⟨h2, _, rfl, hfr, rfl⟩
          | ok b =>
            cases b with
            | true => exact hleaf s2
            | false => exact ⟨h2, _, rfl, hfr, rfl⟩
        | some (.node r l a .nil), _ =>
          simp only
          generalize ask s1 [(t.label, t.attrib)] = y
          obtain ⟨b, s2⟩ := y
          cases b with
          | error e => exact ⟨h2, _, rfl, hfr, rfl⟩
          | ok b =>
            cases b with
            | true => exact hleaf s2
            | false => exact ⟨h2, _, rfl, hfr, rfl⟩
        | some (.node r l a (.cons key c rest)), ho => exact absurd rfl (ho r l a key c rest)
      cases o with
      | none =>
        cases o' with
        | some _ => simp [Except.map] at hc1
        | none =>
          have hn := g2.dead rfl
          refine bare_root none (by intro _ _ _ _ _ _ e; cases e) ⟨none, hn⟩ ?_
          unfold Heap.node; rw [hn]; rfl
      | some c =>
        cases o' with
        | none => simp [Except.map] at hc1
        | some c' =>
          simp only [Except.map, Option.map_some, Except.ok.injEq, Option.some.injEq] at hc1
          obtain ⟨m1, m2⟩ := g2.live c rfl
          obtain ⟨p1, p2, p3, p4, p5, p6⟩ := hpart c s1 rfl
          obtain ⟨r, l, a, k⟩ := c
          obtain ⟨r', l', a', k'⟩ := c'
          simp only [ATree.bare, ATree.node.injEq, true_and] at hc1
          obtain ⟨⟨par', hn⟩, hkr⟩ := m1
          have q1 : r = t'.ref := p1
          have q2 : l = t'.label := p2
          have q3 : a = t'.attrib := p3
          cases k with
          | nil =>
            cases k' with
            | cons _ _ _ => cases hc1.2.2
            | nil =>
              refine bare_root (some (.node r' l' a' .nil)) (by intro _ _ _ _ _ _ e; cases e) ⟨par', by rw [← q1, ← q2, ← q3]; exact hn⟩ ?_
              rw [← q1]; exact m2.1
          | cons key d rest =>
            cases k' with
            | nil => cases hc1.2.2
            | cons key' d' rest' =>
              refine ⟨h2, .ok (some t'.ref), ?_, hfr, .node r l a (.cons key d rest), by rw [← q1]; rfl,
                ⟨⟨⟨par', hn⟩, hkr⟩, ht'.distinct.sublist p4, p5 ht'.keys⟩, ?_, m2⟩
              · unfold pruneResultAsk
                have hnode : h2.node t'.ref = ⟨l, (AForest.cons key d rest).dict, a, par'⟩ := by
                  rw [← q1]; unfold Heap.node; rw [hn]; rfl
                rw [hnode, AForest.isEmpty_items]
                rfl
              · simp only [ATree.bare, ATree.node.injEq, true_and]; exact hc1

/-! ### Which nodes stay, and which are asked about -/

mutual
/-- The nodes with what a predicate sees at them, children before parents, the children from the last to the first. -/
def Spec.postViews (above : NodeView) : ATree → List (NodeView × ATree)
  | .node r l a k => Spec.postViewsKids ((l, a) :: above) k ++ [((l, a) :: above, .node r l a k)]
def Spec.postViewsKids (above : NodeView) : AForest → List (NodeView × ATree)
  | .nil => []
  | .cons _ t rest => Spec.postViewsKids above rest ++ Spec.postViews above t
end

/-- Some node of the tree is accepted. -/
def Spec.accepted? (p : NodeView → Bool) (above : NodeView) (t : ATree) : Bool := (Spec.postViews above t).any (fun x => p x.1)

/-- Some proper descendant of the node is accepted. -/
def Spec.acceptedBelow (p : NodeView → Bool) (x : NodeView × ATree) : Bool :=
  (Spec.postViewsKids x.1 x.2.kids).any (fun y => p y.1)

/-- The node or a descendant is accepted. -/
def Spec.acceptedFrom (p : NodeView → Bool) (x : NodeView × ATree) : Bool := p x.1 || Spec.acceptedBelow p x

theorem postViews_any (p : NodeView → Bool) (above : NodeView) (r : Nat) (l : Str) (a : Attrib) (k : AForest) :
    Spec.accepted? p above (.node r l a k) = (p ((l, a) :: above) || (Spec.postViewsKids ((l, a) :: above) k).any (fun x => p x.1)) := by
  unfold Spec.accepted?
  rw [Spec.postViews, List.any_append, Bool.or_comm]
  simp

mutual
theorem accepted_none (p : NodeView → Bool) : ∀ (t : ATree) (above : NodeView), Spec.accepted? p above t = false →
    (Spec.postViews above t).filter (Spec.acceptedFrom p) = []
  | .node r l a k, above, h => by
    rw [postViews_any, Bool.or_eq_false_iff] at h
    rw [Spec.postViews, List.filter_append, acceptedKids_none p k _ h.2]
    simp [Spec.acceptedFrom, Spec.acceptedBelow, h.1, ATree.kids, h.2]
theorem acceptedKids_none (p : NodeView → Bool) : ∀ (k : AForest) (above : NodeView),
    (Spec.postViewsKids above k).any (fun x => p x.1) = false → (Spec.postViewsKids above k).filter (Spec.acceptedFrom p) = []
  | .nil, above, _ => by rw [Spec.postViewsKids]; rfl
  | .cons key t rest, above, h => by
    rw [Spec.postViewsKids, List.any_append, Bool.or_eq_false_iff] at h
    rw [Spec.postViewsKids, List.filter_append, acceptedKids_none p rest above h.1, accepted_none p t above h.2]; rfl
end

mutual
theorem pruned_pure {S : Type} (ask : PruneAsk S) (p : NodeView → Bool) (hask : ∀ s v, (ask s v).1 = .ok (p v)) :
    ∀ (t : ATree) (s : S) (above : NodeView),
    match (Spec.pruned ask s above t).1 with
    | .error _ => False
    | .ok none => Spec.accepted? p above t = false
    | .ok (some t') => Spec.accepted? p above t = true ∧
        (Spec.postViews above t').map Prod.fst = ((Spec.postViews above t).filter (Spec.acceptedFrom p)).map Prod.fst
  | .node r l a k, s, above => by
    have H := prunedKids_pure ask p hask k s ((l, a) :: above)
    rw [Spec.pruned, postViews_any]
    generalize Spec.prunedKids ask s ((l, a) :: above) k = x at H
    obtain ⟨res, s1⟩ := x
    cases res with
    | error e => exact H
    | ok k' =>
      obtain ⟨h1, h2⟩ := H
      have hlast : (Spec.postViews above (.node r l a k)).filter (Spec.acceptedFrom p) =
          (Spec.postViewsKids ((l, a) :: above) k).filter (Spec.acceptedFrom p) ++
          (if p ((l, a) :: above) || (Spec.postViewsKids ((l, a) :: above) k).any (fun x => p x.1) then
            [((l, a) :: above, ATree.node r l a k)] else []) := by
        rw [Spec.postViews, List.filter_append]
        congr 1
        rw [List.filter_cons, List.filter_nil]
        rfl
      cases k' with
      | cons key c rest =>
        have ha : (Spec.postViewsKids ((l, a) :: above) k).any (fun x => p x.1) = true := by
          by_contra hf
          exact AForest.noConfusion (h1.2 (by simpa using hf))
        simp only
        rw [hlast, ha, Bool.or_true, if_pos rfl]
        refine ⟨rfl, ?_⟩
        rw [Spec.postViews, List.map_append, List.map_append, h2]
        rfl
      | nil =>
        have ha : (Spec.postViewsKids ((l, a) :: above) k).any (fun x => p x.1) = false := h1.1 rfl
        have hb := hask s1 ((l, a) :: above)
        simp only
        generalize ask s1 ((l, a) :: above) = y at hb
        obtain ⟨b, s2⟩ := y
        simp only at hb
        subst hb
        rw [ha, Bool.or_false]
        cases hp : p ((l, a) :: above) with
        | false => rfl
        | true =>
          simp only
          rw [hlast, hp, Bool.true_or, if_pos rfl]
          refine ⟨trivial, ?_⟩
          rw [Spec.postViews, List.map_append, List.map_append, h2]
          rfl
theorem prunedKids_pure {S : Type} (ask : PruneAsk S) (p : NodeView → Bool) (hask : ∀ s v, (ask s v).1 = .ok (p v)) :
    ∀ (k : AForest) (s : S) (above : NodeView),
    match (Spec.prunedKids ask s above k).1 with
    | .error _ => False
    | .ok k' => (k' = .nil ↔ (Spec.postViewsKids above k).any (fun x => p x.1) = false) ∧
        (Spec.postViewsKids above k').map Prod.fst = ((Spec.postViewsKids above k).filter (Spec.acceptedFrom p)).map Prod.fst
  | .nil, s, above => by
    rw [Spec.prunedKids, Spec.postViewsKids]
    exact ⟨by simp, rfl⟩
  | .cons key t rest, s, above => by
    have H := prunedKids_pure ask p hask rest s above
    rw [Spec.prunedKids, Spec.postViewsKids]
    generalize Spec.prunedKids ask s above rest = x at H
    obtain ⟨res, s1⟩ := x
    cases res with
    | error e => exact H
    | ok rest' =>
      obtain ⟨h1, h2⟩ := H
      have H2 := pruned_pure ask p hask t s1 above
      simp only
      generalize Spec.pruned ask s1 above t = y at H2
      obtain ⟨o, s2⟩ := y
      cases o with
      | error e => exact H2
      | ok o =>
        cases o with
        | none =>
          simp only at H2 ⊢
          rw [List.any_append, List.filter_append, accepted_none p t above H2]
          refine ⟨?_, by rw [List.append_nil]; exact h2⟩
          rw [h1]
          unfold Spec.accepted? at H2
          rw [H2, Bool.or_false]
        | some t' =>
          simp only at H2 ⊢
          rw [List.any_append, List.filter_append, List.map_append, Spec.postViewsKids, List.map_append, h2, H2.2]
          refine ⟨?_, rfl⟩
          have := H2.1
          unfold Spec.accepted? at this
          rw [this]
          simp
end

theorem pruned_shape {S : Type} (ask : PruneAsk S) (s : S) (above : NodeView) (r : Nat) (l : Str) (a : Attrib) (k : AForest)
    (t' : ATree) (s' : S) (e : Spec.pruned ask s above (.node r l a k) = (.ok (some t'), s')) : ∃ k', t' = .node r l a k' := by
  obtain ⟨h1, h2, h3, _⟩ := pruned_part ask _ s above t' s' e
  obtain ⟨r', l', a', k'⟩ := t'
  simp only [ATree.ref, ATree.label, ATree.attrib] at h1 h2 h3
  subst h1 h2 h3
  exact ⟨k', rfl⟩

theorem prune_pure {S : Type} (ask : PruneAsk S) (p : NodeView → Bool) (hask : ∀ s v, (ask s v).1 = .ok (p v)) (t : ATree) (s : S) :
    match (Spec.prune ask s t).1 with
    | .error _ => False
    | .ok none => Spec.accepted? p [] t = false
    | .ok (some t') => Spec.accepted? p [] t = true ∧
        (Spec.postViews [] t').map Prod.fst = ((Spec.postViews [] t).filter (Spec.acceptedFrom p)).map Prod.fst := by
  have H := pruned_pure ask p hask t s []
  obtain ⟨r, l, a, k⟩ := t
  have hs := pruned_shape ask s [] r l a k
  unfold Spec.prune
  generalize Spec.pruned ask s [] (.node r l a k) = x at H hs
  obtain ⟨res, s1⟩ := x
  have hb := hask s1 [(l, a)]
  cases res with
  | error e => exact H
  | ok o =>
    cases o with
    | none =>
      simp only [ATree.label, ATree.attrib] at H ⊢
      generalize ask s1 [(l, a)] = y at hb
      obtain ⟨b, s2⟩ := y
      simp only at hb
      subst hb
      rw [postViews_any, Bool.or_eq_false_iff] at H
      simp only [H.1]
      rw [postViews_any, H.1, H.2]; rfl
    | some t' =>
      obtain ⟨k', rfl⟩ := hs t' s1 rfl
      cases k' with
      | cons key c rest => exact H
      | nil =>
        simp only [ATree.label, ATree.attrib, ATree.ref] at H ⊢
        generalize ask s1 [(l, a)] = y at hb
        obtain ⟨b, s2⟩ := y
        simp only at hb
        subst hb
        have hnil : (Spec.postViewsKids [(l, a)] k).any (fun x => p x.1) = false := by
          by_contra hf
          have hf : (Spec.postViewsKids [(l, a)] k).any (fun x => p x.1) = true := by simpa using hf
          have h2 := H.2
          rw [Spec.postViews, Spec.postViewsKids, Spec.postViews, List.filter_append] at h2
          have hlen := congrArg List.length h2
          have : [(([(l, a)] : NodeView), ATree.node r l a k)].filter (Spec.acceptedFrom p) = [([(l, a)], .node r l a k)] := by
            rw [List.filter_cons_of_pos]
            · rfl
            · unfold Spec.acceptedFrom Spec.acceptedBelow
              rw [Bool.or_eq_true]; exact Or.inr hf
          rw [this] at hlen
          simp only [List.nil_append, List.map_cons, List.map_nil, List.length_cons, List.length_nil, List.map_append,
            List.length_append, List.length_map] at hlen
          obtain ⟨x, hx, hpx⟩ := List.any_eq_true.1 hf
          have hmem : x ∈ (Spec.postViewsKids [(l, a)] k).filter (Spec.acceptedFrom p) := by
            rw [List.mem_filter]
            exact ⟨hx, by unfold Spec.acceptedFrom; rw [hpx]; rfl⟩
          have : 0 < ((Spec.postViewsKids [(l, a)] k).filter (Spec.acceptedFrom p)).length := List.length_pos_of_mem hmem
          omega
        have hacc := H.1
        rw [postViews_any, hnil, Bool.or_false] at hacc
        rw [hacc]
        exact H

mutual
theorem postViews_bare : ∀ (t : ATree) (above : NodeView),
    (Spec.postViews above t.bare).map Prod.fst = (Spec.postViews above t).map Prod.fst
  | .node r l a k, above => by
    rw [ATree.bare, Spec.postViews, Spec.postViews, List.map_append, List.map_append, postViewsKids_bare k]; rfl
theorem postViewsKids_bare : ∀ (k : AForest) (above : NodeView),
    (Spec.postViewsKids above k.bare).map Prod.fst = (Spec.postViewsKids above k).map Prod.fst
  | .nil, above => by rw [AForest.bare]
  | .cons key t rest, above => by
    rw [AForest.bare, Spec.postViewsKids, Spec.postViewsKids, List.map_append, List.map_append, postViewsKids_bare rest,
      postViews_bare t]
end

/-- C134: for a predicate that always gives the same answer at a node, the nodes left (each with what is above it) are exactly
those that are accepted or have a descendant that is; `None` is returned iff there is none. -/
theorem C134_kept {S : Type} (ask : PruneAsk S) (p : NodeView → Bool) (hask : ∀ s v, (ask s v).1 = .ok (p v)) (s : S) (h : Heap)
    (t : ATree) (hr : Rep h t) (hk : t.keysDistinct) (hl : t.keysAreLabels) (hroot : parentTruthy h t.ref = false) (fuel : Nat)
    (hf : 2 * t.size < fuel) :
    ∃ h' s' res, treePruneAsk ask h fuel t.ref s = some (h', s', .ok res) ∧
      ((∀ x ∈ Spec.postViews [] t, p x.1 = false) → res = none) ∧
      ((∃ x ∈ Spec.postViews [] t, p x.1 = true) → ∃ t', res = some t'.ref ∧ IsTree h' t' ∧ Par h' none t' ∧
        (Spec.postViews [] t').map Prod.fst =
          ((Spec.postViews [] t).filter (fun x => p x.1 || (Spec.postViewsKids x.1 x.2.kids).any (fun y => p y.1))).map Prod.fst) := by
  obtain ⟨h', res, e1, _, hm⟩ := C134_prune ask s h t hr hk hl hroot fuel hf
  have H := prune_pure ask p hask t s
  generalize Spec.prune ask s t = x at e1 hm H
  obtain ⟨o, s1⟩ := x
  cases o with
  | error e => exact H.elim
  | ok o =>
    cases o with
    | none =>
      simp only at hm H
      subst hm
      refine ⟨h', s1, none, e1, fun _ => rfl, ?_⟩
      rintro ⟨x, hx, hp⟩
      exact absurd (List.any_eq_true.2 ⟨x, hx, hp⟩) (by unfold Spec.accepted? at H; rw [H]; exact Bool.false_ne_true)
    | some left =>
      simp only at hm H
      obtain ⟨t', rfl, ht', hb, hp'⟩ := hm
      refine ⟨h', s1, some t'.ref, e1, ?_, fun _ => ⟨t', rfl, ht', hp', ?_⟩⟩
      · intro hno
        obtain ⟨x, hx, hp⟩ := List.any_eq_true.1 H.1
        rw [hno x hx] at hp
        exact absurd hp Bool.false_ne_true
      · rw [← postViews_bare t', hb, postViews_bare, H.2]
        rfl

/-! ### The questions -/

/-- A predicate that writes down what it is asked about. -/
def Spec.logged (p : NodeView → Bool) : PruneAsk (List NodeView) := fun log v => (.ok (p v), log ++ [v])

mutual
theorem pruned_log (p : NodeView → Bool) : ∀ (t : ATree) (log : List NodeView) (above : NodeView),
    (Spec.pruned (Spec.logged p) log above t).2 =
      log ++ ((Spec.postViews above t).filter (fun x => !Spec.acceptedBelow p x)).map Prod.fst
  | .node r l a k, log, above => by
    have H := prunedKids_pure (Spec.logged p) p (fun _ _ => rfl) k log ((l, a) :: above)
    have H2 := prunedKids_log p k log ((l, a) :: above)
    rw [Spec.pruned, Spec.postViews, List.filter_append, List.map_append, ← List.append_assoc, ← H2]
    generalize Spec.prunedKids (Spec.logged p) log ((l, a) :: above) k = x at H H2
    obtain ⟨res, s1⟩ := x
    cases res with
    | error e => exact H.elim
    | ok k' =>
      have hb : Spec.acceptedBelow p ((l, a) :: above, .node r l a k) = (Spec.postViewsKids ((l, a) :: above) k).any (fun x => p x.1) := rfl
      cases k' with
      | cons key c rest =>
        have ha : (Spec.postViewsKids ((l, a) :: above) k).any (fun x => p x.1) = true := by
          by_contra hf
          exact AForest.noConfusion (H.1.2 (by simpa using hf))
        rw [List.filter_cons_of_neg (by rw [hb, ha]; simp)]
        simp
      | nil =>
        have ha := H.1.1 rfl
        rw [List.filter_cons_of_pos (by rw [hb, ha]; simp)]
        simp only [Spec.logged]
        cases p ((l, a) :: above) <;> simp
theorem prunedKids_log (p : NodeView → Bool) : ∀ (k : AForest) (log : List NodeView) (above : NodeView),
    (Spec.prunedKids (Spec.logged p) log above k).2 =
      log ++ ((Spec.postViewsKids above k).filter (fun x => !Spec.acceptedBelow p x)).map Prod.fst
  | .nil, log, above => by rw [Spec.prunedKids, Spec.postViewsKids]; simp
  | .cons key t rest, log, above => by
    have H := prunedKids_pure (Spec.logged p) p (fun _ _ => rfl) rest log above
    have H2 := prunedKids_log p rest log above
    rw [Spec.prunedKids, Spec.postViewsKids, List.filter_append, List.map_append, ← List.append_assoc, ← H2]
    generalize Spec.prunedKids (Spec.logged p) log above rest = x at H H2
    obtain ⟨res, s1⟩ := x
    cases res with
    | error e => exact H.elim
    | ok k' =>
      have H3 := pruned_log p t s1 above
      have H4 := pruned_pure (Spec.logged p) p (fun _ _ => rfl) t s1 above
      simp only
      rw [← H3]
      generalize Spec.pruned (Spec.logged p) s1 above t = y at H4
      obtain ⟨o, s2⟩ := y
      cases o with
      | error e => exact H4.elim
      | ok o => cases o <;> rfl
end

/-- C134: the predicate is asked exactly about the nodes without an accepted proper descendant, each once, children before
parents and the last child first; after that the root is asked about again if no proper descendant of it is accepted. -/
theorem C134_asked (p : NodeView → Bool) (h : Heap) (t : ATree) (hr : Rep h t) (hk : t.keysDistinct) (hl : t.keysAreLabels)
    (hroot : parentTruthy h t.ref = false) (fuel : Nat) (hf : 2 * t.size < fuel) :
    ∃ h' res, treePruneAsk (fun log v => (.ok (p v), log ++ [v])) h fuel t.ref [] = some (h',
      ((Spec.postViews [] t).filter (fun x => !(Spec.postViewsKids x.1 x.2.kids).any (fun y => p y.1))).map Prod.fst ++
        (if (Spec.postViewsKids [(t.label, t.attrib)] t.kids).any (fun y => p y.1) then [] else [[(t.label, t.attrib)]]), res) := by
  obtain ⟨h', res, e1, _, _⟩ := C134_prune (Spec.logged p) [] h t hr hk hl hroot fuel hf
  refine ⟨h', res, e1.trans ?_⟩
  congr 3
  have H := pruned_pure (Spec.logged p) p (fun _ _ => rfl) t [] []
  have HL := pruned_log p t [] []
  obtain ⟨r, l, a, k⟩ := t
  have hs := pruned_shape (Spec.logged p) [] [] r l a k
  have H0 := prunedKids_pure (Spec.logged p) p (fun _ _ => rfl) k [] [(l, a)]
  have hkid : ∀ k' s', Spec.pruned (Spec.logged p) [] [] (.node r l a k) = (.ok (some (.node r l a k')), s') →
      (k' = .nil ↔ (Spec.postViewsKids [(l, a)] k).any (fun x => p x.1) = false) := by
    intro k' s' e
    rw [Spec.pruned] at e
    generalize Spec.prunedKids (Spec.logged p) [] [(l, a)] k = x at H0 e
    obtain ⟨o, s1⟩ := x
    cases o with
    | error e => exact H0.elim
    | ok k2 =>
      rw [← H0.1]
      cases k2 with
      | cons key c rest =>
        simp only [Prod.mk.injEq, Except.ok.injEq, Option.some.injEq, ATree.node.injEq, true_and] at e
        rw [← e.1]
      | nil =>
        simp only [Spec.logged] at e
        cases hp : p [(l, a)] with
        | false => rw [hp] at e; simp at e
        | true =>
          rw [hp] at e
          simp only [Prod.mk.injEq, Except.ok.injEq, Option.some.injEq, ATree.node.injEq, true_and] at e
          rw [← e.1]
  rw [List.nil_append] at HL
  have HL : (Spec.pruned (Spec.logged p) [] [] (.node r l a k)).2 = ((Spec.postViews [] (.node r l a k)).filter
      (fun x => !(Spec.postViewsKids x.1 x.2.kids).any (fun y => p y.1))).map Prod.fst := HL
  unfold Spec.prune
  rw [← HL]
  change _ = _ ++ (if (Spec.postViewsKids [(l, a)] k).any (fun y => p y.1) = true then [] else [[(l, a)]])
  simp only [ATree.label, ATree.attrib]
  clear HL
  generalize Spec.pruned (Spec.logged p) [] [] (.node r l a k) = x at H hs hkid ⊢
  obtain ⟨o, s1⟩ := x
  cases o with
  | error e => exact H.elim
  | ok o =>
    cases o with
    | none =>
      simp only at H
      rw [postViews_any, Bool.or_eq_false_iff] at H
      rw [H.2]
      simp only [Spec.logged, H.1]
      simp
    | some t' =>
      obtain ⟨k', rfl⟩ := hs t' s1 rfl
      have hk' := hkid k' s1 rfl
      cases k' with
      | cons key c rest =>
        have : (Spec.postViewsKids [(l, a)] k).any (fun x => p x.1) = true := by
          by_contra hf
          exact AForest.noConfusion (hk'.2 (by simpa using hf))
        rw [this]
        simp
      | nil =>
        rw [hk'.1 rfl]
        simp only [Spec.logged]
        cases p [(l, a)] <;> simp

/-! ### Exceptions -/

mutual
theorem pruned_raises {S : Type} (ask : PruneAsk S) : ∀ (t : ATree) (s : S) (above : NodeView) (e : PyErr) (s' : S),
    Spec.pruned ask s above t = (.error e, s') → ∃ s0, ∃ x ∈ Spec.postViews above t, ask s0 x.1 = (.error e, s')
  | .node r l a k, s, above, e, s', h => by
    have H := prunedKids_raises ask k s ((l, a) :: above) e s'
    rw [Spec.pruned] at h
    rw [Spec.postViews]
    generalize Spec.prunedKids ask s ((l, a) :: above) k = x at H h
    obtain ⟨o, s1⟩ := x
    cases o with
    | error e1 =>
      obtain ⟨s0, y, hy, he⟩ := H (by simpa using h)
      exact ⟨s0, y, List.mem_append_left _ hy, he⟩
    | ok k' =>
      cases k' with
      | cons key c rest => simp at h
      | nil =>
        simp only at h
        refine ⟨s1, _, List.mem_append_right _ (List.mem_singleton.2 rfl), ?_⟩
        generalize ask s1 ((l, a) :: above) = y at h
        obtain ⟨b, s2⟩ := y
        cases b with
        | error e1 => simpa using h
        | ok b => cases b <;> simp at h
theorem prunedKids_raises {S : Type} (ask : PruneAsk S) : ∀ (k : AForest) (s : S) (above : NodeView) (e : PyErr) (s' : S),
    Spec.prunedKids ask s above k = (.error e, s') → ∃ s0, ∃ x ∈ Spec.postViewsKids above k, ask s0 x.1 = (.error e, s')
  | .nil, s, above, e, s', h => by rw [Spec.prunedKids] at h; simp at h
  | .cons key t rest, s, above, e, s', h => by
    have H := prunedKids_raises ask rest s above e s'
    rw [Spec.prunedKids] at h
    rw [Spec.postViewsKids]
    generalize Spec.prunedKids ask s above rest = x at H h
    obtain ⟨o, s1⟩ := x
    cases o with
    | error e1 =>
      obtain ⟨s0, y, hy, he⟩ := H (by simpa using h)
      exact ⟨s0, y, List.mem_append_left _ hy, he⟩
    | ok rest' =>
      have H2 := pruned_raises ask t s1 above e s'
      simp only at h
      generalize Spec.pruned ask s1 above t = z at H2 h
      obtain ⟨o, s2⟩ := z
      cases o with
      | error e1 =>
        obtain ⟨s0, y, hy, he⟩ := H2 (by simpa using h)
        exact ⟨s0, y, List.mem_append_right _ hy, he⟩
      | ok o => cases o <;> simp at h
end

theorem prune_raises {S : Type} (ask : PruneAsk S) (t : ATree) (s : S) (e : PyErr) (s' : S) (h : Spec.prune ask s t = (.error e, s')) :
    ∃ s0, ∃ x ∈ Spec.postViews [] t, ask s0 x.1 = (.error e, s') := by
  have H := pruned_raises ask t s [] e s'
  obtain ⟨r, l, a, k⟩ := t
  have hs := pruned_shape ask s [] r l a k
  have hroot : ([(l, a)], ATree.node r l a k) ∈ Spec.postViews [] (.node r l a k) := by
    rw [Spec.postViews]; exact List.mem_append_right _ (List.mem_singleton.2 rfl)
  unfold Spec.prune at h
  simp only [ATree.label, ATree.attrib] at h
  generalize Spec.pruned ask s [] (.node r l a k) = x at H h hs
  obtain ⟨o, s1⟩ := x
  cases o with
  | error e1 => exact H h
  | ok o =>
    cases o with
    | none =>
      simp only at h
      refine ⟨s1, _, hroot, ?_⟩
      generalize ask s1 [(l, a)] = y at h
      obtain ⟨b, s2⟩ := y
      cases b with
      | error e1 => simpa using h
      | ok b => cases b <;> simp at h
    | some t' =>
      obtain ⟨k', rfl⟩ := hs t' s1 rfl
      cases k' with
      | cons key c rest => simp at h
      | nil =>
        simp only at h
        refine ⟨s1, _, hroot, ?_⟩
        generalize ask s1 [(l, a)] = y at h
        obtain ⟨b, s2⟩ := y
        cases b with
        | error e1 => simpa using h
        | ok b => cases b <;> simp at h

/-- C134: `prune` raises nothing of its own.  An exception comes from the predicate, asked about a node of the tree, and the
predicate is not asked again afterwards: its state is the one that call left. -/
theorem C134_raises {S : Type} (ask : PruneAsk S) (s : S) (h : Heap) (t : ATree) (hr : Rep h t) (hk : t.keysDistinct)
    (hl : t.keysAreLabels) (hroot : parentTruthy h t.ref = false) (fuel : Nat) (hf : 2 * t.size < fuel) (h' : Heap) (s' : S)
    (e : PyErr) (he : treePruneAsk ask h fuel t.ref s = some (h', s', .error e)) :
    ∃ s0, ∃ x ∈ Spec.postViews [] t, ask s0 x.1 = (.error e, s') := by
  obtain ⟨h1, res, e1, _, hm⟩ := C134_prune ask s h t hr hk hl hroot fuel hf
  have H := prune_raises ask t s e s'
  generalize Spec.prune ask s t = x at e1 hm H
  obtain ⟨o, s1⟩ := x
  rw [e1] at he
  simp only [Option.some.injEq, Prod.mk.injEq] at he
  obtain ⟨_, rfl, rfl⟩ := he
  cases o with
  | error e2 =>
    simp only [Except.error.injEq] at hm
    subst hm
    exact H rfl
  | ok o =>
    cases o with
    | none => simp at hm
    | some left =>
      obtain ⟨t', h0, _⟩ := hm
      simp at h0

/-- C134: a tree of one node: the predicate is asked twice and the second answer decides. -/
theorem C134_leaf {S : Type} (ask : PruneAsk S) (s s1 s2 : S) (h : Heap) (r : Nat) (l : Str) (a : Attrib) (b b' : Bool)
    (hr : Rep h (.node r l a .nil)) (hroot : parentTruthy h r = false) (fuel : Nat) (hf : 2 < fuel)
    (h1 : ask s [(l, a)] = (.ok b, s1)) (h2 : ask s1 [(l, a)] = (.ok b', s2)) :
    ∃ h' res, treePruneAsk ask h fuel r s = some (h', s2, .ok res) ∧ (res = none ↔ b' = false) := by
  obtain ⟨h', res, e1, _, hm⟩ := C134_prune ask s h (.node r l a .nil) hr (by simp [ATree.keysDistinct, AForest.keysDistinct, AForest.items])
    (by simp [ATree.keysAreLabels, AForest.keysAreLabels]) hroot fuel (by simpa [ATree.size, ATree.subs, AForest.subs] using hf)
  have hp : Spec.prune ask s (.node r l a .nil) = (.ok (if b' then some (.node r l a .nil) else none), s2) := by
    unfold Spec.prune
    rw [Spec.pruned, Spec.prunedKids]
    simp only
    rw [h1]
    cases b <;> simp only [ATree.label, ATree.attrib, ATree.ref] <;> rw [h2] <;> cases b' <;> rfl
  rw [hp] at e1 hm
  cases b' with
  | false =>
    simp only [Bool.false_eq_true, if_false] at hm
    subst hm
    exact ⟨h', none, e1, by simp⟩
  | true =>
    simp only [if_true] at hm
    obtain ⟨t', rfl, _⟩ := hm
    exact ⟨h', some t'.ref, e1, by simp⟩

/-! ### When it ends -/

/-- C134: in every state that a program can build, `prune` ends exactly if the node does not contain itself somewhere below; below a
parent that has children it raises without asking. -/
theorem C134_ends {S : Type} (ask : PruneAsk S) (s : S) (h : Heap) (hok : Spec.NodesOk h) (r : Nat) (hr : r < h.length) :
    (parentTruthy h r = true → ∀ fuel, treePruneAsk ask h fuel r s = some (h, s, .error .genericException)) ∧
    (parentTruthy h r = false →
      (Spec.Circular (Spec.nodeKids h) r → ∀ fuel, treePruneAsk ask h fuel r s = none) ∧
      (¬ Spec.Circular (Spec.nodeKids h) r → ∃ t : ATree, t.ref = r ∧ Rep h t ∧ t.keysDistinct ∧ t.keysAreLabels ∧
        ∀ fuel, 2 * t.size < fuel → ∃ out, treePruneAsk ask h fuel r s = some out)) := by
  obtain ⟨c1, c2⟩ := C121_copy_ends_iff h hok r hr
  refine ⟨fun hp fuel => by unfold treePruneAsk; rw [(c1 hp fuel).1], fun hp => ⟨fun hc fuel => ?_, fun hc => ?_⟩⟩
  · unfold treePruneAsk; rw [((c2 hp).2.2 hc fuel).1]
  · obtain ⟨t, ways, rfl, h1, h2, h3, _⟩ := C121_walks h hok r hr hc
    refine ⟨t, rfl, h1, h2, h3, fun fuel hf => ?_⟩
    obtain ⟨h', res, e, _⟩ := C134_prune ask s h t h1 h2 h3 hp fuel hf
    exact ⟨_, e⟩

/-! ### A concrete tree -/

/-- The hypotheses can be met, with a predicate that looks at the depth of a node: the nodes just below the root stay. -/
example : Rep demoHeap demoTree ∧ demoTree.keysDistinct ∧ demoTree.keysAreLabels ∧ parentTruthy demoHeap demoTree.ref = false ∧
    2 * demoTree.size < 9 ∧
    ((Spec.postViews [] demoTree).filter (Spec.acceptedFrom (fun v => v.length == 2))).map (fun x => x.2.label) =
      [u!"c", u!"b", u!"a"] ∧
    ((Spec.postViews [] demoTree).filter (fun x => !Spec.acceptedBelow (fun v => v.length == 2) x)).map (fun x => x.2.label) =
      [u!"c", u!"d", u!"b"] :=
  ⟨demo_isTree.rep, demo_isTree.keys, demo_labels, rfl, by decide +kernel, by decide +kernel, by decide +kernel⟩

/-- The same run of the model. -/
example : ((treePruneAsk (fun log v => (.ok (v.length == 2), log ++ [v.map Prod.fst])) demoHeap 9 0 ([] : List (List Str))).map
    (fun x => x.2.1)) = some [[u!"c", u!"a"], [u!"d", u!"b", u!"a"], [u!"b", u!"a"]] := by decide +kernel

/-- A predicate that says yes only once: a tree of one node is lost although its node was accepted. -/
example : ((treePruneAsk (fun n _ => (.ok (n == 0), n + 1)) [⟨u!"a", [], [], none⟩] 3 0 0).map (fun x => (x.2.1,
    match x.2.2 with | .ok none => true | _ => false))) = some (2, true) := by decide +kernel

end Cjk
