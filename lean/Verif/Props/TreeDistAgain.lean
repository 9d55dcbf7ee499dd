import Verif.Props.TreeDistCalls
import Verif.Props.TreeDraw
import Verif.Props.RepeatedLinks
/-!
# C180: a distribution of a copy, and of a distribution
-/

namespace Cjk
open Py

/-- **C180** (equal trees).  Of two trees that agree in labels, attributes and keys, as a tree and its copy do, the constructor makes equal distributions, for every
count method that looks at the node and what is below it, and any rounding; or it raises the same exception for both. -/
theorem C180_equal_trees (ar : Arith) (m : CountMethod) (M : ATree → Except PyErr AVal) (hm : ∀ h t, IsTree h t → m h t.ref = M t.bare)
    (h h2 : Heap) (t t2 : ATree) (ht : IsTree h t) (ht2 : IsTree h2 t2) (hb : t2.bare = t.bare) (hl : t.keysAreLabels)
    (hroot : parentTruthy h t.ref = false) (hroot2 : parentTruthy h2 t2.ref = false) (fuel : Nat) (hf : 2 * t.size < fuel) :
    (∃ e, treeDist ar (some m) h fuel t.ref = some (.error e) ∧ treeDist ar (some m) h2 fuel t2.ref = some (.error e)) ∨
    ∃ h' t' h2' t2', treeDist ar (some m) h fuel t.ref = some (.ok (h', t'.ref)) ∧ treeDist ar (some m) h2 fuel t2.ref = some (.ok (h2', t2'.ref)) ∧
      IsTree h' t' ∧ IsTree h2' t2' ∧ t2'.bare = t'.bare := by
  have h1 := C75_any_method ar m M hm h t ht.rep ht.keys hl hroot fuel hf
  have h2 := C75_any_method ar m M hm h2 t2 ht2.rep ht2.keys (keysAreLabels_of_bare _ _ hb hl) hroot2 fuel (by rw [size_bare t t2 hb]; exact hf)
  rw [hb] at h2
  cases hc : t.bare.counted ar M with
  | error e => rw [hc] at h1 h2; exact Or.inl ⟨e, h1, h2⟩
  | ok s =>
    rw [hc] at h1 h2
    simp only at h1 h2
    cases hd : ar.float (s.numAt u!"cum_count") with
    | error e => rw [hd] at h1 h2; exact Or.inl ⟨e, h1, h2⟩
    | ok total =>
      rw [hd] at h1 h2
      simp only at h1 h2
      by_cases hz : total = 0
      · rw [if_pos hz] at h1 h2; exact Or.inl ⟨_, h1, h2⟩
      · rw [if_neg hz] at h1 h2
        obtain ⟨h', t', a1, a2, _, a4, _⟩ := h1
        obtain ⟨h2', t2', b1, b2, _, b4, _⟩ := h2
        exact Or.inr ⟨h', t', h2', t2', a1, b1, a2, b2, b4.trans a4.symm⟩

theorem kids_subs {t : ATree} {kt : Str × ATree} (hk : kt ∈ t.kids.items) : kt.2 ∈ t.subs := by
  obtain ⟨r, l, a, k⟩ := t
  rw [ATree.subs]
  refine List.mem_cons_of_mem _ ?_
  simp only [ATree.kids] at hk
  have key : ∀ k : AForest, ∀ kt ∈ k.items, kt.2 ∈ k.subs := by
    intro k
    induction k using AForest.rec (motive_1 := fun _ => True) with
    | node => trivial
    | nil => intro kt h; cases h
    | cons key t rest _ ih =>
      intro kt h
      rw [AForest.subs]
      rcases List.mem_cons.1 h with rfl | h
      · exact List.mem_append_left _ (by cases t; simp [ATree.subs])
      · exact List.mem_append_right _ (ih kt h)
  exact key k kt hk

theorem kids_mapAttrib (f : ATree → Attrib) (t : ATree) : (t.mapAttrib f).kids.items = t.kids.items.map (fun kt => (kt.1, kt.2.mapAttrib f)) := by
  obtain ⟨r, l, a, k⟩ := t
  rw [ATree.mapAttrib]
  exact AForest.mapAttrib_items f k

mutual
theorem mapAttrib_twice (f g : ATree → Attrib) : ∀ t : ATree, (t.mapAttrib f).mapAttrib g = t.mapAttrib (fun s => g (s.mapAttrib f))
  | .node r l a k => by
    simp only [ATree.mapAttrib]
    rw [mapAttrib_twiceF f g k]
theorem mapAttrib_twiceF (f g : ATree → Attrib) : ∀ k : AForest, (k.mapAttrib f).mapAttrib g = k.mapAttrib (fun s => g (s.mapAttrib f))
  | .nil => rfl
  | .cons key t rest => by
    simp only [AForest.mapAttrib]
    rw [mapAttrib_twice f g t, mapAttrib_twiceF f g rest]
end

mutual
theorem mapAttrib_keysAreLabels (f : ATree → Attrib) : ∀ t : ATree, (t.mapAttrib f).keysAreLabels ↔ t.keysAreLabels
  | .node r l a k => by rw [ATree.mapAttrib, ATree.keysAreLabels, ATree.keysAreLabels, mapAttrib_keysAreLabelsF f k]
theorem mapAttrib_keysAreLabelsF (f : ATree → Attrib) : ∀ k : AForest, (k.mapAttrib f).keysAreLabels ↔ k.keysAreLabels
  | .nil => Iff.rfl
  | .cons key (.node r l a k) rest => by
    have h := mapAttrib_keysAreLabels f (.node r l a k)
    rw [AForest.mapAttrib, AForest.keysAreLabels, AForest.keysAreLabels, mapAttrib_keysAreLabelsF f rest, h]
    rfl
end

theorem subs_trans : ∀ {t s s' : ATree}, s ∈ t.subs → s' ∈ s.subs → s' ∈ t.subs := by
  intro t
  induction t using ATree.ind with
  | h r l a k ih =>
    intro s s' hs hs'
    rw [ATree.subs] at hs
    rcases List.mem_cons.1 hs with rfl | hs
    · exact hs'
    · rw [ATree.subs]
      refine List.mem_cons_of_mem _ ?_
      have key : ∀ k' : AForest, (∀ kt ∈ k'.items, kt ∈ k.items) → s ∈ k'.subs → s' ∈ k'.subs := by
        intro k'
        induction k' using AForest.rec (motive_1 := fun _ => True) with
        | node => trivial
        | nil => intro _ h; cases h
        | cons key t rest _ ih2 =>
          intro hsub h
          rw [AForest.subs] at h ⊢
          rcases List.mem_append.1 h with h | h
          · exact List.mem_append_left _ (ih (key, t) (hsub _ List.mem_cons_self) h hs')
          · exact List.mem_append_right _ (ih2 (fun kt hkt => hsub kt (List.mem_cons_of_mem _ hkt)) h)
      exact key k (fun _ h => h) hs

/-- **C180** (again).  A distribution of a distribution's tree is the same again, for every count method that gives each node of the first distribution the count it
has there: the same method if it does not look at the three attributes, or the one that reads `count`. -/
theorem C180_again (m m2 : Str → Attrib → Nat → ℚ) (h : Heap) (t : ATree) (hr : Rep h t) (hk : t.keysDistinct)
    (hl : t.keysAreLabels) (hroot : parentTruthy h t.ref = false) (fuel : Nat) (hf : 2 * t.size < fuel) (ht : t.count1 m ≠ 0)
    (hm : ∀ s ∈ t.subs, m2 s.label (distAttrib m (ATree.count1 m) (t.count1 m) s) s.kids.items.length = s.count m) :
    ∃ h' t' h'' t'', treeDist .exact (some (countBy m)) h fuel t.ref = some (.ok (h', t'.ref)) ∧
      treeDist .exact (some (countBy m2)) h' fuel t'.ref = some (.ok (h'', t''.ref)) ∧ IsTree h' t' ∧ IsTree h'' t'' ∧ t''.bare = t'.bare := by
  obtain ⟨h', t', e1, e2, e3, e4, _, _⟩ := C75_dist_partial m h t hr hk hl hroot fuel hf ht
  have hF : ∀ s s' : ATree, s'.bare = s.bare → distAttrib m (ATree.count1 m) (t.count1 m) s' = distAttrib m (ATree.count1 m) (t.count1 m) s :=
    fun s s' hb => distAttrib_bare hb m _
  generalize hFdef : distAttrib m (ATree.count1 m) (t.count1 m) = F at e4 hF hm
  have hcount : ∀ s ∈ t.subs, (s.mapAttrib F).count m2 = s.count m := by
    intro s hs
    rw [← hm s hs]
    unfold ATree.count
    rw [kids_mapAttrib, List.length_map]
    cases s; rfl
  have hcount1 : ∀ s ∈ t.subs, (s.mapAttrib F).count1 m2 = s.count1 m := by
    intro s hs
    unfold ATree.count1
    rw [hcount s hs, kids_mapAttrib, List.map_map]
    congr 2
    exact List.map_congr_left (fun kt hkt => hcount kt.2 (subs_trans hs (kids_subs hkt)))
  have hself : t ∈ t.subs := by cases t; simp [ATree.subs]
  have htot : t'.count1 m2 = t.count1 m := by rw [count1_bare e4, hcount1 t hself]
  have hroot' : parentTruthy h' t'.ref = false := by unfold parentTruthy; rw [e3.parent]
  have hsz : t'.size = t.size := by rw [size_bare _ _ e4, size_mapAttrib]
  have hlab : t'.keysAreLabels := by
    refine keysAreLabels_of_bare _ _ e4 ?_
    exact (mapAttrib_keysAreLabels F t).2 hl
  obtain ⟨h'', t'', f1, f2, _, f4, _, _⟩ := C75_dist_partial m2 h' t' e2.rep e2.keys hlab hroot' fuel (by omega) (by rw [htot]; exact ht)
  refine ⟨h', t', h'', t'', e1, f1, e2, f2, ?_⟩
  rw [f4, mapAttrib_bare _ (fun s s' hb => distAttrib_bare hb m2 _) _ _ e4, mapAttrib_twice, e4, htot]
  congr 1
  apply mapAttrib_congr
  intro s hs
  have ha : (s.mapAttrib F).attrib = F s := by cases s; rfl
  show Dict.set (Dict.set (Dict.set (s.mapAttrib F).attrib _ _) _ _) _ _ = _
  rw [ha, hcount s hs, hcount1 s hs, ← hFdef]
  have k1 : Dict.get? (distAttrib m (ATree.count1 m) (t.count1 m) s) (.str u!"count") = some (.num (s.count m)) := by
    unfold distAttrib
    rw [Dict.get?_set_ne _ _ (by decide), Dict.get?_set_ne _ _ (by decide), Dict.get?_set_self]
  have k2 : Dict.get? (distAttrib m (ATree.count1 m) (t.count1 m) s) (.str u!"cum_count") = some (.num (s.count1 m)) := by
    unfold distAttrib
    rw [Dict.get?_set_ne _ _ (by decide), Dict.get?_set_self]
  have k3 : Dict.get? (distAttrib m (ATree.count1 m) (t.count1 m) s) (.str u!"freq") = some (.num (s.count1 m / t.count1 m)) := by
    unfold distAttrib
    rw [Dict.get?_set_self]
  rw [dict_set_same k1, dict_set_same k2, dict_set_same k3]

/-- The number stored under `count`, or 0. -/
def storedCount (a : Attrib) : ℚ :=
  match Dict.get? a (.str u!"count") with
  | some (.num q) => q
  | _ => 0

/-- **C180** (again, with the counts stored): `TreeDist(d.root, lambda n: n['count'])` is a distribution equal to `d`. -/
theorem C180_stored_counts (m : Str → Attrib → Nat → ℚ) (h : Heap) (t : ATree) (hr : Rep h t) (hk : t.keysDistinct)
    (hl : t.keysAreLabels) (hroot : parentTruthy h t.ref = false) (fuel : Nat) (hf : 2 * t.size < fuel) (ht : t.count1 m ≠ 0) :
    ∃ h' t' h'' t'', treeDist .exact (some (countBy m)) h fuel t.ref = some (.ok (h', t'.ref)) ∧
      treeDist .exact (some (countBy (fun _ a _ => storedCount a))) h' fuel t'.ref = some (.ok (h'', t''.ref)) ∧ IsTree h' t' ∧ IsTree h'' t'' ∧
      t''.bare = t'.bare := by
  refine C180_again m _ h t hr hk hl hroot fuel hf ht (fun s _ => ?_)
  unfold storedCount distAttrib
  rw [Dict.get?_set_ne _ _ (by decide), Dict.get?_set_ne _ _ (by decide), Dict.get?_set_self]

/-- **C180** (again, with the default): `TreeDist(TreeDist(t).root)` equals `TreeDist(t)`, if `t` has any children at all. -/
theorem C180_default (h : Heap) (t : ATree) (hr : Rep h t) (hk : t.keysDistinct)
    (hl : t.keysAreLabels) (hroot : parentTruthy h t.ref = false) (fuel : Nat) (hf : 2 * t.size < fuel) (hne : t.kids.items ≠ []) :
    ∃ h' t' h'' t'', treeDist .exact (some (countBy (fun _ _ n => (n : ℚ)))) h fuel t.ref = some (.ok (h', t'.ref)) ∧
      treeDist .exact (some (countBy (fun _ _ n => (n : ℚ)))) h' fuel t'.ref = some (.ok (h'', t''.ref)) ∧ IsTree h' t' ∧ IsTree h'' t'' ∧
      t''.bare = t'.bare := by
  refine C180_again _ _ h t hr hk hl hroot fuel hf ?_ (fun s _ => rfl)
  have h1 : (0 : ℚ) < (t.kids.items.length : ℚ) := by
    have : 0 < t.kids.items.length := List.length_pos_iff.2 hne
    exact_mod_cast this
  have h2 : (0 : ℚ) ≤ (t.kids.items.map (fun kt => kt.2.count (fun _ _ n => (n : ℚ)))).sum := by
    generalize t.kids.items = l
    induction l with
    | nil => exact le_refl _
    | cons kt l ih =>
      rw [List.map_cons, List.sum_cons]
      exact add_nonneg (Nat.cast_nonneg _) ih
  have h3 : t.count1 (fun _ _ n => (n : ℚ)) = (t.kids.items.length : ℚ) + (t.kids.items.map (fun kt => kt.2.count (fun _ _ n => (n : ℚ)))).sum := rfl
  rw [h3]
  exact ne_of_gt (add_pos_of_pos_of_nonneg h1 h2)

/-! ### The same with any arithmetic and any count method -/

/-- The attributes other than `count`, `cum_count` and `freq`. -/
def Spec.otherAttribs (a : Attrib) : Attrib := a.filter (fun kv => !(kv.1 == .str u!"count" || kv.1 == .str u!"cum_count" || kv.1 == .str u!"freq"))

theorem others_set (a : Attrib) (key : AKey) (v : AVal) (hk : (key == .str u!"count" || key == .str u!"cum_count" || key == .str u!"freq") = true) :
    Spec.otherAttribs (Dict.set a key v) = Spec.otherAttribs a := by
  unfold Spec.otherAttribs
  induction a with
  | nil => rw [Dict.set, List.filter_cons_of_neg (by simp only [hk]; decide)]
  | cons x a ih =>
    obtain ⟨k', v'⟩ := x
    rw [Dict.set]
    split
    · rename_i h
      subst h
      rw [List.filter_cons_of_neg (by simp only [hk]; decide), List.filter_cons_of_neg (by simp only [hk]; decide)]
    · rw [List.filter_cons, List.filter_cons, ih]

theorem others_withFreq (ar : Arith) (total : ℚ) (s : ATree) : Spec.otherAttribs (withFreq ar total s) = Spec.otherAttribs s.attrib :=
  others_set _ _ _ (by decide)

theorem mapAttrib_attrib (f : ATree → Attrib) (t : ATree) : (t.mapAttrib f).attrib = f t := by cases t; rfl

theorem numAt_freq (ar : Arith) (total : ℚ) (key : Str) (hk : AKey.str u!"freq" ≠ .str key) (s : ATree) :
    (s.mapAttrib (withFreq ar total)).numAt key = s.numAt key := by
  unfold ATree.numAt
  rw [mapAttrib_attrib]
  unfold withFreq
  rw [Dict.get?_set_ne _ _ (fun e => hk e)]

theorem stripFreq (ar : Arith) (total : ℚ) (k : AForest) :
    (k.mapAttrib (withFreq ar total)).mapAttrib (fun s => Spec.otherAttribs s.attrib) = k.mapAttrib (fun s => Spec.otherAttribs s.attrib) := by
  rw [mapAttrib_twiceF]
  congr 1
  funext s
  rw [mapAttrib_attrib, others_withFreq]

theorem numAt_counts (ar : Arith) (total : ℚ) (k : AForest) :
    (k.mapAttrib (withFreq ar total)).items.map (fun kt => kt.2.numAt u!"count") = k.items.map (fun kt => kt.2.numAt u!"count") := by
  rw [AForest.mapAttrib_items, List.map_map]
  apply List.map_congr_left
  intro kt _
  exact numAt_freq ar total _ (by decide) kt.2

mutual
theorem counted_subs (ar : Arith) (M : ATree → Except PyErr AVal) (total : ℚ) : ∀ t s : ATree, t.counted ar M = .ok s →
    ∀ u ∈ (s.mapAttrib (withFreq ar total)).subs, ∃ q, Dict.get? u.attrib (.str u!"count") = some (.num q) ∧
      ((∀ v : ATree, M v = M (v.mapAttrib (fun s => Spec.otherAttribs s.attrib))) → M u = .ok (.num q))
  | .node r l a k, s, h, u, hu => by
    rw [ATree.counted] at h
    cases hk : k.counted ar M with
    | error e => rw [hk] at h; cases h
    | ok k' =>
      rw [hk] at h
      simp only at h
      cases hm : M (.node r l a k') with
      | error e => rw [hm] at h; cases h
      | ok v =>
        rw [hm] at h
        cases v with
        | none => cases h
        | obj n => cases h
        | num q =>
          simp only [Except.ok.injEq] at h
          subst h
          rw [ATree.mapAttrib, ATree.subs, List.mem_cons] at hu
          rcases hu with rfl | hu
          · refine ⟨q, ?_, fun hM => ?_⟩
            · simp only [ATree.attrib, withFreq]
              rw [Dict.get?_set_ne _ _ (by decide), Dict.get?_set_ne _ _ (by decide), Dict.get?_set_self]
            · rw [← hm, hM, hM (.node r l a k')]
              congr 1
              simp only [ATree.mapAttrib, ATree.node.injEq, true_and, stripFreq, and_true]
              simp only [ATree.attrib]
              rw [others_withFreq]
              simp only [ATree.attrib]
              rw [others_set _ _ _ (by decide), others_set _ _ _ (by decide)]
          · exact counted_subsF ar M total k k' hk u hu
theorem counted_subsF (ar : Arith) (M : ATree → Except PyErr AVal) (total : ℚ) : ∀ k k' : AForest, k.counted ar M = .ok k' →
    ∀ u ∈ (k'.mapAttrib (withFreq ar total)).subs, ∃ q, Dict.get? u.attrib (.str u!"count") = some (.num q) ∧
      ((∀ v : ATree, M v = M (v.mapAttrib (fun s => Spec.otherAttribs s.attrib))) → M u = .ok (.num q))
  | .nil, k', h, u, hu => by
    rw [AForest.counted] at h
    cases h
    cases hu
  | .cons key t rest, k', h, u, hu => by
    rw [AForest.counted] at h
    cases hr : rest.counted ar M with
    | error e => rw [hr] at h; cases h
    | ok rest' =>
      rw [hr] at h
      simp only at h
      cases ht : t.counted ar M with
      | error e => rw [ht] at h; cases h
      | ok t' =>
        rw [ht] at h
        simp only [Except.ok.injEq] at h
        subst h
        rw [AForest.mapAttrib, AForest.subs, List.mem_append] at hu
        rcases hu with hu | hu
        · exact counted_subs ar M total t t' ht u hu
        · exact counted_subsF ar M total rest rest' hr u hu
end

mutual
theorem counted_fixed (ar : Arith) (M M2 : ATree → Except PyErr AVal) (total : ℚ) : ∀ t s : ATree, t.counted ar M = .ok s →
    (∀ u ∈ (s.mapAttrib (withFreq ar total)).subs, ∃ q, Dict.get? u.attrib (.str u!"count") = some (.num q) ∧ M2 u = .ok (.num q)) →
    (s.mapAttrib (withFreq ar total)).counted ar M2 = .ok (s.mapAttrib (withFreq ar total))
  | .node r l a k, s, h, hM => by
    rw [ATree.counted] at h
    cases hk : k.counted ar M with
    | error e => rw [hk] at h; cases h
    | ok k' =>
      rw [hk] at h
      simp only at h
      cases hm : M (.node r l a k') with
      | error e => rw [hm] at h; cases h
      | ok v =>
        rw [hm] at h
        cases v with
        | none => cases h
        | obj n => cases h
        | num q =>
          simp only [Except.ok.injEq] at h
          subst h
          rw [ATree.mapAttrib] at hM ⊢
          have hkids := counted_fixedF ar M M2 total k k' hk (fun u hu => hM u (by rw [ATree.subs]; exact List.mem_cons_of_mem _ hu))
          obtain ⟨q', h1, h2⟩ := hM _ (by rw [ATree.subs]; exact List.mem_cons_self)
          simp only [ATree.attrib] at h1
          have hc : Dict.get? (withFreq ar total (.node r l (Dict.set (Dict.set a (.str u!"count") (.num q)) (.str u!"cum_count")
              (.num (ar.add q ((k'.items.map (fun kt => kt.2.numAt u!"count")).foldl ar.add 0)))) k')) (.str u!"cum_count") =
              some (.num (ar.add q ((k'.items.map (fun kt => kt.2.numAt u!"count")).foldl ar.add 0))) := by
            unfold withFreq
            rw [Dict.get?_set_ne _ _ (by decide)]
            simp only [ATree.attrib]
            rw [Dict.get?_set_self]
          have hq : q' = q := by
            unfold withFreq at h1
            rw [Dict.get?_set_ne _ _ (by decide)] at h1
            simp only [ATree.attrib] at h1
            rw [Dict.get?_set_ne _ _ (by decide), Dict.get?_set_self] at h1
            cases h1
            rfl
          subst hq
          rw [ATree.counted, hkids]
          simp only [h2]
          rw [numAt_counts, dict_set_same h1, dict_set_same hc]
theorem counted_fixedF (ar : Arith) (M M2 : ATree → Except PyErr AVal) (total : ℚ) : ∀ k k' : AForest, k.counted ar M = .ok k' →
    (∀ u ∈ (k'.mapAttrib (withFreq ar total)).subs, ∃ q, Dict.get? u.attrib (.str u!"count") = some (.num q) ∧ M2 u = .ok (.num q)) →
    (k'.mapAttrib (withFreq ar total)).counted ar M2 = .ok (k'.mapAttrib (withFreq ar total))
  | .nil, k', h, _ => by
    rw [AForest.counted] at h
    cases h
    rfl
  | .cons key t rest, k', h, hM => by
    rw [AForest.counted] at h
    cases hr : rest.counted ar M with
    | error e => rw [hr] at h; cases h
    | ok rest' =>
      rw [hr] at h
      simp only at h
      cases ht : t.counted ar M with
      | error e => rw [ht] at h; cases h
      | ok t' =>
        rw [ht] at h
        simp only [Except.ok.injEq] at h
        subst h
        rw [AForest.mapAttrib] at hM ⊢
        rw [AForest.counted, counted_fixedF ar M M2 total rest rest' hr (fun u hu => hM u (by rw [AForest.subs]; exact List.mem_append_right _ hu))]
        simp only
        rw [counted_fixed ar M M2 total t t' ht (fun u hu => hM u (by rw [AForest.subs]; exact List.mem_append_left _ hu))]
end

theorem freq_again (ar : Arith) (total : ℚ) (s : ATree) :
    (s.mapAttrib (withFreq ar total)).mapAttrib (withFreq ar total) = s.mapAttrib (withFreq ar total) := by
  rw [mapAttrib_twice]
  congr 1
  funext u
  have h : ∀ v : ATree, withFreq ar total v = Dict.set v.attrib (.str u!"freq") (.num (ar.div (v.numAt u!"cum_count") total)) := fun _ => rfl
  rw [h (u.mapAttrib (withFreq ar total)), numAt_freq ar total u!"cum_count" (by decide) u, mapAttrib_attrib]
  exact dict_set_same (by rw [h u, Dict.get?_set_self])

mutual
theorem counted_keysAreLabels (ar : Arith) (M : ATree → Except PyErr AVal) : ∀ t s : ATree, t.counted ar M = .ok s →
    (t.keysAreLabels → s.keysAreLabels) ∧ s.label = t.label ∧ s.size = t.size
  | .node r l a k, s, h => by
    rw [ATree.counted] at h
    cases hk : k.counted ar M with
    | error e => rw [hk] at h; cases h
    | ok k' =>
      rw [hk] at h
      simp only at h
      obtain ⟨f1, f2⟩ := counted_keysAreLabelsF ar M k k' hk
      cases hm : M (.node r l a k') with
      | error e => rw [hm] at h; cases h
      | ok v =>
        rw [hm] at h
        cases v with
        | none => cases h
        | obj n => cases h
        | num q =>
          simp only [Except.ok.injEq] at h
          subst h
          refine ⟨fun hl => ?_, rfl, ?_⟩
          · rw [ATree.keysAreLabels] at hl ⊢
            exact f1 hl
          · simp only [ATree.size, ATree.subs, List.length_cons, f2]
theorem counted_keysAreLabelsF (ar : Arith) (M : ATree → Except PyErr AVal) : ∀ k k' : AForest, k.counted ar M = .ok k' →
    (k.keysAreLabels → k'.keysAreLabels) ∧ k'.subs.length = k.subs.length
  | .nil, k', h => by
    rw [AForest.counted] at h
    cases h
    exact ⟨id, rfl⟩
  | .cons key t rest, k', h => by
    rw [AForest.counted] at h
    cases hr : rest.counted ar M with
    | error e => rw [hr] at h; cases h
    | ok rest' =>
      rw [hr] at h
      simp only at h
      cases ht : t.counted ar M with
      | error e => rw [ht] at h; cases h
      | ok t' =>
        rw [ht] at h
        simp only [Except.ok.injEq] at h
        subst h
        obtain ⟨a1, a2, a3⟩ := counted_keysAreLabels ar M t t' ht
        obtain ⟨b1, b2⟩ := counted_keysAreLabelsF ar M rest rest' hr
        refine ⟨fun hl => ?_, ?_⟩
        · rw [AForest.keysAreLabels] at hl ⊢
          exact ⟨by rw [a2]; exact hl.1, a1 hl.2.1, b1 hl.2.2⟩
        · unfold ATree.size at a3
          simp only [AForest.subs, List.length_append, a3, b2]
end

mutual
theorem bare_bare : ∀ t : ATree, t.bare.bare = t.bare
  | .node r l a k => by simp only [ATree.bare, forest_bare_bare k]
theorem forest_bare_bare : ∀ k : AForest, k.bare.bare = k.bare
  | .nil => rfl
  | .cons key t rest => by simp only [AForest.bare, bare_bare t, forest_bare_bare rest]
end

/-- What is needed of a count method: it looks at the node and at what is below it. -/
theorem dist_again (ar : Arith) (m m2 : CountMethod) (M M2 : ATree → Except PyErr AVal) (hm : ∀ h t, IsTree h t → m h t.ref = M t.bare)
    (hm2 : ∀ h t, IsTree h t → m2 h t.ref = M2 t.bare) (h : Heap) (t : ATree) (hr : Rep h t) (hk : t.keysDistinct) (hl : t.keysAreLabels)
    (hroot : parentTruthy h t.ref = false) (fuel : Nat) (hf : 2 * t.size < fuel) (h' : Heap) (r' : Nat)
    (hd : treeDist ar (some m) h fuel t.ref = some (.ok (h', r')))
    (hM : ∀ s total, t.bare.counted ar M = .ok s → ∀ u ∈ (s.mapAttrib (withFreq ar total)).subs,
      ∃ q, Dict.get? u.attrib (.str u!"count") = some (.num q) ∧ M2 u = .ok (.num q)) :
    ∃ t' h'' t'', t'.ref = r' ∧ IsTree h' t' ∧ treeDist ar (some m2) h' fuel r' = some (.ok (h'', t''.ref)) ∧ IsTree h'' t'' ∧ t''.bare = t'.bare := by
  have h1 := C75_any_method ar m M hm h t hr hk hl hroot fuel hf
  cases hc : t.bare.counted ar M with
  | error e => rw [hc] at h1; rw [h1] at hd; cases hd
  | ok s =>
    rw [hc] at h1
    simp only at h1
    cases hfl : ar.float (s.numAt u!"cum_count") with
    | error e => rw [hfl] at h1; simp only at h1; rw [h1] at hd; cases hd
    | ok total =>
      rw [hfl] at h1
      simp only at h1
      by_cases hz : total = 0
      · rw [if_pos hz] at h1; rw [h1] at hd; cases hd
      · rw [if_neg hz] at h1
        obtain ⟨h1', t', a1, a2, a3, a4, _⟩ := h1
        rw [a1] at hd
        simp only [Option.some.injEq, Except.ok.injEq, Prod.mk.injEq] at hd
        obtain ⟨rfl, rfl⟩ := hd
        obtain ⟨c1, _, c3⟩ := counted_keysAreLabels ar M t.bare s hc
        have hbl : t.bare.keysAreLabels := keysAreLabels_of_bare t t.bare (bare_bare t) hl
        have hsz : t'.size = t.size := by
          have e1 : t'.bare.size = t'.size := size_bare _ _ (bare_bare t')
          have e2 : t.bare.size = t.size := size_bare _ _ (bare_bare t)
          rw [← e1, a4, size_mapAttrib, c3, e2]
        have hlab : t'.keysAreLabels := by
          have : t'.bare.keysAreLabels := by rw [a4]; exact (mapAttrib_keysAreLabels _ s).2 (c1 hbl)
          exact keysAreLabels_of_bare t'.bare t' (bare_bare t').symm this
        have hroot' : parentTruthy h1' t'.ref = false := by unfold parentTruthy; rw [a3.parent]
        have h2 := C75_any_method ar m2 M2 hm2 h1' t' a2.rep a2.keys hlab hroot' fuel (by omega)
        rw [a4, counted_fixed ar M M2 total t.bare s hc (hM s total hc)] at h2
        simp only at h2
        rw [numAt_freq ar total u!"cum_count" (by decide) s, hfl] at h2
        simp only [if_neg hz] at h2
        obtain ⟨h'', t'', b1, b2, _, b4, _⟩ := h2
        exact ⟨t', h'', t'', rfl, a2, b1, b2, by rw [b4, freq_again, a4]⟩

/-- **C180** (again, any arithmetic).  With whatever rounding, and for every count method that looks at the node and what is below it but not at `count`,
`cum_count` and `freq`: if `TreeDist(t, m)` is constructed, then `TreeDist` of its root with the same method, or with the method that reads `count`, is constructed
as well and equal to it. -/
theorem C180_any_arithmetic (ar : Arith) (m : CountMethod) (M : ATree → Except PyErr AVal) (hm : ∀ h t, IsTree h t → m h t.ref = M t.bare)
    (h : Heap) (t : ATree) (hr : Rep h t) (hk : t.keysDistinct) (hl : t.keysAreLabels) (hroot : parentTruthy h t.ref = false) (fuel : Nat)
    (hf : 2 * t.size < fuel) (h' : Heap) (r' : Nat) (hd : treeDist ar (some m) h fuel t.ref = some (.ok (h', r'))) :
    (∃ t' h'' t'', t'.ref = r' ∧ IsTree h' t' ∧ treeDist ar (some (fun h r => getAttr h r (.str u!"count"))) h' fuel r' = some (.ok (h'', t''.ref)) ∧
      IsTree h'' t'' ∧ t''.bare = t'.bare) ∧
    ((∀ v : ATree, M v = M (v.mapAttrib (fun s => Spec.otherAttribs s.attrib))) →
      ∃ t' h'' t'', t'.ref = r' ∧ IsTree h' t' ∧ treeDist ar (some m) h' fuel r' = some (.ok (h'', t''.ref)) ∧
        IsTree h'' t'' ∧ t''.bare = t'.bare) := by
  constructor
  · refine dist_again ar m _ M (fun u => Dict.getItem u.attrib (.str u!"count")) hm ?_ h t hr hk hl hroot fuel hf h' r' hd ?_
    · intro h t ht
      unfold getAttr
      rw [ht.rep.lookup.2.2]
      cases t; rfl
    · intro s total hc u hu
      obtain ⟨q, h1, _⟩ := counted_subs ar M total _ s hc u hu
      refine ⟨q, h1, ?_⟩
      unfold Dict.getItem
      rw [h1]
  · intro hM
    refine dist_again ar m m M M hm hm h t hr hk hl hroot fuel hf h' r' hd ?_
    intro s total hc u hu
    obtain ⟨q, h1, h2⟩ := counted_subs ar M total _ s hc u hu
    exact ⟨q, h1, h2 hM⟩

/-- **C180** (copies).  The distributions of a tree and of its copy. -/
theorem C180_copy (ar : Arith) (m : CountMethod) (M : ATree → Except PyErr AVal) (hm : ∀ h t, IsTree h t → m h t.ref = M t.bare)
    (h : Heap) (t : ATree) (ht : IsTree h t) (hl : t.keysAreLabels) (hroot : (h.node t.ref).parent = none) (fuel : Nat) (hf : 2 * t.size < fuel) :
    ∃ h1 r1, treeCopy h fuel t.ref = some (.ok (h1, r1)) ∧
      ((∃ e, treeDist ar (some m) h1 fuel t.ref = some (.error e) ∧ treeDist ar (some m) h1 fuel r1 = some (.error e)) ∨
      ∃ h' t' h2' t2', treeDist ar (some m) h1 fuel t.ref = some (.ok (h', t'.ref)) ∧ treeDist ar (some m) h1 fuel r1 = some (.ok (h2', t2'.ref)) ∧
        IsTree h' t' ∧ IsTree h2' t2' ∧ t2'.bare = t'.bare) := by
  obtain ⟨h1, t1, e1, e2, e3, e4, e5, e6⟩ := C49_copy h t ht.rep ht.keys hl (by unfold parentTruthy; rw [hroot]) fuel (by omega)
  have ht' : IsTree h1 t := ⟨ht.rep.frame t (fun x hx => e6 x (ht.rep.refs_lt x hx)), ht.distinct, ht.keys⟩
  have hroot1 : parentTruthy h1 t1.ref = false := by
    obtain ⟨r, l, a, k⟩ := t1
    have := e4.1
    simp [parentTruthy, ATree.ref, this]
  have hroot0 : parentTruthy h1 t.ref = false := by
    have hx := e6 t.ref ht.rep.lt
    have hn : h1.node t.ref = h.node t.ref := by unfold Heap.node; rw [hx]
    unfold parentTruthy
    rw [hn, hroot]
  exact ⟨h1, t1.ref, e1, C180_equal_trees ar m M hm h1 h1 t t1 ht' e2 e3 hl hroot0 hroot1 fuel hf⟩

/-- The default method does not look at attributes at all. -/
example : ∀ v : ATree, (fun u : ATree => (.ok (.num (u.kids.items.length : ℚ)) : Except PyErr AVal)) v =
    (fun u : ATree => (.ok (.num (u.kids.items.length : ℚ)) : Except PyErr AVal)) (v.mapAttrib (fun s => Spec.otherAttribs s.attrib)) := by
  intro v
  simp only [kids_mapAttrib, List.length_map]

/-- Non-vacuity of C180: a root with two children. -/
example : Rep [⟨u!"a", [(u!"b", 1), (u!"c", 2)], [], none⟩, ⟨u!"b", [], [], some 0⟩, ⟨u!"c", [], [], some 0⟩]
    (.node 0 u!"a" [] (.cons u!"b" (.node 1 u!"b" [] .nil) (.cons u!"c" (.node 2 u!"c" [] .nil) .nil))) := by
  simp [Rep, RepF, AForest.dict, AForest.items, ATree.ref]

end Cjk
