import Verif.Spec.TreeOps
import Verif.Props.TreePrune
import Verif.Props.TreeOps
import Mathlib.Tactic.Ring
/-!
# C75: tree distributions
-/

namespace Cjk
open Py

/-- Changing the attributes of some nodes. -/
def Heap.withAttrib (h : Heap) (D : List Nat) (g : Nat → Attrib) (h' : Heap) : Prop :=
  ∀ i, h'[i]? = if i ∈ D then h[i]?.map (fun n => { n with attrib := g i }) else h[i]?

theorem AForest.mapAttrib_items (f : ATree → Attrib) : ∀ k : AForest,
    (k.mapAttrib f).items = k.items.map (fun kt => (kt.1, kt.2.mapAttrib f))
  | .nil => rfl
  | .cons key t rest => by simp only [AForest.mapAttrib, AForest.items, List.map_cons, AForest.mapAttrib_items f rest]

theorem mapAttrib_ref (f : ATree → Attrib) (t : ATree) : (t.mapAttrib f).ref = t.ref := by cases t; rfl

theorem mapAttrib_refs (f : ATree → Attrib) (t : ATree) : (t.mapAttrib f).refs = t.refs := by
  induction t using ATree.ind with
  | h r l a k ih =>
    rw [ATree.mapAttrib, ATree.refs_node, ATree.refs_node, AForest.mapAttrib_items, List.flatMap_map]
    congr 1
    have : ∀ items : List (Str × ATree), (∀ kt ∈ items, kt ∈ k.items) →
        items.flatMap (fun kt => (kt.2.mapAttrib f).refs) = items.flatMap (fun kt => kt.2.refs) := by
      intro items
      induction items with
      | nil => intro _; rfl
      | cons kt items ih2 =>
        intro hs
        rw [List.flatMap_cons, List.flatMap_cons, ih kt (hs kt (by simp)), ih2 (fun x hx => hs x (by simp [hx]))]
    exact this _ (fun _ h => h)

theorem mapAttrib_dict (f : ATree → Attrib) (k : AForest) : (k.mapAttrib f).dict = k.dict := by
  unfold AForest.dict
  rw [AForest.mapAttrib_items, List.map_map]
  apply List.map_congr_left
  intro kt _
  simp [mapAttrib_ref]

theorem mapAttrib_keysDistinct (f : ATree → Attrib) (t : ATree) (h : t.keysDistinct) : (t.mapAttrib f).keysDistinct := by
  induction t using ATree.ind with
  | h r l a k ih =>
    obtain ⟨h1, h2⟩ := h
    rw [AForest.keysDistinct_iff] at h2
    refine ⟨?_, ?_⟩
    · rw [AForest.mapAttrib_items, List.map_map]; exact h1
    · rw [AForest.keysDistinct_iff, AForest.mapAttrib_items]
      intro kt hkt
      obtain ⟨kt0, hm, rfl⟩ := List.mem_map.1 hkt
      exact ih kt0 hm (h2 kt0 hm)

theorem mapAttrib_congr (f g : ATree → Attrib) (t : ATree) (h : ∀ s ∈ t.subs, f s = g s) : t.mapAttrib f = t.mapAttrib g := by
  induction t using ATree.ind with
  | h r l a k ih =>
    rw [ATree.subs_node] at h
    rw [ATree.mapAttrib, ATree.mapAttrib, h _ (by simp)]
    congr 1
    apply AForest.items_injective
    rw [AForest.mapAttrib_items, AForest.mapAttrib_items]
    apply List.map_congr_left
    intro kt hkt
    rw [ih kt hkt (fun s hs => h s (List.mem_cons_of_mem _ (List.mem_flatMap.2 ⟨kt, hkt, hs⟩)))]

theorem Rep.mapAttrib {h h' : Heap} (t : ATree) (hr : Rep h t) (g : Nat → Attrib)
    (he : ∀ i ∈ t.refs, h'[i]? = h[i]?.map (fun n => { n with attrib := g i })) :
    Rep h' (t.mapAttrib (fun s => g s.ref)) := by
  induction t using ATree.ind with
  | h r l a k ih =>
    rw [ATree.refs_node] at he
    obtain ⟨⟨par, e⟩, hk⟩ := hr
    rw [RepF_iff] at hk
    refine ⟨⟨par, ?_⟩, ?_⟩
    · rw [he r (by simp), e, mapAttrib_dict]; rfl
    · rw [RepF_iff, AForest.mapAttrib_items]
      intro kt hkt
      obtain ⟨kt0, hm, rfl⟩ := List.mem_map.1 hkt
      exact ih kt0 hm (hk kt0 hm) (fun i hi => he i (List.mem_cons_of_mem _ (List.mem_flatMap.2 ⟨kt0, hm, hi⟩)))

theorem Par.mapAttrib {h : Heap} {par : Option Nat} (t : ATree) (f : ATree → Attrib) (hp : Par h par t) :
    Par h par (t.mapAttrib f) := by
  induction t using ATree.ind generalizing par with
  | h r l a k ih =>
    obtain ⟨h1, h2⟩ := hp
    rw [ParF_iff] at h2
    refine ⟨h1, ?_⟩
    rw [ParF_iff, AForest.mapAttrib_items]
    intro kt hkt
    obtain ⟨kt0, hm, rfl⟩ := List.mem_map.1 hkt
    exact ih kt0 hm (h2 kt0 hm)

theorem before_mem {d r : Nat} {pre suf : List Nat} (h : Before d r (pre ++ r :: suf)) (hn : (pre ++ r :: suf).Nodup) :
    d ∈ pre := by
  unfold Before at h
  rw [List.nodup_append, List.nodup_cons] at hn
  obtain ⟨h1, ⟨h2, h3⟩, h4⟩ := hn
  obtain ⟨l1, l2, e, g1, g2⟩ := List.sublist_append_iff.1 h
  rcases l1 with _ | ⟨x, _ | ⟨y, l1⟩⟩
  · simp only [List.nil_append] at e
    subst e
    exfalso
    apply h2
    cases g2 with
    | cons _ g => exact g.subset (by simp)
    | cons_cons _ g => exact g.subset (by simp)
  · simp only [List.cons_append, List.nil_append, List.cons.injEq] at e
    rw [e.1]; exact g1.subset (by simp)
  · simp only [List.cons_append, List.cons.injEq] at e
    exfalso
    exact h4 y (g1.subset (by simp)) r (by simp) e.2.1.symm

/-! ### The passes -/

/-- The count of the node at a reference. -/
def cntAt (m : Str → Attrib → Nat → ℚ) (h : Heap) (i : Nat) : ℚ := m (h.node i).label (h.node i).attrib (h.node i).children.length
def cumAt (m : Str → Attrib → Nat → ℚ) (h : Heap) (i : Nat) : ℚ :=
  cntAt m h i + ((Dict.values (h.node i).children).map (cntAt m h)).sum
def countedAttrib (m : Str → Attrib → Nat → ℚ) (h : Heap) (i : Nat) : Attrib :=
  Dict.set (Dict.set (h.node i).attrib (.str u!"count") (.num (cntAt m h i))) (.str u!"cum_count") (.num (cumAt m h i))

theorem getAttr_set_self (h : Heap) (r : Nat) (k : Str) (v : AVal) (hr : r < h.length) :
    getAttr (setAttr h r (.str k) v) r (.str k) = .ok v := by
  unfold getAttr setAttr Dict.getItem
  rw [upd_node_eq _ _ hr]
  simp only [Dict.get?_set_self]

theorem withAttrib_node {h h' : Heap} {D : List Nat} {g : Nat → Attrib} (hw : h.withAttrib D g h') {i : Nat} (hi : i < h.length) :
    h'.node i = { h.node i with attrib := if i ∈ D then g i else (h.node i).attrib } := by
  unfold Heap.node
  rw [hw i, List.getElem?_eq_getElem hi]
  by_cases e : i ∈ D <;> simp [e]

theorem withAttrib_length {h h' : Heap} {D : List Nat} {g : Nat → Attrib} (hw : h.withAttrib D g h') : h'.length = h.length := by
  have key : ∀ i, i < h'.length ↔ i < h.length := by
    intro i
    have h1 := hw i
    constructor
    · intro hi
      by_contra hn
      rw [List.getElem?_eq_getElem hi, List.getElem?_eq_none (by omega)] at h1
      by_cases e : i ∈ D <;> simp [e] at h1
    · intro hi
      by_contra hn
      rw [List.getElem?_eq_none (by omega), List.getElem?_eq_getElem hi] at h1
      by_cases e : i ∈ D <;> simp [e] at h1
  have h1 := key h.length
  have h2 := key h'.length
  omega

theorem readCounts_eq (h : Heap) (f : Nat → AVal) (cs : List Nat) (hc : ∀ c ∈ cs, getAttr h c (.str u!"count") = .ok (f c)) :
    readCounts h cs = .ok (cs.map f) := by
  induction cs with
  | nil => rfl
  | cons c cs ih =>
    rw [readCounts, hc c (by simp), ih (fun x hx => hc x (by simp [hx]))]
    rfl

theorem addVals_exact (p q : ℚ) : addVals .exact (.num p) (.num q) = .ok (.num (p + q)) := rfl
theorem floatOf_exact (q : ℚ) : floatOf .exact (.num q) = .ok q := rfl
theorem divVal_exact {t : ℚ} (ht : t ≠ 0) (q : ℚ) : divVal .exact (.num q) t = .ok (.num (q / t)) := if_neg ht

theorem sumVals_fold (ar : Arith) (qs : List ℚ) : ∀ q : ℚ, sumVals ar (.num q) (qs.map .num) = .ok (.num (qs.foldl ar.add q)) := by
  induction qs with
  | nil => intro q; rfl
  | cons x qs ih => intro q; rw [List.map_cons, sumVals, addVals, bind_ok, ih, List.foldl_cons]

theorem sumVals_nums (qs : List ℚ) : ∀ q : ℚ, sumVals .exact (.num q) (qs.map .num) = .ok (.num (q + qs.sum)) := by
  induction qs with
  | nil => intro q; rw [List.sum_nil, add_zero]; rfl
  | cons p qs ih =>
    intro q
    rw [List.map_cons, sumVals, addVals, bind_ok, ih, List.sum_cons, ← add_assoc]; rfl

theorem countNode_step (m : Str → Attrib → Nat → ℚ) (h0 h : Heap) (D : List Nat) (r : Nat)
    (hw : h0.withAttrib D (countedAttrib m h0) h) (hr : r < h0.length) (hn : r ∉ D)
    (hc : ∀ c ∈ Dict.values (h0.node r).children, c ∈ D) (hlt : ∀ i ∈ D, i < h0.length) :
    ∃ h', countNode .exact (countBy m) h r = .ok h' ∧ h0.withAttrib (D ++ [r]) (countedAttrib m h0) h' := by
  have hlen := withAttrib_length hw
  have hr' : r < h.length := by omega
  have hnode : h.node r = h0.node r := by
    rw [withAttrib_node hw hr, if_neg hn]
  have hcnt : countBy m h r = .ok (.num (cntAt m h0 r)) := by unfold countBy; rw [hnode]; rfl
  unfold countNode
  simp only [hcnt, bind_ok]
  generalize hh1 : setAttr h r (.str u!"count") (.num (cntAt m h0 r)) = h1
  have hn1 : ∀ i, i ≠ r → h1.node i = h.node i := by
    intro i hi; rw [← hh1]; exact upd_node_ne _ _ (Ne.symm hi)
  have hn1r : h1.node r = { h.node r with attrib := Dict.set (h.node r).attrib (.str u!"count") (.num (cntAt m h0 r)) } := by
    rw [← hh1]; exact upd_node_eq _ _ hr'
  have hl1 : h1.length = h.length := by rw [← hh1]; exact upd_length _ _ _
  have hg : getAttr h1 r (.str u!"count") = .ok (.num (cntAt m h0 r)) := by rw [← hh1]; exact getAttr_set_self h r _ _ hr'
  have hch : (h1.node r).children = (h0.node r).children := by rw [hn1r, hnode]
  have hs : readCounts h1 (Dict.values (h1.node r).children) =
      .ok (((Dict.values (h0.node r).children).map (cntAt m h0)).map AVal.num) := by
    rw [hch, List.map_map]
    apply readCounts_eq
    intro c hcm
    have hcD := hc c hcm
    have hcr : c ≠ r := by rintro rfl; exact hn hcD
    unfold getAttr Dict.getItem
    rw [hn1 c hcr, withAttrib_node hw (hlt c hcD), if_pos hcD]
    simp only [countedAttrib]
    rw [Dict.get?_set_ne _ _ (by decide +kernel), Dict.get?_set_self]
    rfl
  refine ⟨setAttr h1 r (.str u!"cum_count") (.num (cntAt m h0 r + ((Dict.values (h0.node r).children).map (cntAt m h0)).sum)), ?_, ?_⟩
  · simp only [hg, hs, bind_ok, sumVals_nums, addVals_exact, zero_add]
  · intro i
    unfold setAttr
    rw [upd_getElem?]
    by_cases e : r = i
    · subst e
      rw [if_pos rfl, if_pos (by simp), ← hh1]
      unfold setAttr
      rw [upd_getElem?, if_pos rfl, hw, if_neg hn, node_eq_of_lt hr]
      rfl
    · rw [if_neg e, ← hh1]
      unfold setAttr
      rw [upd_getElem?, if_neg e, hw]
      have : i ∈ D ++ [r] ↔ i ∈ D := by simp [Ne.symm e]
      simp only [this]

theorem countAll_eq (m : Str → Attrib → Nat → ℚ) (h0 : Heap) (rs : List Nat) : ∀ (h : Heap) (D : List Nat),
    h0.withAttrib D (countedAttrib m h0) h → (D ++ rs).Nodup → (∀ i ∈ D ++ rs, i < h0.length) →
    (∀ pre r suf, rs = pre ++ r :: suf → ∀ c ∈ Dict.values (h0.node r).children, c ∈ D ++ pre) →
    ∃ h', countAll .exact (countBy m) h rs = .ok h' ∧ h0.withAttrib (D ++ rs) (countedAttrib m h0) h' := by
  induction rs with
  | nil => intro h D hw _ _ _; exact ⟨h, rfl, by simpa using hw⟩
  | cons r rs ih =>
    intro h D hw hnd hlt hord
    obtain ⟨h1, e1, hw1⟩ := countNode_step m h0 h D r hw (hlt r (by simp))
      (by intro hm; rw [List.nodup_append] at hnd; exact hnd.2.2 r hm r (by simp) rfl)
      (by simpa using hord [] r rs rfl) (fun i hi => hlt i (by simp [hi]))
    obtain ⟨h2, e2, hw2⟩ := ih h1 (D ++ [r]) hw1 (by simpa using hnd) (by simpa using hlt) (by
      intro pre x suf e c hc
      have := hord (r :: pre) x suf (by rw [e]; rfl) c hc
      simpa using this)
    refine ⟨h2, ?_, by simpa using hw2⟩
    rw [countAll, e1]; exact e2

def distAttribAt (m : Str → Attrib → Nat → ℚ) (h : Heap) (total : ℚ) (i : Nat) : Attrib :=
  Dict.set (countedAttrib m h i) (.str u!"freq") (.num (cumAt m h i / total))

theorem getAttr_cum (m : Str → Attrib → Nat → ℚ) (h0 h : Heap) (i : Nat)
    (ha : (h.node i).attrib = countedAttrib m h0 i) : getAttr h i (.str u!"cum_count") = .ok (.num (cumAt m h0 i)) := by
  unfold getAttr Dict.getItem
  rw [ha, countedAttrib, Dict.get?_set_self]

theorem freqAll_eq (m : Str → Attrib → Nat → ℚ) (h0 : Heap) (total : ℚ) (ht : total ≠ 0) (R : List Nat)
    (hR : ∀ i ∈ R, i < h0.length) (rs : List Nat) :
    ∀ (h : Heap) (D : List Nat), (∀ i, h[i]? = if i ∈ D then h0[i]?.map (fun n => { n with attrib := distAttribAt m h0 total i })
      else if i ∈ R then h0[i]?.map (fun n => { n with attrib := countedAttrib m h0 i }) else h0[i]?) →
    (D ++ rs).Nodup → (∀ i ∈ rs, i ∈ R) → ∃ h', freqAll .exact total h rs = .ok h' ∧
      ∀ i, h'[i]? = if i ∈ D ++ rs then h0[i]?.map (fun n => { n with attrib := distAttribAt m h0 total i })
        else if i ∈ R then h0[i]?.map (fun n => { n with attrib := countedAttrib m h0 i }) else h0[i]? := by
  induction rs with
  | nil => intro h D hw _ _; exact ⟨h, rfl, by simpa using hw⟩
  | cons r rs ih =>
    intro h D hw hnd hsub
    have hrD : r ∉ D := by
      intro hm; rw [List.nodup_append] at hnd; exact hnd.2.2 r hm r (by simp) rfl
    have hrR := hsub r (by simp)
    have hr := hR r hrR
    have hget : h[r]? = some { h0.node r with attrib := countedAttrib m h0 r } := by
      rw [hw r, if_neg hrD, if_pos hrR, node_eq_of_lt hr]; rfl
    have hnode : h.node r = { h0.node r with attrib := countedAttrib m h0 r } := by
      unfold Heap.node at hget ⊢; rw [hget]; rfl
    rw [freqAll, getAttr_cum m h0 h r (by rw [hnode])]
    obtain ⟨h2, e2, hw2⟩ := ih (setAttr h r (.str u!"freq") (.num (cumAt m h0 r / total))) (D ++ [r]) (by
        intro i
        unfold setAttr
        rw [upd_getElem?]
        by_cases e : r = i
        · subst e
          rw [if_pos rfl, if_pos (by simp), hget, node_eq_of_lt hr]; rfl
        · rw [if_neg e, hw]
          have : i ∈ D ++ [r] ↔ i ∈ D := by simp [Ne.symm e]
          simp only [this]) (by simpa using hnd) (fun i hi => hsub i (by simp [hi]))
    refine ⟨h2, ?_, by simpa using hw2⟩
    simp only [bind_ok, divVal_exact ht]
    exact e2

theorem freqAll_zero (m : Str → Attrib → Nat → ℚ) (h0 h : Heap) (r : Nat) (rs : List Nat)
    (ha : (h.node r).attrib = countedAttrib m h0 r) : freqAll .exact 0 h (r :: rs) = .error .zeroDivisionError := by
  rw [freqAll, getAttr_cum m h0 h r ha]
  simp [bind_ok, divVal]

/-! ### Lifting to trees -/

theorem count_at {h : Heap} {t : ATree} (hr : Rep h t) (m : Str → Attrib → Nat → ℚ) : cntAt m h t.ref = t.count m := by
  obtain ⟨h1, h2, h3⟩ := hr.lookup
  unfold cntAt ATree.count
  rw [h1, h2, h3]; unfold AForest.dict; rw [List.length_map]

theorem cum_at {h : Heap} {t : ATree} (hr : Rep h t) (m : Str → Attrib → Nat → ℚ) : cumAt m h t.ref = t.count1 m := by
  obtain ⟨h1, h2, h3⟩ := hr.lookup
  unfold cumAt ATree.count1
  rw [count_at hr, h2, AForest.values_dict, List.map_map]
  congr 2
  apply List.map_congr_left
  intro kt hkt
  exact count_at (hr.kids kt hkt) m

theorem distAttrib_at {h : Heap} {t : ATree} (hr : Rep h t) (m : Str → Attrib → Nat → ℚ) (total : ℚ) :
    distAttribAt m h total t.ref = distAttrib m (ATree.count1 m) total t := by
  unfold distAttribAt countedAttrib distAttrib
  rw [count_at hr, cum_at hr, hr.lookup.2.2]

theorem bare_parts {t t' : ATree} (h : t'.bare = t.bare) : t'.label = t.label ∧ t'.attrib = t.attrib ∧
    t'.kids.items.map (fun kt => (kt.1, kt.2.bare)) = t.kids.items.map (fun kt => (kt.1, kt.2.bare)) := by
  obtain ⟨r, l, a, k⟩ := t
  obtain ⟨r', l', a', k'⟩ := t'
  simp only [ATree.bare, ATree.node.injEq, true_and] at h
  exact ⟨h.1, h.2.1, items_bare_eq h.2.2⟩

theorem count_bare {t t' : ATree} (h : t'.bare = t.bare) (m : Str → Attrib → Nat → ℚ) : t'.count m = t.count m := by
  obtain ⟨h1, h2, h3⟩ := bare_parts h
  unfold ATree.count
  have := congrArg List.length h3
  simp only [List.length_map] at this
  rw [h1, h2, this]

theorem count1_bare {t t' : ATree} (h : t'.bare = t.bare) (m : Str → Attrib → Nat → ℚ) : t'.count1 m = t.count1 m := by
  unfold ATree.count1
  rw [count_bare h m]
  congr 2
  have h3 := (bare_parts h).2.2
  generalize t'.kids.items = i' at *
  generalize t.kids.items = i at *
  induction i' generalizing i with
  | nil => cases i with
    | nil => rfl
    | cons _ _ => cases h3
  | cons kt' i' ih =>
    cases i with
    | nil => cases h3
    | cons kt i =>
      simp only [List.map_cons, List.cons.injEq, Prod.mk.injEq] at h3
      simp only [List.map_cons, ih i h3.2, count_bare h3.1.2 m]

theorem distAttrib_bare {t t' : ATree} (h : t'.bare = t.bare) (m : Str → Attrib → Nat → ℚ) (total : ℚ) :
    distAttrib m (ATree.count1 m) total t' = distAttrib m (ATree.count1 m) total t := by
  unfold distAttrib
  rw [count_bare h, count1_bare h, (bare_parts h).2.1]

theorem mapAttrib_bare (f : ATree → Attrib) (hf : ∀ s s' : ATree, s'.bare = s.bare → f s' = f s) (t t' : ATree)
    (h : t'.bare = t.bare) : (t'.mapAttrib f).bare = (t.mapAttrib f).bare := by
  induction t using ATree.ind generalizing t' with
  | h r l a k ih =>
    obtain ⟨r', l', a', k'⟩ := t'
    have hp := bare_parts h
    simp only [ATree.label, ATree.attrib, ATree.kids] at hp
    simp only [ATree.mapAttrib, ATree.bare, ATree.node.injEq, true_and]
    refine ⟨hp.1, hf _ _ h, ?_⟩
    apply AForest.items_injective
    rw [AForest.bare_items, AForest.bare_items, AForest.mapAttrib_items, AForest.mapAttrib_items, List.map_map, List.map_map]
    have : ∀ i' i : List (Str × ATree), (∀ kt ∈ i, kt ∈ k.items) →
        i'.map (fun kt => (kt.1, kt.2.bare)) = i.map (fun kt => (kt.1, kt.2.bare)) →
        i'.map (fun kt => (kt.1, (kt.2.mapAttrib f).bare)) = i.map (fun kt => (kt.1, (kt.2.mapAttrib f).bare)) := by
      intro i'
      induction i' with
      | nil => intro i _ e; cases i with
        | nil => rfl
        | cons _ _ => cases e
      | cons kt' i' ih2 =>
        intro i hs e
        cases i with
        | nil => cases e
        | cons kt i =>
          simp only [List.map_cons, List.cons.injEq, Prod.mk.injEq] at e ⊢
          exact ⟨⟨e.1.1, ih kt (hs kt (by simp)) kt'.2 e.1.2⟩, ih2 i (fun x hx => hs x (by simp [hx])) e.2⟩
    exact this _ _ (fun _ h => h) hp.2.2

/-- C75 (true part): for every tree and count method, with a total different from 0, `TreeDist(root, m)` makes a tree of
the same shape with the same labels in which every node has the attributes of the original and in addition `count` (by
the count method), `cum_count` (its count and the counts of its *direct* children) and `freq` (`cum_count/total`); in
particular the root has `freq` 1.  The original is unchanged.  Missing: `cum_count` does not include the counts further
down (`C75_cum_count_refuted`). -/
theorem C75_dist_partial (m : Str → Attrib → Nat → ℚ) (h : Heap) (t : ATree) (hr : Rep h t) (hk : t.keysDistinct)
    (hl : t.keysAreLabels) (hroot : parentTruthy h t.ref = false) (fuel : Nat) (hf : 2 * t.size < fuel)
    (ht : t.count1 m ≠ 0) :
    ∃ h' t', treeDist .exact (some (countBy m)) h fuel t.ref = some (.ok (h', t'.ref)) ∧ IsTree h' t' ∧ Par h' none t' ∧
      t'.bare = (t.mapAttrib (distAttrib m (ATree.count1 m) (t.count1 m))).bare ∧
      Dict.get? t'.attrib (.str u!"freq") = some (.num 1) ∧ (∀ x < h.length, h'[x]? = h[x]?) := by
  obtain ⟨h1, t1, e1, e2, e3, e4, e5, e6⟩ := C49_copy h t hr hk hl hroot fuel (by have := t.size_pos; omega)
  have hsz := size_bare t t1 e3
  have hpost := walkPost_eq h1 t1 e2.rep fuel (by omega)
  have hpre : walkPre h1 fuel t1.ref = some t1.pre := by
    have := preLoop_eq h1 fuel [t1] (by simpa using e2.rep) (by simp; have := t.size_pos; omega)
    simpa [walkPre] using this
  have hpp := post_perm t1
  have hprp := pre_perm t1
  have hnd : t1.post.Nodup := hpp.nodup_iff.2 e2.distinct
  -- first pass
  obtain ⟨h2, c1, c2⟩ := countAll_eq m h1 t1.post h1 [] (by intro i; simp) (by simpa using hnd)
    (by intro i hi; exact e2.rep.refs_lt i (hpp.mem_iff.1 (by simpa using hi))) (by
      intro pre x suf e c hc
      have hx : x ∈ t1.refs := hpp.mem_iff.1 (by rw [e]; simp)
      obtain ⟨s, hs, rfl⟩ := List.mem_map.1 hx
      have hs' := e2.rep.of_mem_subs t1 s hs
      have hcd : c ∈ s.kids.refs := by
        rw [hs'.lookup.2.1, AForest.values_dict] at hc
        obtain ⟨kt, hkt, rfl⟩ := List.mem_map.1 hc
        rw [AForest.refs_eq]
        exact List.mem_flatMap.2 ⟨kt, hkt, kt.2.ref_mem_refs⟩
      have hb := post_before t1 s hs c hcd
      rw [e] at hb
      rw [List.nil_append]
      exact before_mem hb (by rw [← e]; exact hnd))
  simp only [List.nil_append] at c2
  have hroot1 : t1.ref ∈ t1.refs := t1.ref_mem_refs
  have hrl := e2.rep.refs_lt _ hroot1
  have htot : getAttr h2 t1.ref (.str u!"cum_count") = .ok (.num (t.count1 m)) := by
    rw [getAttr_cum m h1 h2 t1.ref (by rw [withAttrib_node c2 hrl, if_pos (hpp.mem_iff.2 hroot1)]), cum_at e2.rep, count1_bare e3]
  -- second pass
  obtain ⟨h3, d1, d2⟩ := freqAll_eq m h1 (t.count1 m) ht t1.refs e2.rep.refs_lt t1.pre h2 [] (by
      intro i
      simp only [List.not_mem_nil, if_false]
      rw [c2 i]; simp only [hpp.mem_iff]) (by simpa using hprp.nodup_iff.2 e2.distinct)
    (fun i hi => hprp.mem_iff.1 hi)
  have hfin : ∀ i ∈ t1.refs, h3[i]? = h1[i]?.map (fun n => { n with attrib := distAttribAt m h1 (t.count1 m) i }) := by
    intro i hi
    rw [d2 i, if_pos (by simpa using hprp.mem_iff.2 hi)]
  have hmap : t1.mapAttrib (fun s => distAttribAt m h1 (t.count1 m) s.ref) =
      t1.mapAttrib (distAttrib m (ATree.count1 m) (t.count1 m)) :=
    mapAttrib_congr _ _ t1 (fun s hs => distAttrib_at (e2.rep.of_mem_subs t1 s hs) m _)
  refine ⟨h3, t1.mapAttrib (distAttrib m (ATree.count1 m) (t.count1 m)), ?_, ⟨?_, ?_, ?_⟩, ?_, ?_, ?_, ?_⟩
  · unfold treeDist
    rw [e1]
    simp only [hpost, hpre, distPasses, c1, bind_ok, htot, floatOf_exact, d1, mapAttrib_ref]
    rfl
  · rw [← hmap]; exact e2.rep.mapAttrib t1 _ hfin
  · rw [mapAttrib_refs]; exact e2.distinct
  · exact mapAttrib_keysDistinct _ _ e2.keys
  · apply Par.mapAttrib
    refine e4.frame t1 ?_
    intro x hx
    unfold Heap.node
    rw [hfin x hx]
    cases h1[x]? <;> rfl
  · exact mapAttrib_bare _ (fun s s' hb => distAttrib_bare hb m _) t t1 e3
  · have : (t1.mapAttrib (distAttrib m (ATree.count1 m) (t.count1 m))).attrib = distAttrib m (ATree.count1 m) (t.count1 m) t1 := by
      cases t1; rfl
    rw [this, distAttrib, Dict.get?_set_self, count1_bare e3, div_self ht]
  · intro x hx
    have hnot : x ∉ t1.refs := fun hm => by have := e5 x hm; omega
    rw [d2 x, if_neg (by simpa using fun hm => hnot (hprp.mem_iff.1 hm)), if_neg hnot, e6 x hx]

/-- C75: with a total of 0 the constructor raises `ZeroDivisionError`. -/
theorem C75_zero_total (m : Str → Attrib → Nat → ℚ) (h : Heap) (t : ATree) (hr : Rep h t) (hk : t.keysDistinct)
    (hl : t.keysAreLabels) (hroot : parentTruthy h t.ref = false) (fuel : Nat) (hf : 2 * t.size < fuel)
    (ht : t.count1 m = 0) : treeDist .exact (some (countBy m)) h fuel t.ref = some (.error .zeroDivisionError) := by
  obtain ⟨h1, t1, e1, e2, e3, e4, e5, e6⟩ := C49_copy h t hr hk hl hroot fuel (by have := t.size_pos; omega)
  have hsz := size_bare t t1 e3
  have hpost := walkPost_eq h1 t1 e2.rep fuel (by omega)
  have hpre : walkPre h1 fuel t1.ref = some t1.pre := by
    have := preLoop_eq h1 fuel [t1] (by simpa using e2.rep) (by simp; have := t.size_pos; omega)
    simpa [walkPre] using this
  have hpp := post_perm t1
  have hnd : t1.post.Nodup := hpp.nodup_iff.2 e2.distinct
  obtain ⟨h2, c1, c2⟩ := countAll_eq m h1 t1.post h1 [] (by intro i; simp) (by simpa using hnd)
    (by intro i hi; exact e2.rep.refs_lt i (hpp.mem_iff.1 (by simpa using hi))) (by
      intro pre x suf e c hc
      have hx : x ∈ t1.refs := hpp.mem_iff.1 (by rw [e]; simp)
      obtain ⟨s, hs, rfl⟩ := List.mem_map.1 hx
      have hs' := e2.rep.of_mem_subs t1 s hs
      have hcd : c ∈ s.kids.refs := by
        rw [hs'.lookup.2.1, AForest.values_dict] at hc
        obtain ⟨kt, hkt, rfl⟩ := List.mem_map.1 hc
        rw [AForest.refs_eq]
        exact List.mem_flatMap.2 ⟨kt, hkt, kt.2.ref_mem_refs⟩
      have hb := post_before t1 s hs c hcd
      rw [e] at hb
      rw [List.nil_append]
      exact before_mem hb (by rw [← e]; exact hnd))
  simp only [List.nil_append] at c2
  have hroot1 : t1.ref ∈ t1.refs := t1.ref_mem_refs
  have hrl := e2.rep.refs_lt _ hroot1
  have hat : (h2.node t1.ref).attrib = countedAttrib m h1 t1.ref := by
    rw [withAttrib_node c2 hrl, if_pos (hpp.mem_iff.2 hroot1)]
  have htot : getAttr h2 t1.ref (.str u!"cum_count") = .ok (.num 0) := by
    rw [getAttr_cum m h1 h2 t1.ref hat, cum_at e2.rep, count1_bare e3, ht]
  have hz : freqAll .exact 0 h2 t1.pre = .error .zeroDivisionError := by
    obtain ⟨r, l, a, k⟩ := t1
    rw [ATree.pre]
    exact freqAll_zero m h1 h2 r _ hat
  unfold treeDist
  rw [e1]
  simp only [hpost, hpre, distPasses, c1, bind_ok, htot, floatOf_exact, hz]
  rfl

/-- C75: below a node whose children are leaves, `cum_count` is right. -/
theorem C75_cum_count_leaves (m : Str → Attrib → Nat → ℚ) (t : ATree) (hl : ∀ kt ∈ t.kids.items, kt.2.kids.items = []) :
    t.count1 m = t.countBelow m := by
  obtain ⟨r, l, a, k⟩ := t
  simp only [ATree.kids] at hl
  unfold ATree.count1 ATree.countBelow
  rw [ATree.subs_node, List.map_cons, List.sum_cons]
  congr 1
  simp only [ATree.kids]
  generalize k.items = items at *
  induction items with
  | nil => rfl
  | cons kt items ih =>
    rw [List.map_cons, List.sum_cons, List.flatMap_cons, List.map_append, List.sum_append, ih (fun x hx => hl x (by simp [hx]))]
    congr 1
    have h0 := hl kt (by simp)
    obtain ⟨key, ⟨r', l', a', k'⟩⟩ := kt
    simp only at h0
    simp only
    rw [ATree.subs_node, h0]
    simp

/-- C75 is false: in a chain of four nodes with the default count method the root has `cum_count` 2 although there are 3
child links below it. -/
theorem C75_cum_count_refuted : ∃ (h : Heap) (t : ATree), IsTree h t ∧ t.keysAreLabels ∧ Par h none t ∧
    t.countBelow (fun _ _ n => (n : ℚ)) = 3 ∧
    ∃ h' r', treeDist .exact (some (countBy (fun _ _ n => (n : ℚ)))) h 20 t.ref = some (.ok (h', r')) ∧
      Dict.get? (h'.node r').attrib (.str u!"cum_count") = some (.num 2) := by
  refine ⟨[⟨u!"a", [(u!"b", 1)], [], none⟩, ⟨u!"b", [(u!"c", 2)], [], some 0⟩, ⟨u!"c", [(u!"d", 3)], [], some 1⟩,
    ⟨u!"d", [], [], some 2⟩],
    .node 0 u!"a" [] (.cons u!"b" (.node 1 u!"b" [] (.cons u!"c" (.node 2 u!"c" [] (.cons u!"d" (.node 3 u!"d" [] .nil) .nil))
      .nil)) .nil), ⟨?_, by decide +kernel, ?_⟩, ?_, ?_, ?_, ?_⟩
  · simp only [Rep, RepF, and_true]
    exact ⟨⟨none, rfl⟩, ⟨some 0, rfl⟩, ⟨some 1, rfl⟩, ⟨some 2, rfl⟩⟩
  · simp only [ATree.keysDistinct, AForest.keysDistinct, AForest.items]; decide +kernel
  · simp only [ATree.keysAreLabels, AForest.keysAreLabels, ATree.label]; decide +kernel
  · simp only [Par, ParF, and_true]; decide +kernel
  · decide +kernel
  · have : (match treeDist .exact (some (countBy (fun _ _ n => (n : ℚ)))) [⟨u!"a", [(u!"b", 1)], [], none⟩, ⟨u!"b", [(u!"c", 2)], [], some 0⟩,
        ⟨u!"c", [(u!"d", 3)], [], some 1⟩, ⟨u!"d", [], [], some 2⟩] 20 0 with
      | some (.ok (h', r')) => decide (Dict.get? (Heap.node h' r').attrib (.str u!"cum_count") = some (.num 2))
      | _ => false) = true := by decide +kernel
    simp only [ATree.ref]
    revert this
    generalize treeDist _ _ _ _ _ = x
    intro this
    match x, this with
    | some (.ok (h', r')), this => exact ⟨h', r', rfl, of_decide_eq_true this⟩

/-- The hypotheses of the theorems of this file are met. -/
example : demoTree.count1 (fun _ _ n => (n : ℚ)) ≠ 0 := by decide +kernel
example : demoTree.count1 (fun _ _ _ => 0) = 0 := by decide +kernel

end Cjk
