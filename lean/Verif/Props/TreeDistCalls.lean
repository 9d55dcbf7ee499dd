import Verif.Spec.TreeDistCalls
import Verif.Props.TreeDist
import Mathlib.Data.Nat.Cast.Order.Ring
/-!
# C75: distributions made with any count method
-/

namespace Cjk
open Py

theorem countAll_append (ar : Arith) (m : CountMethod) (l1 l2 : List Nat) : ∀ h : Heap,
    countAll ar m h (l1 ++ l2) = match countAll ar m h l1 with | .error e => .error e | .ok h' => countAll ar m h' l2 := by
  induction l1 with
  | nil => intro h; rfl
  | cons r l1 ih =>
    intro h
    rw [List.cons_append, countAll, countAll]
    cases countNode ar m h r with
    | error e => rfl
    | ok h1 => simp only [bind_ok]; exact ih h1

/-- What the first pass leaves of a counted tree. -/
structure Counted (h h' : Heap) (t t' : ATree) : Prop where
  tree : IsTree h' t'
  refs : t'.refs = t.refs
  ref : t'.ref = t.ref
  num : ∃ q, Dict.get? t'.attrib (.str u!"count") = some (.num q)
  nums : ∀ s ∈ t'.subs, ∃ q, Dict.get? s.attrib (.str u!"cum_count") = some (.num q)
  out : ∀ x ∉ t.refs, h'[x]? = h[x]?
  par : ∀ x, (h'.node x).parent = (h.node x).parent
  links : ∀ h0 p, Par h0 p t → Par h0 p t'

structure CountedF (h h' : Heap) (k k' : AForest) : Prop where
  rep : RepF h' k'
  refs : k'.refs = k.refs
  dict : k'.dict = k.dict
  keys : k'.keysDistinct
  num : ∀ kt ∈ k'.items, ∃ q, Dict.get? kt.2.attrib (.str u!"count") = some (.num q)
  nums : ∀ s ∈ k'.subs, ∃ q, Dict.get? s.attrib (.str u!"cum_count") = some (.num q)
  out : ∀ x ∉ k.refs, h'[x]? = h[x]?
  par : ∀ x, (h'.node x).parent = (h.node x).parent
  links : ∀ h0 r, ParF h0 r k → ParF h0 r k'

theorem numAt_of {t : ATree} {key : Str} {q : ℚ} (h : Dict.get? t.attrib (.str key) = some (.num q)) : t.numAt key = q := by
  unfold ATree.numAt; rw [h]

theorem refs_node' (r : Nat) (l : Str) (a : Attrib) (k : AForest) : (ATree.node r l a k).refs = r :: k.refs := rfl

theorem refs_cons' (key : Str) (t : ATree) (rest : AForest) : (AForest.cons key t rest).refs = t.refs ++ rest.refs := by
  show (t.subs ++ rest.subs).map ATree.ref = _
  rw [List.map_append]; rfl

/-- One round of the first pass, when the children have been counted. -/
theorem countNode_any (ar : Arith) (m : CountMethod) (h : Heap) (r : Nat) (l : Str) (a : Attrib) (k : AForest) (ht : IsTree h (.node r l a k))
    (hnum : ∀ kt ∈ k.items, ∃ q, Dict.get? kt.2.attrib (.str u!"count") = some (.num q)) :
    (∀ e, m h r = .error e → countNode ar m h r = .error e) ∧
    (∀ v, m h r = .ok v → (∀ q, v ≠ .num q) → countNode ar m h r = .error .typeError) ∧
    ∀ q, m h r = .ok (.num q) → ∃ h', countNode ar m h r = .ok h' ∧ (∀ x ≠ r, h'[x]? = h[x]?) ∧
      h'[r]? = h[r]?.map (fun n => { n with attrib := (Dict.set (Dict.set a (.str u!"count") (.num q)) (.str u!"cum_count")
          (.num (ar.add q ((k.items.map (fun kt => kt.2.numAt u!"count")).foldl ar.add 0)))) }) := by
  have hlt : r < h.length := ht.rep.lt
  obtain ⟨_, hch, hat⟩ := ht.rep.lookup
  simp only [ATree.ref, ATree.kids, ATree.attrib] at hch hat
  have hnot : ∀ kt ∈ k.items, kt.2.ref ≠ r := by
    intro kt hkt e
    have hd := ht.distinct
    rw [ATree.refs_node, List.nodup_cons] at hd
    exact hd.1 (List.mem_flatMap.2 ⟨kt, hkt, e ▸ kt.2.ref_mem_refs⟩)
  have hread : ∀ v, readCounts (setAttr h r (.str u!"count") v) (Dict.values ((setAttr h r (.str u!"count") v).node r).children) =
      .ok ((k.items.map (fun kt => kt.2.numAt u!"count")).map AVal.num) := by
    intro v
    have h1 : ((setAttr h r (.str u!"count") v).node r).children = k.dict := by
      unfold setAttr; rw [upd_node_eq _ _ hlt]; exact hch
    rw [h1, AForest.values_dict]
    have hsub : ∀ items : List (Str × ATree), (∀ kt ∈ items, kt ∈ k.items) →
        readCounts (setAttr h r (.str u!"count") v) (items.map (fun kt => kt.2.ref)) =
          .ok ((items.map (fun kt => kt.2.numAt u!"count")).map AVal.num) := by
      intro items
      induction items with
      | nil => intro _; rfl
      | cons kt items ih =>
        intro hs
        have hk := hs kt (by simp)
        obtain ⟨q, hq⟩ := hnum kt hk
        have hg : getAttr (setAttr h r (.str u!"count") v) kt.2.ref (.str u!"count") = .ok (.num q) := by
          unfold getAttr Dict.getItem setAttr
          rw [upd_node_ne _ _ (Ne.symm (hnot kt hk)), (ht.rep.kids kt hk).lookup.2.2, hq]
        rw [List.map_cons, readCounts, hg, ih (fun x hx => hs x (by simp [hx])), List.map_cons, List.map_cons, numAt_of hq]
        rfl
    exact hsub _ (fun _ h => h)
  refine ⟨fun e he => ?_, fun v hv hn => ?_, fun q hq => ?_⟩
  · unfold countNode; rw [he]; rfl
  · unfold countNode
    simp only [hv, bind_ok, getAttr_set_self h r _ _ hlt, hread, sumVals_fold]
    cases v with
    | num q => exact absurd rfl (hn q)
    | none => rfl
    | obj n => rfl
  · refine ⟨setAttr (setAttr h r (.str u!"count") (.num q)) r (.str u!"cum_count") (.num (ar.add q ((k.items.map (fun kt => kt.2.numAt u!"count")).foldl ar.add 0))), ?_, ?_, ?_⟩
    · unfold countNode
      simp only [hq, bind_ok, getAttr_set_self h r _ _ hlt, hread, sumVals_fold, addVals]
    · intro x hx
      unfold setAttr
      rw [upd_getElem?, if_neg (Ne.symm hx), upd_getElem?, if_neg (Ne.symm hx)]
    · unfold setAttr
      rw [upd_getElem?, if_pos rfl, upd_getElem?, if_pos rfl, node_eq_of_lt hlt]
      simp only [Option.map_some, hat]

mutual
theorem count_tree (ar : Arith) (m : CountMethod) (M : ATree → Except PyErr AVal) (hm : ∀ h t, IsTree h t → m h t.ref = M t.bare) :
    ∀ (t : ATree) (h : Heap), IsTree h t →
    match t.counted ar (fun s => M s.bare) with
    | .error e => countAll ar m h t.post = .error e
    | .ok t' => ∃ h', countAll ar m h t.post = .ok h' ∧ Counted h h' t t'
  | .node r l a k, h, ht => by
    have hd := ht.distinct
    rw [refs_node', List.nodup_cons] at hd
    have hkd : (k.items.map Prod.fst).Nodup ∧ k.keysDistinct := ht.keys
    have hF := count_forest ar m M hm k h ht.rep.2 hd.2 hkd.2
    rw [ATree.counted, ATree.post]
    rw [countAll_append]
    cases ek : k.counted ar (fun s => M s.bare) with
    | error e => rw [ek] at hF; simp only at hF ⊢; rw [hF]
    | ok k' =>
      rw [ek] at hF
      obtain ⟨h1, c1, c2⟩ := hF
      simp only [c1]
      -- the node with its counted children
      have hrep : Rep h1 (.node r l a k') := by
        obtain ⟨⟨par, e⟩, _⟩ := ht.rep
        refine ⟨⟨par, ?_⟩, c2.rep⟩
        rw [c2.out r hd.1, e, c2.dict]
      have hfst : k'.items.map Prod.fst = k.items.map Prod.fst := by
        have := congrArg (List.map Prod.fst) c2.dict
        simpa [AForest.dict, List.map_map, Function.comp_def] using this
      have ht1 : IsTree h1 (.node r l a k') := by
        refine ⟨hrep, ?_, ?_⟩
        · rw [refs_node', c2.refs]; exact ht.distinct
        · exact ⟨by rw [hfst]; exact hkd.1, c2.keys⟩
      obtain ⟨g1, g2, g3⟩ := countNode_any ar m h1 r l a k' ht1 c2.num
      have hmv : m h1 r = M (ATree.node r l a k').bare := hm h1 _ ht1
      cases ev : M (ATree.node r l a k').bare with
      | error e =>
        simp only
        rw [countAll, g1 e (hmv.trans ev)]; rfl
      | ok v =>
        cases v with
        | none => simp only; rw [countAll, g2 .none (hmv.trans ev) (by intro q hq; cases hq)]; rfl
        | obj n => simp only; rw [countAll, g2 (.obj n) (hmv.trans ev) (by intro q hq; cases hq)]; rfl
        | num q =>
          obtain ⟨h2, e2, o1, o2⟩ := g3 q (hmv.trans ev)
          simp only
          refine ⟨h2, by rw [countAll, e2]; rfl, ?_⟩
          have hk2 : RepF h2 k' := by
            rw [RepF_iff]
            intro kt hkt
            refine ((RepF_iff _ _).1 c2.rep kt hkt).frame _ (fun x hx => o1 x ?_)
            rintro rfl
            exact hd.1 (by rw [← c2.refs, AForest.refs_eq]; exact List.mem_flatMap.2 ⟨kt, hkt, hx⟩)
          refine ⟨⟨⟨?_, hk2⟩, ?_, ?_⟩, ?_, rfl, ⟨q, ?_⟩, ?_, ?_, ?_, fun h0 p hp => ⟨hp.1, c2.links h0 r hp.2⟩⟩
          · obtain ⟨⟨par, e⟩, _⟩ := hrep
            exact ⟨par, by rw [o2, e]; rfl⟩
          · rw [refs_node', c2.refs]; exact ht.distinct
          · exact ⟨by rw [hfst]; exact hkd.1, c2.keys⟩
          · rw [refs_node', refs_node', c2.refs]
          · simp only [ATree.attrib]
            rw [Dict.get?_set_ne _ _ (by decide +kernel), Dict.get?_set_self]
          · intro s hs
            rw [ATree.subs] at hs
            rcases List.mem_cons.1 hs with rfl | hs
            · exact ⟨_, Dict.get?_set_self _ _ _⟩
            · exact c2.nums s hs
          · intro x hx
            rw [refs_node', List.mem_cons, not_or] at hx
            rw [o1 x hx.1, c2.out x hx.2]
          · intro x
            rw [← c2.par x]
            unfold Heap.node
            by_cases hx : x = r
            · subst hx; rw [o2]; cases h1[x]? <;> rfl
            · rw [o1 x hx]
theorem count_forest (ar : Arith) (m : CountMethod) (M : ATree → Except PyErr AVal) (hm : ∀ h t, IsTree h t → m h t.ref = M t.bare) :
    ∀ (k : AForest) (h : Heap), RepF h k → k.refs.Nodup → k.keysDistinct →
    match k.counted ar (fun s => M s.bare) with
    | .error e => countAll ar m h k.post = .error e
    | .ok k' => ∃ h', countAll ar m h k.post = .ok h' ∧ CountedF h h' k k'
  | .nil, h, _, _, _ => by
    rw [AForest.counted]
    exact ⟨h, rfl, trivial, rfl, rfl, trivial, by simp [AForest.items], by simp [AForest.subs], fun _ _ => rfl, fun _ => rfl, fun _ _ h => h⟩
  | .cons key t rest, h, hr, hn, hk => by
    rw [refs_cons', List.nodup_append] at hn
    have h1 := count_forest ar m M hm rest h hr.2 hn.2.1 hk.2
    rw [AForest.counted, AForest.post, countAll_append]
    cases er : rest.counted ar (fun s => M s.bare) with
    | error e => rw [er] at h1; simp only at h1 ⊢; rw [h1]
    | ok rest' =>
      rw [er] at h1
      obtain ⟨h1, c1, c2⟩ := h1
      simp only [c1]
      have ht1 : IsTree h1 t := by
        refine ⟨hr.1.frame t (fun x hx => c2.out x (fun hx' => hn.2.2 x hx x hx' rfl)), hn.1, hk.1⟩
      have h2 := count_tree ar m M hm t h1 ht1
      cases et : t.counted ar (fun s => M s.bare) with
      | error e => rw [et] at h2; simp only at h2 ⊢; exact h2
      | ok t' =>
        rw [et] at h2
        obtain ⟨h2, d1, d2⟩ := h2
        refine ⟨h2, d1, ⟨d2.tree.rep, ?_⟩, ?_, ?_, ⟨d2.tree.keys, c2.keys⟩, ?_, ?_, ?_, ?_,
          fun h0 r hp => ⟨d2.links h0 _ hp.1, c2.links h0 r hp.2⟩⟩
        · rw [RepF_iff]
          intro kt hkt
          refine ((RepF_iff _ _).1 c2.rep kt hkt).frame _ (fun x hx => d2.out x (fun hx' => ?_))
          have : x ∈ rest'.refs := by rw [AForest.refs_eq]; exact List.mem_flatMap.2 ⟨kt, hkt, hx⟩
          rw [c2.refs] at this
          exact hn.2.2 x hx' x this rfl
        · rw [refs_cons', refs_cons', c2.refs, d2.refs]
        · show (key, t'.ref) :: rest'.dict = (key, t.ref) :: rest.dict
          rw [c2.dict, d2.ref]
        · intro kt hkt
          rw [AForest.items] at hkt
          rcases List.mem_cons.1 hkt with rfl | hkt
          · exact d2.num
          · exact c2.num kt hkt
        · intro s hs
          rw [AForest.subs] at hs
          rcases List.mem_append.1 hs with hs | hs
          · exact d2.nums s hs
          · exact c2.nums s hs
        · intro x hx
          rw [refs_cons', List.mem_append, not_or] at hx
          rw [d2.out x hx.1, c2.out x hx.2]
        · intro x; rw [d2.par, c2.par]
end

mutual
theorem counted_bare (ar : Arith) (M : ATree → Except PyErr AVal) : ∀ t : ATree,
    t.bare.counted ar M = (t.counted ar (fun s => M s.bare)).map ATree.bare
  | .node r l a k => by
    rw [ATree.bare, ATree.counted, ATree.counted, counted_bareF ar M k]
    cases k.counted ar (fun s => M s.bare) with
    | error e => rfl
    | ok k' =>
      simp only [Except.map, ATree.bare]
      cases M (.node 0 l a k'.bare) with
      | error e => rfl
      | ok v =>
        cases v with
        | none => rfl
        | obj n => rfl
        | num q =>
          simp only [ATree.bare]
          congr 6
          rw [AForest.bare_items, List.map_map]
          apply List.map_congr_left
          rintro ⟨key, ⟨r', l', a', k''⟩⟩ _
          rfl
theorem counted_bareF (ar : Arith) (M : ATree → Except PyErr AVal) : ∀ k : AForest,
    k.bare.counted ar M = (k.counted ar (fun s => M s.bare)).map AForest.bare
  | .nil => rfl
  | .cons key t rest => by
    rw [AForest.bare, AForest.counted, AForest.counted, counted_bareF ar M rest, counted_bare ar M t]
    cases rest.counted ar (fun s => M s.bare) with
    | error e => rfl
    | ok rest' =>
      cases t.counted ar (fun s => M s.bare) with
      | error e => rfl
      | ok t' => rfl
end

mutual
theorem bare_mapAttrib (f : ATree → Attrib) (hf : ∀ s, f s.bare = f s) : ∀ t : ATree, (t.mapAttrib f).bare = t.bare.mapAttrib f
  | .node r l a k => by
    rw [ATree.mapAttrib, ATree.bare, ATree.bare, ATree.mapAttrib, bare_mapAttribF f hf k, ← hf (.node r l a k), ATree.bare]
theorem bare_mapAttribF (f : ATree → Attrib) (hf : ∀ s, f s.bare = f s) : ∀ k : AForest, (k.mapAttrib f).bare = k.bare.mapAttrib f
  | .nil => rfl
  | .cons key t rest => by
    rw [AForest.mapAttrib, AForest.bare, AForest.bare, AForest.mapAttrib, bare_mapAttrib f hf t, bare_mapAttribF f hf rest]
end

/-- The second pass over counted nodes. -/
theorem freqAll_any (ar : Arith) (total : ℚ) (hz : total ≠ 0) (rs : List Nat) : ∀ (h : Heap) (c : Nat → ℚ), rs.Nodup →
    (∀ i ∈ rs, i < h.length ∧ Dict.get? (h.node i).attrib (.str u!"cum_count") = some (.num (c i))) →
    ∃ h', freqAll ar total h rs = .ok h' ∧ (∀ i ∉ rs, h'[i]? = h[i]?) ∧
      ∀ i ∈ rs, h'[i]? = h[i]?.map (fun n => { n with attrib := Dict.set (h.node i).attrib (.str u!"freq") (.num (ar.div (c i) total)) }) := by
  induction rs with
  | nil => intro h c _ _; exact ⟨h, rfl, fun _ _ => rfl, by simp⟩
  | cons r rs ih =>
    intro h c hn hc
    rw [List.nodup_cons] at hn
    obtain ⟨hlt, hcr⟩ := hc r (by simp)
    have hne : ∀ i ∈ rs, r ≠ i := by rintro i hi rfl; exact hn.1 hi
    obtain ⟨h', e, o1, o2⟩ := ih (setAttr h r (.str u!"freq") (.num (ar.div (c r) total))) c hn.2 (by
      intro i hi
      obtain ⟨g1, g2⟩ := hc i (by simp [hi])
      refine ⟨by simpa [setAttr] using g1, ?_⟩
      unfold setAttr
      rw [upd_node_ne _ _ (hne i hi)]
      exact g2)
    refine ⟨h', ?_, ?_, ?_⟩
    · have hg : getAttr h r (.str u!"cum_count") = .ok (.num (c r)) := by unfold getAttr Dict.getItem; rw [hcr]
      rw [freqAll, hg]
      simp only [bind_ok, divVal, if_neg hz]
      exact e
    · intro i hi
      rw [List.mem_cons, not_or] at hi
      rw [o1 i hi.2]
      unfold setAttr
      rw [upd_getElem?, if_neg (Ne.symm hi.1)]
    · intro i hi
      by_cases hir : i = r
      · subst hir
        rw [o1 i hn.1]
        unfold setAttr
        rw [upd_getElem?, if_pos rfl, node_eq_of_lt hlt]
        rfl
      · have him : i ∈ rs := by rcases List.mem_cons.1 hi with h1 | h1; exact absurd h1 hir; exact h1
        rw [o2 i him]
        unfold setAttr
        rw [upd_getElem?, if_neg (Ne.symm hir), upd_node_ne _ _ (Ne.symm hir)]

theorem freqAll_any_zero (ar : Arith) (h : Heap) (r : Nat) (rs : List Nat) (q : ℚ)
    (hg : Dict.get? (h.node r).attrib (.str u!"cum_count") = some (.num q)) : freqAll ar 0 h (r :: rs) = .error .zeroDivisionError := by
  have hg : getAttr h r (.str u!"cum_count") = .ok (.num q) := by unfold getAttr Dict.getItem; rw [hg]
  rw [freqAll, hg]
  simp [bind_ok, divVal]

/-- C75 for any count method: one that looks at the node with everything below it, also at the counts that the nodes below have got already, and that
may raise or give something other than a number; and for any rounding.  The constructor raises the exception of the first call that fails, with the children
of a node counted before it, from the last to the first; it raises `TypeError` for the first value that is no number, `OverflowError` if the
total is too large for a floating-point number and `ZeroDivisionError` if it is 0.  Otherwise the result is a new tree with the same labels and shape, in which
every node has in addition the value that the method gave (`count`), the sum of this and the counts of its children (`cum_count`) and `freq`.  What
existed before is unchanged. -/
theorem C75_any_method (ar : Arith) (m : CountMethod) (M : ATree → Except PyErr AVal) (hm : ∀ h t, IsTree h t → m h t.ref = M t.bare)
    (h : Heap) (t : ATree) (hr : Rep h t) (hk : t.keysDistinct) (hl : t.keysAreLabels) (hroot : parentTruthy h t.ref = false)
    (fuel : Nat) (hf : 2 * t.size < fuel) :
    match t.bare.counted ar M with
    | .error e => treeDist ar (some m) h fuel t.ref = some (.error e)
    | .ok s =>
      match ar.float (s.numAt u!"cum_count") with
      | .error e => treeDist ar (some m) h fuel t.ref = some (.error e)
      | .ok total =>
        if total = 0 then treeDist ar (some m) h fuel t.ref = some (.error .zeroDivisionError)
        else ∃ h' t', treeDist ar (some m) h fuel t.ref = some (.ok (h', t'.ref)) ∧ IsTree h' t' ∧ Par h' none t' ∧
          t'.bare = s.mapAttrib (withFreq ar total) ∧ (∀ x < h.length, h'[x]? = h[x]?) := by
  obtain ⟨h1, t1, e1, e2, e3, e4, e5, e6⟩ := C49_copy h t hr hk hl hroot fuel (by have := t.size_pos; omega)
  have hsz := size_bare t t1 e3
  have hpost := walkPost_eq h1 t1 e2.rep fuel (by omega)
  have hpre : walkPre h1 fuel t1.ref = some t1.pre := by
    have := preLoop_eq h1 fuel [t1] (by simpa using e2.rep) (by simp; have := t.size_pos; omega)
    simpa [walkPre] using this
  have hc := count_tree ar m M hm t1 h1 e2
  rw [← e3, counted_bare ar M t1]
  have hdist : treeDist ar (some m) h fuel t.ref = some ((distPasses ar m h1 t1.ref t1.post t1.pre).map (·, t1.ref)) := by
    unfold treeDist
    rw [e1]
    simp only [hpost, hpre]
  rw [hdist]
  cases ec : t1.counted ar (fun s => M s.bare) with
  | error e =>
    rw [ec] at hc
    simp only at hc
    simp only [Except.map, distPasses, hc]
    rfl
  | ok t2 =>
    rw [ec] at hc
    obtain ⟨h2, c1, c2⟩ := hc
    simp only [Except.map]
    have hnum2 : t2.bare.numAt u!"cum_count" = t2.numAt u!"cum_count" := by cases t2; rfl
    rw [hnum2]
    have hlook := c2.tree.rep.lookup
    rw [c2.ref] at hlook
    obtain ⟨q0, hq0⟩ := c2.nums t2 t2.mem_subs_self
    have htot : getAttr h2 t1.ref (.str u!"cum_count") = .ok (.num (t2.numAt u!"cum_count")) := by
      unfold getAttr Dict.getItem
      rw [hlook.2.2, hq0, numAt_of hq0]
    have hprp := pre_perm t1
    cases ef : ar.float (t2.numAt u!"cum_count") with
    | error e => simp only [distPasses, c1, bind_ok, htot, floatOf, ef]; rfl
    | ok total =>
    simp only
    by_cases hz : total = 0
    · rw [if_pos hz]
      have : freqAll ar 0 h2 t1.pre = .error .zeroDivisionError := by
        obtain ⟨r, l, a, k⟩ := t1
        rw [ATree.pre]
        refine freqAll_any_zero ar h2 r _ q0 ?_
        have := hlook.2.2
        simp only [ATree.ref] at this
        rw [this]; exact hq0
      simp only [distPasses, c1, bind_ok, htot, floatOf, ef, hz, this]
    · rw [if_neg hz]
      obtain ⟨h3, d1, d2, d3⟩ := freqAll_any ar total hz t1.pre h2
        (fun i => match Dict.get? (h2.node i).attrib (.str u!"cum_count") with | some (.num q) => q | _ => 0)
        (hprp.nodup_iff.2 e2.distinct) (by
          intro i hi
          have hi' : i ∈ t2.refs := by rw [c2.refs]; exact hprp.mem_iff.1 hi
          obtain ⟨s, hs, rfl⟩ := List.mem_map.1 hi'
          obtain ⟨q, hq⟩ := c2.nums s hs
          have hsr := c2.tree.rep.of_mem_subs t2 s hs
          refine ⟨hsr.lt, ?_⟩
          rw [hsr.lookup.2.2, hq])
      have hfin : ∀ i ∈ t2.refs, h3[i]? = h2[i]?.map (fun n => { n with attrib := (Dict.set (h2.node i).attrib (.str u!"freq")
          (.num (ar.div (match Dict.get? (h2.node i).attrib (.str u!"cum_count") with | some (.num q) => q | _ => 0) total))) }) := by
        intro i hi
        exact d3 i (hprp.mem_iff.2 (by rw [← c2.refs]; exact hi))
      have hmap : t2.mapAttrib (fun s => Dict.set (h2.node s.ref).attrib (.str u!"freq")
          (.num (ar.div (match Dict.get? (h2.node s.ref).attrib (.str u!"cum_count") with | some (.num q) => q | _ => 0) total))) =
          t2.mapAttrib (withFreq ar total) := by
        refine mapAttrib_congr _ _ t2 (fun s hs => ?_)
        rw [(c2.tree.rep.of_mem_subs t2 s hs).lookup.2.2]
        rfl
      refine ⟨h3, t2.mapAttrib (withFreq ar total), ?_, ⟨?_, ?_, ?_⟩, ?_, ?_, ?_⟩
      · simp only [distPasses, c1, bind_ok, htot, floatOf, ef, d1, mapAttrib_ref, c2.ref]
      · rw [← hmap]
        exact Rep.mapAttrib t2 c2.tree.rep
          (fun i => Dict.set (h2.node i).attrib (.str u!"freq")
            (.num (ar.div (match Dict.get? (h2.node i).attrib (.str u!"cum_count") with | some (.num q) => q | _ => 0) total))) hfin
      · rw [mapAttrib_refs]; exact c2.tree.distinct
      · exact mapAttrib_keysDistinct _ _ c2.tree.keys
      · apply Par.mapAttrib
        refine (c2.links h1 none e4).frame t2 ?_
        intro x hx
        rw [← c2.par x]
        unfold Heap.node
        rw [hfin x hx]
        cases h2[x]? <;> rfl
      · exact bare_mapAttrib _ (fun s => by cases s; rfl) t2
      · intro x hx
        have hnot : x ∉ t1.refs := fun hm => by have := e5 x hm; omega
        rw [d2 x (fun hm => hnot (hprp.mem_iff.1 hm)), c2.out x hnot, e6 x hx]

/-! ### Rounding -/

/-- Floating-point arithmetic: everything is rounded; integers beyond a limit have no floating-point number. -/
def Spec.rounded (rnd : ℚ → ℚ) (limit : ℚ) : Arith :=
  ⟨fun x y => rnd (x + y), fun x => if limit < rnd x ∨ rnd x < -limit then .error .genericException else .ok (rnd x), fun x y => rnd (rnd x / y)⟩

/-- C75: the root has the frequency 1 exactly, however sums and quotients are rounded, if only a number divided by itself is 1. -/
theorem C75_root_one (ar : Arith) (hdiv : ∀ x y, ar.float x = .ok y → y ≠ 0 → ar.div x y = 1)
    (m : CountMethod) (M : ATree → Except PyErr AVal) (hm : ∀ h t, IsTree h t → m h t.ref = M t.bare)
    (h : Heap) (t : ATree) (hr : Rep h t) (hk : t.keysDistinct) (hl : t.keysAreLabels) (hroot : parentTruthy h t.ref = false)
    (fuel : Nat) (hf : 2 * t.size < fuel) (h' : Heap) (r' : Nat) (hd : treeDist ar (some m) h fuel t.ref = some (.ok (h', r'))) :
    getAttr h' r' (.str u!"freq") = .ok (.num 1) := by
  have key := C75_any_method ar m M hm h t hr hk hl hroot fuel hf
  cases ec : t.bare.counted ar M with
  | error e => rw [ec] at key; simp only at key; rw [key] at hd; cases hd
  | ok s =>
    rw [ec] at key
    simp only at key
    cases ef : ar.float (s.numAt u!"cum_count") with
    | error e => rw [ef] at key; simp only at key; rw [key] at hd; cases hd
    | ok total =>
      rw [ef] at key
      simp only at key
      by_cases hz : total = 0
      · rw [if_pos hz] at key; rw [key] at hd; cases hd
      · rw [if_neg hz] at key
        obtain ⟨h'', t', d1, d2, _, d4, _⟩ := key
        rw [d1] at hd
        cases hd
        have ha : t'.attrib = withFreq ar total s := by
          have h2 : t'.bare.attrib = t'.attrib := by cases t'; rfl
          rw [← h2, d4]; cases s; rfl
        unfold getAttr Dict.getItem
        rw [d2.rep.lookup.2.2, ha, withFreq, Dict.get?_set_self, hdiv _ _ ef hz]

/-- Rounding that leaves 1 alone is such an arithmetic. -/
theorem Spec.rounded_div (rnd : ℚ → ℚ) (limit : ℚ) (h1 : rnd 1 = 1) (x y : ℚ) (h : (Spec.rounded rnd limit).float x = .ok y) (hy : y ≠ 0) :
    (Spec.rounded rnd limit).div x y = 1 := by
  simp only [Spec.rounded] at h ⊢
  split at h
  · cases h
  · cases h
    rw [div_self hy, h1]

/-- Three nodes that count a third each, with two decimal places: the root has the frequency 1 although its sum is not. -/
example : (treeDist (Spec.rounded (fun q => ((q * 100).floor : ℚ) / 100) 1000) (some (fun _ _ => .ok (.num (1 / 3)))) demoHeap 30 0).map
    (fun r => r.map (fun x => (getAttr x.1 x.2 (.str u!"cum_count"), getAttr x.1 x.2 (.str u!"freq")))) =
    some (.ok (.ok (.num (99 / 100)), .ok (.num 1))) := by decide +kernel

/-! ### A count method that uses the counts of the children -/

/-- `lambda n: sum(c['count'] for c in n.children.values()) or 1` -/
def leafMethod : CountMethod := fun h r =>
  if (h.node r).children.isEmpty then .ok (.num 1)
  else
    match readCounts h (Dict.values (h.node r).children) with
    | .error e => .error e
    | .ok vs => sumVals .exact (.num 0) vs

def countsOf : List (Str × ATree) → Except PyErr (List AVal)
  | [] => .ok []
  | kt :: items => do
    let v ← Dict.getItem kt.2.attrib (.str u!"count")
    let vs ← countsOf items
    .ok (v :: vs)

def leafItems (items : List (Str × ATree)) : Except PyErr AVal :=
  if items.isEmpty then .ok (.num 1)
  else
    match countsOf items with
    | .error e => .error e
    | .ok vs => sumVals .exact (.num 0) vs

def leafSpec (t : ATree) : Except PyErr AVal := leafItems t.kids.items

theorem countsOf_bare (items : List (Str × ATree)) : countsOf (items.map (fun kt => (kt.1, kt.2.bare))) = countsOf items := by
  induction items with
  | nil => rfl
  | cons kt items ih =>
    rw [List.map_cons, countsOf, countsOf, ih]
    obtain ⟨key, ⟨r, l, a, k⟩⟩ := kt
    rfl

theorem leafSpec_bare (t : ATree) : leafSpec t.bare = leafSpec t := by
  obtain ⟨r, l, a, k⟩ := t
  show leafItems k.bare.items = leafItems k.items
  rw [AForest.bare_items]
  unfold leafItems
  rw [countsOf_bare]
  cases k.items <;> rfl

/-- `leafMethod` depends on what is below the node only: it meets the hypothesis of `C75_any_method`. -/
theorem leafMethod_ok (h : Heap) (t : ATree) (ht : IsTree h t) : leafMethod h t.ref = leafSpec t.bare := by
  rw [leafSpec_bare]
  obtain ⟨_, hch, _⟩ := ht.rep.lookup
  unfold leafMethod leafSpec leafItems
  simp only [hch, AForest.isEmpty_items, AForest.values_dict]
  have : ∀ items : List (Str × ATree), (∀ kt ∈ items, kt ∈ t.kids.items) → readCounts h (items.map (fun kt => kt.2.ref)) = countsOf items := by
    intro items
    induction items with
    | nil => intro _; rfl
    | cons kt items ih =>
      intro hs
      rw [List.map_cons, readCounts, countsOf, ih (fun x hx => hs x (by simp [hx]))]
      unfold getAttr
      rw [(ht.rep.kids kt (hs kt (by simp))).lookup.2.2]
  rw [this _ (fun _ h => h)]

theorem countsOf_nums (items : List (Str × ATree)) (h : ∀ kt ∈ items, ∃ q, Dict.get? kt.2.attrib (.str u!"count") = some (.num q)) :
    countsOf items = .ok ((items.map (fun kt => kt.2.numAt u!"count")).map AVal.num) := by
  induction items with
  | nil => rfl
  | cons kt items ih =>
    obtain ⟨q, hq⟩ := h kt (by simp)
    rw [countsOf, ih (fun x hx => h x (by simp [hx])), List.map_cons, List.map_cons, numAt_of hq]
    unfold Dict.getItem
    rw [hq]; rfl

/-- The leaves of the trees of a forest. -/
def leavesF (k : AForest) : ℚ := ((k.subs.filter (fun s => s.kids.items.isEmpty)).length : ℚ)

theorem foldl_add_sum (qs : List ℚ) : ∀ q : ℚ, qs.foldl (· + ·) q = q + qs.sum := by
  induction qs with
  | nil => intro q; simp
  | cons x qs ih => intro q; rw [List.foldl_cons, ih, List.sum_cons, add_assoc]

mutual
theorem leaf_counted : ∀ t : ATree, ∃ t', t.counted .exact leafSpec = .ok t' ∧ Dict.get? t'.attrib (.str u!"count") = some (.num t.leaves) ∧
    t.leaves ≤ t'.numAt u!"cum_count" ∧ 0 < t.leaves
  | .node r l a k => by
    obtain ⟨k', e, h1, h2, h3, h4⟩ := leaf_countedF k
    rw [ATree.counted, e]
    simp only
    have hs : ∃ q, leafSpec (.node r l a k') = .ok (.num q) ∧ q = (ATree.node r l a k).leaves ∧ 0 < q := by
      show ∃ q, leafItems k'.items = .ok (.num q) ∧ _
      unfold leafItems
      have hl : (ATree.node r l a k).leaves = (if k.items.isEmpty then 1 else 0) + leavesF k := by
        unfold ATree.leaves leavesF
        rw [ATree.subs]
        by_cases hk : k.items.isEmpty = true
        · rw [if_pos hk, List.filter_cons_of_pos (by exact hk), List.length_cons, Nat.cast_add, Nat.cast_one, add_comm]
        · rw [if_neg hk, List.filter_cons_of_neg (by exact hk), zero_add]
      rw [hl]
      simp only [h3]
      by_cases hk : k.items.isEmpty = true
      · rw [if_pos hk, if_pos hk]
        refine ⟨1, rfl, ?_, by decide +kernel⟩
        have : k = .nil := by
          cases k with
          | nil => rfl
          | cons _ _ _ => cases hk
        rw [this]
        decide +kernel
      · rw [if_neg hk, if_neg hk, countsOf_nums _ h1]
        simp only [sumVals_nums, zero_add]
        rw [h2]
        exact ⟨_, rfl, rfl, h4 hk⟩
    obtain ⟨q, hq, hq2, hq3⟩ := hs
    rw [hq]
    refine ⟨_, rfl, ?_, ?_, hq2 ▸ hq3⟩
    · simp only [ATree.attrib]
      rw [Dict.get?_set_ne _ _ (by decide +kernel), Dict.get?_set_self, hq2]
    · have : ATree.numAt u!"cum_count" (.node r l (Dict.set (Dict.set a (.str u!"count") (.num q)) (.str u!"cum_count")
          (.num (q + (k'.items.map (fun kt => kt.2.numAt u!"count")).foldl (· + ·) 0))) k') =
          q + (k'.items.map (fun kt => kt.2.numAt u!"count")).foldl (· + ·) 0 :=
        numAt_of (Dict.get?_set_self _ _ _)
      refine le_of_le_of_eq ?_ this.symm
      rw [foldl_add_sum, zero_add, h2, hq2]
      have : 0 ≤ leavesF k := by unfold leavesF; exact Nat.cast_nonneg _
      exact le_add_of_nonneg_right this
theorem leaf_countedF : ∀ k : AForest, ∃ k', k.counted .exact leafSpec = .ok k' ∧
    (∀ kt ∈ k'.items, ∃ q, Dict.get? kt.2.attrib (.str u!"count") = some (.num q)) ∧
    (k'.items.map (fun kt => kt.2.numAt u!"count")).sum = leavesF k ∧ k'.items.isEmpty = k.items.isEmpty ∧
    (¬ k.items.isEmpty = true → 0 < leavesF k)
  | .nil => ⟨.nil, rfl, by simp [AForest.items], by decide +kernel, rfl, fun h => absurd rfl h⟩
  | .cons key t rest => by
    obtain ⟨t', e1, g1, _, g3⟩ := leaf_counted t
    obtain ⟨rest', e2, h1, h2, _, _⟩ := leaf_countedF rest
    have hadd : leavesF (.cons key t rest) = t.leaves + leavesF rest := by
      unfold leavesF ATree.leaves
      rw [AForest.subs, List.filter_append, List.length_append, Nat.cast_add]
    refine ⟨.cons key t' rest', by rw [AForest.counted, e2]; simp only; rw [e1], ?_, ?_, rfl, ?_⟩
    · intro kt hkt
      rw [AForest.items] at hkt
      rcases List.mem_cons.1 hkt with rfl | hkt
      · exact ⟨_, g1⟩
      · exact h1 kt hkt
    · rw [AForest.items, List.map_cons, List.sum_cons, h2, hadd]
      simp only
      rw [numAt_of g1]
    · intro _
      rw [hadd]
      have : 0 ≤ leavesF rest := by unfold leavesF; exact Nat.cast_nonneg _
      exact lt_of_lt_of_le g3 (le_add_of_nonneg_right this)
end

theorem leaves_bare (t : ATree) : t.bare.leaves = t.leaves := by
  induction t using ATree.ind with
  | h r l a k ih =>
    have key : ∀ r l a k, (ATree.node r l a k).leaves = (if k.items.isEmpty then 1 else 0) + (k.items.map (fun kt => kt.2.leaves)).sum := by
      intro r l a k
      have hF : ((k.subs.filter (fun s => s.kids.items.isEmpty)).length : ℚ) = (k.items.map (fun kt => kt.2.leaves)).sum := by
        rw [AForest.subs_eq]
        generalize k.items = items
        induction items with
        | nil => rfl
        | cons kt items ih2 =>
          rw [List.flatMap_cons, List.filter_append, List.length_append, Nat.cast_add, ih2, List.map_cons, List.sum_cons]
          rfl
      rw [← hF]
      unfold ATree.leaves
      rw [ATree.subs]
      by_cases hk : k.items.isEmpty = true
      · rw [if_pos hk, List.filter_cons_of_pos (by exact hk), List.length_cons, Nat.cast_add, Nat.cast_one, add_comm]
      · rw [if_neg hk, List.filter_cons_of_neg (by exact hk), zero_add]
    rw [ATree.bare, key, key, AForest.bare_items, List.map_map]
    congr 1
    · cases k.items <;> rfl
    · congr 1
      apply List.map_congr_left
      intro kt hkt
      exact ih kt hkt

/-- C75: with a count method that adds up the counts of the children, and gives 1 to leaves, the constructor never raises, and the `count` of the root
is the number of leaves. -/
theorem C75_leaf_method (h : Heap) (t : ATree) (hr : Rep h t) (hk : t.keysDistinct) (hl : t.keysAreLabels)
    (hroot : parentTruthy h t.ref = false) (fuel : Nat) (hf : 2 * t.size < fuel) :
    ∃ h' r', treeDist .exact (some leafMethod) h fuel t.ref = some (.ok (h', r')) ∧ getAttr h' r' (.str u!"count") = .ok (.num t.leaves) := by
  have h1 := C75_any_method .exact leafMethod leafSpec leafMethod_ok h t hr hk hl hroot fuel hf
  obtain ⟨s, e, g1, g2, g3⟩ := leaf_counted t.bare
  rw [e] at h1
  simp only [Arith.exact] at h1
  rw [if_neg (fun hz => by rw [hz] at g2; exact absurd (lt_of_lt_of_le g3 g2) (lt_irrefl _))] at h1
  obtain ⟨h', t', d1, d2, _, d4, _⟩ := h1
  refine ⟨h', t'.ref, d1, ?_⟩
  have ha : t'.attrib = withFreq .exact (s.numAt u!"cum_count") s := by
    have h2 : t'.bare.attrib = t'.attrib := by cases t'; rfl
    rw [← h2, d4]; cases s; rfl
  unfold getAttr Dict.getItem
  rw [d2.rep.lookup.2.2, ha, withFreq, Dict.get?_set_ne _ _ (by decide +kernel), g1, leaves_bare]

/-- All outcomes occur on the tree of TreeOps: its two leaves are counted; a method that fails for several nodes raises the exception for the first in
post-order; a value that is no number gives `TypeError`; a total of 0 gives `ZeroDivisionError`. -/
example : (treeDist .exact (some leafMethod) demoHeap 30 0).map (fun r => r.map (fun x => getAttr x.1 x.2 (.str u!"count"))) =
    some (.ok (.ok (.num 2))) := by decide +kernel
example : ATree.leaves demoTree = 2 := by decide +kernel
example : (treeDist .exact (some (fun h r => if (h.node r).label = u!"b" then .error .keyError else if (h.node r).label = u!"a" then .error .valueError
    else .ok (.num 1))) demoHeap 30 0).map (fun r => r.map Prod.snd) = some (.error .keyError) := by decide +kernel
example : (treeDist .exact (some (fun h r => if (h.node r).label = u!"d" then .ok .none else if (h.node r).label = u!"a" then .error .valueError
    else .ok (.num 1))) demoHeap 30 0).map (fun r => r.map Prod.snd) = some (.error .typeError) := by decide +kernel
example : (treeDist .exact (some (fun _ _ => .ok (.num 0))) demoHeap 30 0).map (fun r => r.map Prod.snd) = some (.error .zeroDivisionError) := by
  decide +kernel

end Cjk
