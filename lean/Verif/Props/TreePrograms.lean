import Verif.Props.TreeLoops
/-!
# C121: copies of nodes with loops; which programs make loops
-/

namespace Cjk
open Py
open Spec (Leads Circular nodeKids nodeUp NodesOk DownSafe UpSafe)

/-! ### `copy` and `prune` -/

theorem newItems_refs (n : Nat) (items : List (Str × Nat)) : (newItems n items).map Prod.snd = List.range' n items.length := by
  induction items generalizing n with
  | nil => rfl
  | cons lc items ih => obtain ⟨l, c⟩ := lc; simp [newItems, ih, List.range'_succ]

theorem copyLoop_bound (h0 : Heap) (hb : ∀ r < h0.length, ∀ kc ∈ nodeKids h0 r, kc.2 < h0.length) : ∀ (fuel : Nat) (h : Heap) (stack : List Nat) (h' : Heap),
    h0.length ≤ h.length → (∀ x < h0.length, h.node x = h0.node x) → stack.Nodup →
    (∀ s ∈ stack, h0.length ≤ s ∧ s < h.length ∧ ∀ kc ∈ nodeKids h s, kc.2 < h0.length) → copyLoop fuel h stack = some h' →
    ∀ s ∈ stack, ∀ kc ∈ nodeKids h s, ∀ ks x, Leads (nodeKids h0) kc.2 ks x → ks.length + 1 < fuel := by
  intro fuel
  induction fuel with
  | zero => intro h stack h' _ _ _ _ e; cases e
  | succ fuel ih =>
    intro h stack h' hle hold hnd hst e s hs kc hkc ks x hl
    cases stack with
    | nil => cases hs
    | cons node stack =>
      simp only [copyLoop] at e
      have hn := hst node (by simp)
      have hcond : ∀ lc ∈ (h.node node).children, lc.2 < h.length ∧ lc.2 ≠ node := by
        intro lc hlc
        have := hn.2.2 lc hlc
        exact ⟨by omega, by omega⟩
      rw [copyKids_eq node _ h hn.2.1 hcond] at e
      simp only at e
      generalize hg : (h.upd node (fun n => { n with children := Dict.update n.children (newItems h.length (h.node node).children) }) ++
        newNodes h node (h.node node).children : Heap) = h1 at e
      have hlen : h1.length = h.length + (h.node node).children.length := by
        rw [← hg]; simp [newNodes]
      have hother : ∀ y < h.length, y ≠ node → h1.node y = h.node y := by
        intro y hy hne
        rw [← hg, node_append _ _ (by simpa using hy), upd_node_ne _ _ (Ne.symm hne)]
      have hnew : ∀ (i : Nat) lc, (h.node node).children[i]? = some lc → nodeKids h1 (h.length + i) = nodeKids h0 lc.2 := by
        intro i lc hi
        have hlc := hn.2.2 lc (List.mem_of_getElem? hi)
        have hget : h1[h.length + i]? = some ⟨lc.1, (h.node lc.2).children, (h.node lc.2).attrib, some node⟩ := by
          rw [← hg, List.getElem?_append_right (by simp)]
          simp only [upd_length, Nat.add_sub_cancel_left, newNodes, List.getElem?_map, hi, Option.map_some]
        unfold nodeKids
        rw [← hold lc.2 hlc]
        unfold Heap.node at hget ⊢
        rw [hget]
        rfl
      have hmemnew : ∀ m, m ∈ ((newItems h.length (h.node node).children).map Prod.snd).reverse ↔ ∃ i, i < (h.node node).children.length ∧ m = h.length + i := by
        intro m
        rw [List.mem_reverse, newItems_refs, List.mem_range']
        constructor
        · rintro ⟨i, h1, h2⟩; exact ⟨i, h1, by omega⟩
        · rintro ⟨i, h1, h2⟩; exact ⟨i, h1, by omega⟩
      have ih' := ih h1 _ h' (by omega) (by
          intro y hy
          rw [hother y (by omega) (by omega)]
          exact hold y hy) (by
          rw [List.nodup_append]
          refine ⟨?_, (List.nodup_cons.1 hnd).2, ?_⟩
          · rw [List.nodup_reverse, newItems_refs]; exact List.nodup_range'
          · intro a ha b hb e
            subst e
            obtain ⟨i, _, rfl⟩ := (hmemnew a).1 ha
            have := (hst (h.length + i) (List.mem_cons_of_mem _ hb)).2.1
            omega) (by
          intro s hs
          rcases List.mem_append.1 hs with hs | hs
          · obtain ⟨i, hi, rfl⟩ := (hmemnew s).1 hs
            refine ⟨by omega, by omega, ?_⟩
            have hi' : (h.node node).children[i]? = some (h.node node).children[i] := List.getElem?_eq_getElem hi
            rw [hnew i _ hi']
            exact hb _ (hn.2.2 _ (List.getElem_mem hi))
          · have h2 := hst s (List.mem_cons_of_mem _ hs)
            have hne : s ≠ node := fun e => (List.nodup_cons.1 hnd).1 (e ▸ hs)
            refine ⟨h2.1, by omega, ?_⟩
            unfold nodeKids
            rw [hother s h2.2.1 hne]
            exact h2.2.2) e
      rcases List.mem_cons.1 hs with rfl | hs
      · obtain ⟨i, hi, hget⟩ := List.getElem_of_mem hkc
        have hi' : (h.node s).children[i]? = some kc := by
          rw [← hget]; exact List.getElem?_eq_getElem hi
        cases hl with
        | here =>
          cases fuel with
          | zero => cases e
          | succ fuel => simp
        | step hm h2 =>
          have := ih' (h.length + i) (List.mem_append_left _ ((hmemnew _).2 ⟨i, hi, rfl⟩)) _ (by rw [hnew i kc hi']; exact hm) _ _ h2
          simp only [List.length_cons]; omega
      · have hne : s ≠ node := fun e => (List.nodup_cons.1 hnd).1 (e ▸ hs)
        have := ih' s (List.mem_append_right _ hs) kc (by
          unfold nodeKids
          rw [hother s (hst s (List.mem_cons_of_mem _ hs)).2.1 hne]
          exact hkc) ks x hl
        omega

/-- C121: for a node without a parent that has children, `copy` and `prune` end exactly if there is no loop; for one with such a parent they raise. -/
theorem C121_copy_ends_iff (h : Heap) (hok : NodesOk h) (r : Nat) (hr : r < h.length) :
    (parentTruthy h r = true → ∀ fuel, treeCopy h fuel r = some (.error .genericException) ∧ ∀ p, treePrune p h fuel r = some (.error .genericException)) ∧
    (parentTruthy h r = false →
      ((∃ fuel h' r', treeCopy h fuel r = some (.ok (h', r'))) ↔ ¬ Circular (nodeKids h) r) ∧
      (∀ p, (∃ fuel h' r', treePrune p h fuel r = some (.ok (h', r'))) ↔ ¬ Circular (nodeKids h) r) ∧
      (Circular (nodeKids h) r → ∀ fuel, treeCopy h fuel r = none ∧ ∀ p, treePrune p h fuel r = none)) := by
  constructor
  · intro hp fuel
    have : treeCopy h fuel r = some (.error .genericException) := by unfold treeCopy; rw [if_pos hp]
    exact ⟨this, fun p => by unfold treePrune; rw [this]⟩
  · intro hp
    have never : Circular (nodeKids h) r → ∀ fuel, treeCopy h fuel r = none := by
      intro hc fuel
      unfold treeCopy
      rw [if_neg (by rw [hp]; simp)]
      cases e : copyLoop fuel (h ++ [⟨(h.node r).label, (h.node r).children, (h.node r).attrib, none⟩]) [h.length] with
      | none => rfl
      | some h' =>
        exfalso
        have hnew : nodeKids (h ++ [⟨(h.node r).label, (h.node r).children, (h.node r).attrib, none⟩] : Heap) h.length = nodeKids h r := by
          have hget : (h ++ [⟨(h.node r).label, (h.node r).children, (h.node r).attrib, none⟩] : Heap)[h.length]? =
              some ⟨(h.node r).label, (h.node r).children, (h.node r).attrib, none⟩ := by
            rw [List.getElem?_append_right (Nat.le_refl _)]; simp
          unfold nodeKids
          unfold Heap.node at hget ⊢
          rw [hget]
          rfl
        have := copyLoop_bound h (fun r hr kc hkc => ((hok r hr).2.1 kc hkc).1) fuel _ [h.length] h' (by simp)
          (fun x hx => node_append _ _ hx) (by simp) (by
            intro s hs
            obtain rfl : s = h.length := by simpa using hs
            refine ⟨Nat.le_refl _, by simp, ?_⟩
            rw [hnew]
            exact fun kc hkc => ((hok r hr).2.1 kc hkc).1) e h.length (by simp)
        rw [hnew] at this
        refine absurd hc (not_circular_of_bound (m := fuel + 1) ?_)
        intro ks x hl
        cases hl with
        | here => simp
        | step hm h2 =>
          have := this _ hm _ _ h2
          simp only [List.length_cons]; omega
    have neverp : Circular (nodeKids h) r → ∀ fuel p, treePrune p h fuel r = none := by
      intro hc fuel p
      unfold treePrune
      rw [never hc fuel]
    refine ⟨⟨?_, ?_⟩, fun p => ⟨?_, ?_⟩, fun hc fuel => ⟨never hc fuel, neverp hc fuel⟩⟩
    · rintro ⟨fuel, h', r', e⟩ hc
      rw [never hc fuel] at e; cases e
    · intro hc
      obtain ⟨t, rfl, h1, h2, h3⟩ := unfold_tree hok r hr hc
      obtain ⟨h', t', e, _⟩ := C49_copy h t h1 h2 h3 hp (t.size + 1) (by omega)
      exact ⟨_, _, _, e⟩
    · rintro ⟨fuel, h', r', e⟩ hc
      rw [neverp hc fuel p] at e; cases e
    · intro hc
      obtain ⟨t, rfl, h1, h2, h3⟩ := unfold_tree hok r hr hc
      obtain ⟨h', res, e, _⟩ := C50_prune p h t h1 h2 h3 hp (2 * t.size + 1) (by omega)
      exact ⟨_, _, _, e⟩

/-! ### Programs -/

theorem nodeKids_out {h : Heap} {r : Nat} (hr : h.length ≤ r) : nodeKids h r = [] ∧ nodeUp h r = [] := by
  have : h.node r = default := by unfold Heap.node; rw [List.getElem?_eq_none hr]; rfl
  unfold nodeKids nodeUp
  rw [this]
  exact ⟨rfl, rfl⟩

theorem mem_nodeUp {h : Heap} {r : Nat} {kp : Str × Nat} : kp ∈ nodeUp h r ↔ kp.1 = [] ∧ (h.node r).parent = some kp.2 := by
  unfold nodeUp
  obtain ⟨k, p⟩ := kp
  cases (h.node r).parent with
  | none => simp
  | some q => simp [eq_comm]

/-- What the operations other than `add_child` do to the links. -/
structure OnlyRemoves (h h' : Heap) : Prop where
  len : h.length ≤ h'.length
  label : ∀ r < h.length, (h'.node r).label = (h.node r).label
  kids : ∀ r, (nodeKids h' r).Sublist (nodeKids h r)
  up : ∀ r kp, kp ∈ nodeUp h' r → kp ∈ nodeUp h r

theorem OnlyRemoves.refl (h : Heap) : OnlyRemoves h h := ⟨Nat.le_refl _, fun _ _ => rfl, fun _ => List.Sublist.refl _, fun _ _ hm => hm⟩

theorem onlyRemoves_upd (h : Heap) (r : Nat) (hr : r < h.length) (f : TNode → TNode) (h1 : ∀ n, (f n).label = n.label)
    (h2 : ∀ n, (f n).children.Sublist n.children) (h3 : ∀ n p, (f n).parent = some p → n.parent = some p) : OnlyRemoves h (h.upd r f) := by
  have hn : ∀ i, (h.upd r f).node i = if r = i then f (h.node i) else h.node i := fun i => node_upd h r i f hr
  refine ⟨by simp, ?_, ?_, ?_⟩
  · intro i _
    rw [hn]; split
    · exact h1 _
    · rfl
  · intro i
    unfold nodeKids
    rw [hn]; split
    · exact h2 _
    · exact List.Sublist.refl _
  · intro i kp
    rw [mem_nodeUp, mem_nodeUp, hn]
    by_cases e : r = i
    · rw [if_pos e]; exact fun hm => ⟨hm.1, h3 _ _ hm.2⟩
    · rw [if_neg e]; exact id

theorem OnlyRemoves.trans {a b c : Heap} (h1 : OnlyRemoves a b) (h2 : OnlyRemoves b c) : OnlyRemoves a c :=
  ⟨Nat.le_trans h1.len h2.len, fun r hr => (h2.label r (by have := h1.len; omega)).trans (h1.label r hr),
    fun r => (h2.kids r).trans (h1.kids r), fun r kp hm => h1.up r kp (h2.up r kp hm)⟩

theorem delItem_sublist {d d' : Dict Str Nat} {key : Str} (e : delItem d key = .ok d') : d'.Sublist d := by
  unfold delItem at e
  split at e
  · cases e
  · cases e; exact Dict.del_sublist _ _

theorem step_onlyRemoves (h : Heap) (op : TreeOp) (ho : op.inHeap h) (hne : ∀ p c, op ≠ .add p c) : OnlyRemoves h (op.step h) := by
  cases op with
  | add p c => exact absurd rfl (hne p c)
  | new l a =>
    have hlt : ∀ i < h.length, Heap.node (h ++ [⟨l, [], a, none⟩]) i = h.node i := fun i hi => node_append _ _ hi
    have hge : ∀ i, h.length ≤ i → (Heap.node (h ++ [⟨l, [], a, none⟩]) i).children = [] ∧ (Heap.node (h ++ [⟨l, [], a, none⟩]) i).parent = none := by
      intro i hi
      unfold Heap.node
      rw [List.getElem?_append_right hi]
      cases hr : i - h.length with
      | zero => exact ⟨rfl, rfl⟩
      | succ j => exact ⟨rfl, rfl⟩
    refine ⟨by simp [TreeOp.step, newNode], fun r hr => by simp only [TreeOp.step, newNode]; rw [hlt r hr], ?_, ?_⟩
    · intro r
      unfold nodeKids
      simp only [TreeOp.step, newNode]
      by_cases hr : r < h.length
      · rw [hlt r hr]
      · rw [(hge r (by omega)).1]; exact List.nil_sublist _
    · intro r kp
      unfold nodeUp
      simp only [TreeOp.step, newNode]
      by_cases hr : r < h.length
      · rw [hlt r hr]; exact id
      · rw [(hge r (by omega)).2]; intro hm; cases hm
  | unlink c =>
    simp only [TreeOp.step]
    split
    · rename_i h' e
      unfold unlink at e
      have hdrop : ∀ g : Heap, c < g.length → OnlyRemoves g (g.upd c (fun n => { n with parent := none })) := fun g hc =>
        onlyRemoves_upd g c hc _ (fun _ => rfl) (fun _ => List.Sublist.refl _) (fun _ _ e => (by cases e))
      split at e
      · cases e; exact hdrop h ho
      · rename_i p hp
        split at e
        · cases e; exact hdrop h ho
        · rename_i hc
          split at e
          · cases e
          · rename_i d hd
            cases e
            have hpl : p < h.length := by
              by_cases hlt : p < h.length
              · exact hlt
              · exfalso
                have := (nodeKids_out (h := h) (Nat.le_of_not_lt hlt)).1
                unfold nodeKids at this
                exact hc (by rw [this]; rfl)
            refine OnlyRemoves.trans (b := h.upd p (fun n => { n with children := d })) ?_ (hdrop _ (by rw [upd_length]; exact ho))
            have hn : ∀ i, (h.upd p (fun n => { n with children := d })).node i = if p = i then { h.node i with children := d } else h.node i :=
              fun i => node_upd h p i _ hpl
            refine ⟨by simp, ?_, ?_, ?_⟩
            · intro i _; rw [hn]; split <;> rfl
            · intro i
              unfold nodeKids
              rw [hn]; split
              · rename_i e; subst e; exact delItem_sublist hd
              · exact List.Sublist.refl _
            · intro i kp
              rw [mem_nodeUp, mem_nodeUp, hn]
              by_cases e : p = i
              · rw [if_pos e]; exact id
              · rw [if_neg e]; exact id
    · exact OnlyRemoves.refl h
  | del p c =>
    simp only [TreeOp.step]
    split
    · rename_i h' e
      unfold delChild at e
      split at e
      · cases e
      · rename_i d hd
        cases e
        refine OnlyRemoves.trans (b := h.upd p (fun n => { n with children := d })) ?_
          (onlyRemoves_upd _ c (by simpa using ho.2) _ (fun _ => rfl) (fun _ => List.Sublist.refl _) (fun _ _ e => e))
        have hn : ∀ i, (h.upd p (fun n => { n with children := d })).node i = if p = i then { h.node i with children := d } else h.node i :=
          fun i => node_upd h p i _ ho.1
        refine ⟨by simp, ?_, ?_, ?_⟩
        · intro i _; rw [hn]; split <;> rfl
        · intro i
          unfold nodeKids
          rw [hn]; split
          · rename_i e; subst e; exact delItem_sublist hd
          · exact List.Sublist.refl _
        · intro i kp
          rw [mem_nodeUp, mem_nodeUp, hn]
          by_cases e : p = i
          · rw [if_pos e]; exact id
          · rw [if_neg e]; exact id
    · exact OnlyRemoves.refl h
  | set r k v => exact onlyRemoves_upd h r ho _ (fun _ => rfl) (fun _ => List.Sublist.refl _) (fun _ _ e => e)
  | unset r k =>
    simp only [TreeOp.step]
    split
    · rename_i h' e
      unfold delAttr at e
      split at e
      · cases e
      · cases e
        exact onlyRemoves_upd h r ho _ (fun _ => rfl) (fun _ => List.Sublist.refl _) (fun _ _ e => e)
    · exact OnlyRemoves.refl h

/-- What `add_child` does to the links. -/
theorem addChild_links (h : Heap) (p c : Nat) (hp : p < h.length) (hc : c < h.length) : (addChild h p c).length = h.length ∧
    (∀ i, ((addChild h p c).node i).label = (h.node i).label) ∧
    (∀ i, nodeKids (addChild h p c) i = if i = p then Dict.set (nodeKids h p) (h.node c).label c else nodeKids h i) ∧
    (∀ i, nodeUp (addChild h p c) i = if i = c then Dict.set (nodeUp h c) [] p else nodeUp h i) := by
  have hc' : c < (h.upd p (fun n => { n with children := Dict.set n.children (h.node c).label c })).length := by
    rw [upd_length]; exact hc
  have hn : ∀ i, (addChild h p c).node i =
      ⟨(h.node i).label, if p = i then Dict.set (h.node i).children (h.node c).label c else (h.node i).children,
        (h.node i).attrib, if c = i then some p else (h.node i).parent⟩ := by
    intro i
    unfold addChild
    simp only
    rw [node_upd _ _ _ _ hc', node_upd _ _ _ _ hp]
    by_cases e1 : c = i <;> by_cases e2 : p = i <;> simp [e1, e2]
  refine ⟨by simp [addChild], fun i => by rw [hn], fun i => ?_, fun i => ?_⟩
  · unfold nodeKids
    rw [hn]
    by_cases e : i = p
    · subst e; simp
    · rw [if_neg (Ne.symm e), if_neg e]
  · unfold nodeUp
    rw [hn]
    by_cases e : i = c
    · subst e
      simp only [if_true]
      cases (h.node i).parent with
      | none => rfl
      | some q => simp [Dict.set]
    · simp only [if_neg (Ne.symm e), if_neg e]

theorem nodesOk_step (h : Heap) (hok : NodesOk h) (op : TreeOp) (ho : op.inHeap h) : NodesOk (op.step h) := by
  by_cases hne : ∃ p c, op = .add p c
  · obtain ⟨p, c, rfl⟩ := hne
    obtain ⟨h1, h2, h3, h4⟩ := addChild_links h p c ho.1 ho.2
    intro r hr
    simp only [TreeOp.step] at hr ⊢
    rw [h1] at hr ⊢
    rw [h3 r, h4 r]
    refine ⟨?_, ?_, ?_⟩
    · split
      · exact Dict.WF_set (hok p ho.1).1 _ _
      · exact (hok r hr).1
    · intro kc hkc
      rw [h2]
      split at hkc
      · rename_i e
        subst e
        by_cases hin : kc ∈ nodeKids h r
        · exact (hok r hr).2.1 kc hin
        · have hg : Dict.get? (Dict.set (nodeKids h r) (h.node c).label c) kc.1 = some kc.2 :=
            (Dict.get?_eq_some_iff (Dict.WF_set (hok r hr).1 _ _) kc.1 kc.2).2 hkc
          rw [Dict.get?_set] at hg
          split at hg
          · rename_i e
            obtain rfl := Option.some.inj hg
            exact ⟨ho.2, e⟩
          · exact absurd (Dict.mem_of_get?_eq_some hg) hin
      · exact (hok r hr).2.1 kc hkc
    · intro kp hkp
      split at hkp
      · rcases mem_set_dict hkp with h5 | h5
        · exact (hok c ho.2).2.2 kp h5
        · rw [h5]; exact ho.1
      · exact (hok r hr).2.2 kp hkp
  · have hr := step_onlyRemoves h op ho (fun p c e => hne ⟨p, c, e⟩)
    intro r hrl
    by_cases hlt : r < h.length
    · obtain ⟨g1, g2, g3⟩ := hok r hlt
      have hlen := hr.len
      refine ⟨g1.sublist ((hr.kids r).map _), ?_, ?_⟩
      · intro kc hkc
        obtain ⟨j1, j2⟩ := g2 kc ((hr.kids r).subset hkc)
        exact ⟨by omega, by rw [hr.label _ j1]; exact j2⟩
      · intro kp hkp
        have := g3 kp (hr.up r kp hkp)
        omega
    · have h1 := nodeKids_out (h := h) (Nat.le_of_not_lt hlt)
      have h2 : nodeKids (op.step h) r = [] := by have := hr.kids r; rw [h1.1] at this; exact List.sublist_nil.1 this
      refine ⟨by rw [h2]; exact Dict.WF_nil, by rw [h2]; simp, ?_⟩
      intro kp hkp
      have := hr.up r kp hkp
      rw [h1.2] at this
      cases this

/-- C121: what programs build. -/
theorem C121_nodes_ok (ops : List TreeOp) (h : TreeOp.allInHeap [] ops) : NodesOk (TreeOp.run [] ops) := by
  have key : ∀ (ops : List TreeOp) (h : Heap), NodesOk h → TreeOp.allInHeap h ops → NodesOk (TreeOp.run h ops) := by
    intro ops
    induction ops with
    | nil => intro h hk _; exact hk
    | cons op ops ih => intro h hk ho; exact ih _ (nodesOk_step h hk op ho.1) ho.2
  exact key ops [] (by intro r hr; exact absurd hr (by simp)) h

theorem loopless_iff {kids : Nat → List (Str × Nat)} (n : Nat) (hout : ∀ r, n ≤ r → kids r = []) :
    (∀ r < n, ¬ Circular kids r) ↔ ∀ x ks, Leads kids x ks x → ks = [] := by
  constructor
  · intro hn x ks hl
    by_cases hx : x < n
    · exact Classical.byContradiction fun hne => hn x hx ⟨[], x, ks, .here x, hne, hl⟩
    · cases hl with
      | here => rfl
      | step hm _ => rw [hout x (by omega)] at hm; cases hm
  · rintro hn r _ ⟨ks, x, loop, _, hne, h2⟩
    exact hne (hn x loop h2)

theorem run_prefix_ok : ∀ (ops : List TreeOp) (h : Heap), NodesOk h → TreeOp.allInHeap h ops → ∀ done rest, ops = done ++ rest →
    NodesOk (TreeOp.run h done) := by
  intro ops
  induction ops with
  | nil =>
    intro h hk _ done rest e
    obtain ⟨rfl, rfl⟩ := List.append_eq_nil_iff.1 e.symm
    exact hk
  | cons op ops ih =>
    intro h hk ho done rest e
    cases done with
    | nil => exact hk
    | cons op' done =>
      simp only [List.cons_append, List.cons.injEq] at e
      obtain ⟨rfl, e⟩ := e
      exact ih _ (nodesOk_step h hk op ho.1) ho.2 done rest e

theorem safe_iff (kids : Heap → Nat → List (Str × Nat)) (safe : Heap → List TreeOp → Prop) (hnil : ∀ h, safe h [])
    (hcons : ∀ h op ops, op.inHeap h → (∀ x ks, Leads (kids h) x ks x → ks = []) →
      (safe h (op :: ops) ↔ (∀ x ks, Leads (kids (op.step h)) x ks x → ks = []) ∧ safe (op.step h) ops)) :
    ∀ (ops : List TreeOp) (h : Heap), (∀ x ks, Leads (kids h) x ks x → ks = []) → TreeOp.allInHeap h ops →
      ((∀ done rest, ops = done ++ rest → ∀ x ks, Leads (kids (TreeOp.run h done)) x ks x → ks = []) ↔ safe h ops) := by
  intro ops
  induction ops with
  | nil =>
    intro h hn _
    refine ⟨fun _ => hnil h, fun _ done rest e => ?_⟩
    obtain ⟨rfl, rfl⟩ := List.append_eq_nil_iff.1 e.symm
    exact hn
  | cons op ops ih =>
    intro h hn ho
    rw [hcons h op ops ho.1 hn]
    constructor
    · intro hall
      have h1 := hall [op] ops rfl
      refine ⟨h1, (ih _ h1 ho.2).1 ?_⟩
      intro done rest e
      exact hall (op :: done) rest (by rw [e]; rfl)
    · rintro ⟨h1, h2⟩ done rest e
      cases done with
      | nil => exact hn
      | cons op' done =>
        simp only [List.cons_append, List.cons.injEq] at e
        obtain ⟨rfl, e⟩ := e
        exact (ih _ h1 ho.2).2 h2 done rest e

theorem downSafe_cons (h : Heap) (op : TreeOp) (ops : List TreeOp) (ho : op.inHeap h) (hn : ∀ x ks, Leads (nodeKids h) x ks x → ks = []) :
    DownSafe h (op :: ops) ↔ (∀ x ks, Leads (nodeKids (op.step h)) x ks x → ks = []) ∧ DownSafe (op.step h) ops := by
  by_cases hne : ∃ p c, op = .add p c
  · obtain ⟨p, c, rfl⟩ := hne
    simp only [DownSafe]
    rw [← loopless_set (kids' := nodeKids (TreeOp.step h (.add p c))) p c (h.node c).label (addChild_links h p c ho.1 ho.2).2.2.1 hn]
  · have hr := step_onlyRemoves h op ho (fun p c e => hne ⟨p, c, e⟩)
    have hnew : ∀ x ks, Leads (nodeKids (op.step h)) x ks x → ks = [] := fun x ks hl => hn x ks (hl.mono fun r kc hm => (hr.kids r).subset hm)
    cases op with
    | add p c => exact absurd ⟨p, c, rfl⟩ hne
    | _ => exact ⟨fun hs => ⟨hnew, hs⟩, fun hs => hs.2⟩

theorem upSafe_cons (h : Heap) (op : TreeOp) (ops : List TreeOp) (ho : op.inHeap h) (hn : ∀ x ks, Leads (nodeUp h) x ks x → ks = []) :
    UpSafe h (op :: ops) ↔ (∀ x ks, Leads (nodeUp (op.step h)) x ks x → ks = []) ∧ UpSafe (op.step h) ops := by
  by_cases hne : ∃ p c, op = .add p c
  · obtain ⟨p, c, rfl⟩ := hne
    simp only [UpSafe]
    rw [← loopless_set (kids' := nodeUp (TreeOp.step h (.add p c))) c p [] (addChild_links h p c ho.1 ho.2).2.2.2 hn]
  · have hr := step_onlyRemoves h op ho (fun p c e => hne ⟨p, c, e⟩)
    have hnew : ∀ x ks, Leads (nodeUp (op.step h)) x ks x → ks = [] := fun x ks hl => hn x ks (hl.mono fun r kc hm => hr.up r kc hm)
    cases op with
    | add p c => exact absurd ⟨p, c, rfl⟩ hne
    | _ => exact ⟨fun hs => ⟨hnew, hs⟩, fun hs => hs.2⟩

/-- C121: every walk of every node ends at every moment of a program exactly if the program never adds a node to itself or to a node below it; every
`path` of every node does exactly if the program never adds a node to itself or to a node that has it among its `ancestors`. -/
theorem C121_programs_iff (ops : List TreeOp) (h : TreeOp.allInHeap [] ops) :
    ((∀ done rest, ops = done ++ rest → ∀ r < (TreeOp.run [] done).length, ∃ fuel out, walkPre (TreeOp.run [] done) fuel r = some out) ↔ DownSafe [] ops) ∧
    ((∀ done rest, ops = done ++ rest → ∀ r < (TreeOp.run [] done).length, ∃ fuel out, pathFromRoot (TreeOp.run [] done) fuel r = some out) ↔ UpSafe [] ops) := by
  have ok0 : NodesOk [] := by intro r hr; exact absurd hr (by simp)
  have empty : ∀ kids : Heap → Nat → List (Str × Nat), kids [] = (fun _ => []) → ∀ x ks, Leads (kids []) x ks x → ks = [] := by
    intro kids hk x ks hl
    rw [hk] at hl
    cases hl with
    | here => rfl
    | step hm _ => cases hm
  refine ⟨?_, ?_⟩
  · rw [← safe_iff nodeKids DownSafe (fun _ => trivial) downSafe_cons ops [] (empty nodeKids (by funext r; exact (nodeKids_out (Nat.zero_le r)).1)) h]
    refine forall_congr' fun done => forall_congr' fun rest => ⟨fun hall e => ?_, fun hall e => ?_⟩
    · have hk := run_prefix_ok ops [] ok0 h done rest e
      refine (loopless_iff _ fun r hr => (nodeKids_out hr).1).1 fun r hr => ?_
      exact (C121_walks_end_iff _ hk r hr (fun _ l => l) (fun _ l => List.Perm.refl l)).1.1 (hall e r hr)
    · have hk := run_prefix_ok ops [] ok0 h done rest e
      intro r hr
      refine (C121_walks_end_iff _ hk r hr (fun _ l => l) (fun _ l => List.Perm.refl l)).1.2 ?_
      exact (loopless_iff _ fun r hr => (nodeKids_out hr).1).2 (hall e) r hr
  · rw [← safe_iff nodeUp UpSafe (fun _ => trivial) upSafe_cons ops [] (empty nodeUp (by funext r; exact (nodeKids_out (Nat.zero_le r)).2)) h]
    refine forall_congr' fun done => forall_congr' fun rest => ⟨fun hall e => ?_, fun hall e => ?_⟩
    · have hk := run_prefix_ok ops [] ok0 h done rest e
      refine (loopless_iff _ fun r hr => (nodeKids_out hr).2).1 fun r hr => ?_
      exact (C121_path_ends_iff _ hk r hr).1.1 (hall e r hr)
    · have hk := run_prefix_ok ops [] ok0 h done rest e
      intro r hr
      refine (C121_path_ends_iff _ hk r hr).1.2 ?_
      exact (loopless_iff _ fun r hr => (nodeKids_out hr).2).2 (hall e) r hr

/-- C121 (refutation): `a.add_child(a)` raises nothing, and then no walk, no path and no unsuccessful search of `a` ends. -/
theorem C121_refuted : ∃ ops : List TreeOp, TreeOp.allInHeap [] ops ∧
    (∀ fuel, walkPre (TreeOp.run [] ops) fuel 0 = none ∧ walkPost (TreeOp.run [] ops) fuel 0 = none ∧ pathFromRoot (TreeOp.run [] ops) fuel 0 = none) ∧
    ∀ shuffle : Nat → List Nat → List Nat, (∀ n l, (shuffle n l).Perm l) → ∀ fuel, walkBfs shuffle (TreeOp.run [] ops) fuel 0 = none ∧
      ∀ label ≠ u!"a", treeFindNode shuffle (TreeOp.run [] ops) fuel 0 label = none := by
  have hin : TreeOp.allInHeap [] [.new u!"a" [], .add 0 0] := by decide +kernel
  have hok := C121_nodes_ok _ hin
  have hrun : TreeOp.run [] [.new u!"a" [], .add 0 0] = [⟨u!"a", [(u!"a", 0)], [], some 0⟩] := by decide +kernel
  refine ⟨_, hin, ?_⟩
  rw [hrun] at hok ⊢
  have hc : Circular (nodeKids [⟨u!"a", [(u!"a", 0)], [], some 0⟩]) 0 := ⟨[], 0, [u!"a"], .here 0, by simp, .step (by simp [nodeKids, Heap.node]) (.here 0)⟩
  have hu : Circular (nodeUp [⟨u!"a", [(u!"a", 0)], [], some 0⟩]) 0 := ⟨[], 0, [[]], .here 0, by simp, .step (by simp [nodeUp, Heap.node]) (.here 0)⟩
  have none_of : ∀ {α : Type} (f : Nat → Option α), ¬ (∃ fuel out, f fuel = some out) → ∀ fuel, f fuel = none := by
    intro α f hf fuel
    cases e : f fuel with
    | none => rfl
    | some out => exact absurd ⟨fuel, out, e⟩ hf
  have hw := fun shuffle hs => C121_walks_end_iff _ hok 0 (by decide) shuffle hs
  constructor
  · intro fuel
    have h0 := hw (fun _ l => l) (fun _ l => List.Perm.refl l)
    exact ⟨none_of _ (fun e => h0.1.1 e hc) fuel, none_of _ (fun e => h0.2.1.1 e hc) fuel,
      none_of _ (fun e => (C121_path_ends_iff _ hok 0 (by decide)).1.1 e hu) fuel⟩
  · intro shuffle hs fuel
    refine ⟨none_of _ (fun e => (hw shuffle hs).2.2.1 e hc) fuel, fun label hl => ?_⟩
    refine (C121_find_node _ hok 0 (by decide) shuffle hs label).2.2 ?_ hc fuel
    rintro ⟨way, x, g1, g2⟩
    have : ∀ (r : Nat) (ks : List Str) (x : Nat), Leads (nodeKids [⟨u!"a", [(u!"a", 0)], [], some 0⟩]) r ks x → r = 0 → x = 0 := by
      intro r ks x h
      induction h with
      | here => exact id
      | @step r c x k ks hm _ ih =>
        rintro rfl
        refine ih ?_
        simp only [nodeKids, Heap.node, List.getElem?_cons_zero, Option.getD_some, List.mem_singleton, Prod.mk.injEq] at hm
        exact hm.2
    rw [this 0 way x g2 rfl] at g1
    exact hl g1.symm

/-- C121 (refutation): `del_child` leaves the parent pointer, so a program in which no node ever contains itself can make `path` run for ever:
`a.add_child(b)`, `a.del_child(b)`, `b.add_child(a)`. -/
theorem C121_path_refuted : ∃ ops : List TreeOp, TreeOp.allInHeap [] ops ∧ DownSafe [] ops ∧ ∀ fuel, pathFromRoot (TreeOp.run [] ops) fuel 0 = none := by
  have hin : TreeOp.allInHeap [] [.new u!"a" [], .new u!"b" [], .add 0 1, .del 0 1, .add 1 0] := by decide +kernel
  have hok := C121_nodes_ok _ hin
  have hrun : TreeOp.run [] [.new u!"a" [], .new u!"b" [], .add 0 1, .del 0 1, .add 1 0] =
      [⟨u!"a", [], [], some 1⟩, ⟨u!"b", [(u!"a", 0)], [(.str u!"parent", .none)], some 0⟩] := by decide +kernel
  refine ⟨_, hin, ?_, ?_⟩
  · have nokids : ∀ (h : Heap) (c : Nat), nodeKids h c = [] → ∀ ks p, Leads (nodeKids h) c ks p → c = p := by
      intro h c hk ks p hl
      cases hl with
      | here => rfl
      | step hm _ => rw [hk] at hm; cases hm
    refine ⟨?_, ?_, trivial⟩
    · rintro ⟨ks, hl⟩
      exact absurd (nokids _ 1 (by decide +kernel) ks 0 hl) (by decide)
    · rintro ⟨ks, hl⟩
      exact absurd (nokids _ 0 (by decide +kernel) ks 1 hl) (by decide)
  · rw [hrun] at hok ⊢
    intro fuel
    have hu : Circular (nodeUp [⟨u!"a", [], [], some 1⟩, ⟨u!"b", [(u!"a", 0)], [(.str u!"parent", .none)], some 0⟩]) 0 :=
      ⟨[], 0, [[], []], .here 0, by simp, .step (c := 1) (by simp [nodeUp, Heap.node]) (.step (c := 0) (by simp [nodeUp, Heap.node]) (.here 0))⟩
    cases e : pathFromRoot [⟨u!"a", [], [], some 1⟩, ⟨u!"b", [(u!"a", 0)], [(.str u!"parent", .none)], some 0⟩] fuel 0 with
    | none => rfl
    | some out => exact absurd hu ((C121_path_ends_iff _ hok 0 (by decide)).1.1 ⟨fuel, out, e⟩)

/-- A program that is safe in both ways. -/
example : ∃ ops : List TreeOp, TreeOp.allInHeap [] ops ∧ DownSafe [] ops ∧ UpSafe [] ops ∧ 3 ≤ ops.length :=
  ⟨[.new u!"a" [], .new u!"b" [], .add 0 1], by decide +kernel, ⟨by
    rintro ⟨ks, hl⟩
    generalize e : (1 : Nat) = one at hl
    cases hl with
    | here => cases e
    | step hm _ => subst e; exact absurd hm (by change _ ∉ ([] : List (Str × Nat)); simp), trivial⟩, ⟨by
    rintro ⟨ks, hl⟩
    generalize e : (0 : Nat) = z0 at hl
    cases hl with
    | here => cases e
    | step hm _ => subst e; exact absurd hm (by change _ ∉ ([] : List (Str × Nat)); simp), trivial⟩, by decide⟩

end Cjk
