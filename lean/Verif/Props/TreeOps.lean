import Verif.Spec.TreeOps
import Verif.Props.TreePrune
/-!
# C51, C53: links under histories of operations; `build_index`
-/

namespace Cjk
open Py

/-! ### C51 -/

/-- The invariant: links are consistent and dictionaries have distinct keys. -/
structure LinkInv (h : Heap) : Prop where
  links : LinksOk h
  wf : ∀ n ∈ h, Dict.WF n.children

theorem LinkInv.wf_node {h : Heap} (hi : LinkInv h) (r : Nat) : Dict.WF (h.node r).children := by
  unfold Heap.node
  cases e : h[r]? with
  | none => exact List.nodup_nil
  | some n => exact hi.wf n (List.mem_of_getElem? e)

theorem mem_upd {h : Heap} {r : Nat} {f : TNode → TNode} {n : TNode} (hm : n ∈ h.upd r f) : n ∈ h ∨ ∃ n0 ∈ h, h[r]? = some n0 ∧ n = f n0 := by
  obtain ⟨i, hi⟩ := List.mem_iff_getElem?.1 hm
  rw [upd_getElem?] at hi
  by_cases e : r = i
  · rw [if_pos e] at hi
    obtain ⟨n0, h1, h2⟩ := Option.map_eq_some_iff.1 hi
    subst e
    exact Or.inr ⟨n0, List.mem_of_getElem? h1, h1, h2.symm⟩
  · rw [if_neg e] at hi; exact Or.inl (List.mem_of_getElem? hi)

theorem node_upd (h : Heap) (r i : Nat) (f : TNode → TNode) (hr : r < h.length) :
    (h.upd r f).node i = if r = i then f (h.node i) else h.node i := by
  by_cases e : r = i
  · subst e; rw [if_pos rfl, upd_node_eq h f hr]
  · rw [if_neg e, upd_node_ne h f e]

theorem node_eq_of_lt {h : Heap} {r : Nat} (hr : r < h.length) : h[r]? = some (h.node r) := by
  unfold Heap.node; rw [List.getElem?_eq_getElem hr]; rfl

theorem LinkInv.new {h : Heap} (hi : LinkInv h) (l : Str) (a : Attrib) : LinkInv (newNode h l a).1 := by
  unfold newNode
  have hlt : ∀ i < h.length, Heap.node (h ++ [⟨l, [], a, none⟩]) i = h.node i := by
    intro i hlt; apply node_congr; exact List.getElem?_append_left hlt
  refine ⟨?_, ?_⟩
  · intro p hp l' c hc
    simp only [List.length_append, List.length_cons, List.length_nil] at hp ⊢
    by_cases e : p < h.length
    · rw [hlt p e] at hc
      obtain ⟨h1, h2, h3⟩ := hi.links p e l' c hc
      exact ⟨by omega, by rw [hlt c h1]; exact h2, by rw [hlt c h1]; exact h3⟩
    · have : p = h.length := by omega
      subst this
      have hn : Heap.node (h ++ [⟨l, [], a, none⟩]) h.length = ⟨l, [], a, none⟩ := by
        unfold Heap.node
        rw [List.getElem?_append_right (Nat.le_refl _)]; simp
      rw [hn] at hc; cases hc
  · intro n hn
    rcases List.mem_append.1 hn with hn | hn
    · exact hi.wf n hn
    · rw [List.mem_singleton.1 hn]; exact List.nodup_nil

theorem LinkInv.attrib {h : Heap} (hi : LinkInv h) (r : Nat) (f : Attrib → Attrib) (hr : r < h.length) :
    LinkInv (h.upd r (fun n => { n with attrib := f n.attrib })) := by
  refine ⟨?_, ?_⟩
  · intro p hp l c hc
    rw [upd_length] at hp ⊢
    rw [node_upd h r p _ hr] at hc
    rw [node_upd h r c _ hr]
    have hc' : Dict.get? (h.node p).children l = some c := by
      by_cases e : r = p
      · rw [if_pos e] at hc; exact hc
      · rw [if_neg e] at hc; exact hc
    obtain ⟨h1, h2, h3⟩ := hi.links p hp l c hc'
    refine ⟨h1, ?_, ?_⟩
    · by_cases e : r = c
      · rw [if_pos e]; exact h2
      · rw [if_neg e]; exact h2
    · by_cases e : r = c
      · rw [if_pos e]; exact h3
      · rw [if_neg e]; exact h3
  · intro n hn
    rcases mem_upd hn with hn | ⟨n0, hm, _, rfl⟩
    · exact hi.wf n hn
    · exact hi.wf n0 hm

theorem LinkInv.setAttr {h : Heap} (hi : LinkInv h) (r : Nat) (k : AKey) (v : AVal) (hr : r < h.length) :
    LinkInv (setAttr h r k v) := hi.attrib r (fun a => Dict.set a k v) hr

theorem LinkInv.add {h : Heap} (hi : LinkInv h) (p c : Nat) (hp : p < h.length) (hc : c < h.length)
    (hf : ∀ q < h.length, q ≠ p → c ∉ Dict.values (h.node q).children) : LinkInv (addChild h p c) := by
  unfold addChild
  have hc' : c < (h.upd p (fun n => { n with children := Dict.set n.children (h.node c).label c })).length := by
    rw [upd_length]; exact hc
  have hn : ∀ i, Heap.node ((h.upd p (fun n => { n with children := Dict.set n.children (h.node c).label c })).upd c
      (fun n => { n with parent := some p })) i =
      ⟨(h.node i).label, if p = i then Dict.set (h.node i).children (h.node c).label c else (h.node i).children,
        (h.node i).attrib, if c = i then some p else (h.node i).parent⟩ := by
    intro i
    rw [node_upd _ _ _ _ hc', node_upd _ _ _ _ hp]
    by_cases e1 : c = i <;> by_cases e2 : p = i <;> simp [e1, e2]
  refine ⟨?_, ?_⟩
  · intro q hq l d hd
    simp only [upd_length] at hq ⊢
    rw [hn] at hd ⊢
    simp only at hd ⊢
    by_cases e : p = q
    · subst e
      rw [if_pos rfl, Dict.get?_set] at hd
      by_cases e' : (h.node c).label = l
      · rw [if_pos e'] at hd
        cases hd
        exact ⟨hc, e', if_pos rfl⟩
      · rw [if_neg e'] at hd
        obtain ⟨h1, h2, h3⟩ := hi.links p hp l d hd
        refine ⟨h1, h2, ?_⟩
        by_cases e2 : c = d
        · rw [if_pos e2]
        · rw [if_neg e2]; exact h3
    · rw [if_neg e] at hd
      obtain ⟨h1, h2, h3⟩ := hi.links q hq l d hd
      refine ⟨h1, h2, ?_⟩
      by_cases e2 : c = d
      · exfalso
        apply hf q hq (Ne.symm e)
        rw [e2]
        exact List.mem_map_of_mem (f := Prod.snd) (Dict.mem_of_get?_eq_some hd)
      · rw [if_neg e2]; exact h3
  · intro n hm
    have hin : ∀ n' ∈ h.upd p (fun n => { n with children := Dict.set n.children (h.node c).label c }),
        Dict.WF n'.children := by
      intro n' hm'
      rcases mem_upd hm' with hm2 | ⟨n0, hm2, _, rfl⟩
      · exact hi.wf n' hm2
      · exact Dict.WF_set (hi.wf n0 hm2) _ _
    rcases mem_upd hm with hm2 | ⟨n0, hm2, _, rfl⟩
    · exact hin n hm2
    · exact hin n0 hm2

/-- Removing one entry of `p` and changing a node `c` in something else than children and label; the parent may change
only if no remaining entry leads to `c`. -/
theorem LinkInv.drop {h : Heap} (hi : LinkInv h) (p c : Nat) (l : Str) (g : TNode → TNode) (hp : p < h.length)
    (hc : c < h.length) (hg : ∀ n, (g n).label = n.label ∧ (g n).children = n.children)
    (hpar : (∀ n, (g n).parent = n.parent) ∨
      ∀ q < h.length, ∀ l', (q = p → l' ≠ l) → Dict.get? (h.node q).children l' ≠ some c) :
    LinkInv ((h.upd p (fun n => { n with children := Dict.del (h.node p).children l })).upd c g) := by
  have hc' : c < (h.upd p (fun n => { n with children := Dict.del (h.node p).children l })).length := by
    rw [upd_length]; exact hc
  have hwf := hi.wf_node p
  have hch : ∀ i, (Heap.node ((h.upd p (fun n => { n with children := Dict.del (h.node p).children l })).upd c g) i).children =
      if p = i then Dict.del (h.node p).children l else (h.node i).children := by
    intro i
    rw [node_upd _ _ _ _ hc', node_upd _ _ _ _ hp]
    by_cases e1 : c = i
    · rw [if_pos e1, (hg _).2]
      by_cases e2 : p = i <;> simp [e2]
    · rw [if_neg e1]
      by_cases e2 : p = i <;> simp [e2]
  have hlab : ∀ i, (Heap.node ((h.upd p (fun n => { n with children := Dict.del (h.node p).children l })).upd c g) i).label =
      (h.node i).label := by
    intro i
    rw [node_upd _ _ _ _ hc', node_upd _ _ _ _ hp]
    by_cases e1 : c = i
    · rw [if_pos e1, (hg _).1]
      by_cases e2 : p = i <;> simp [e2]
    · rw [if_neg e1]
      by_cases e2 : p = i <;> simp [e2]
  have hpa : ∀ i, (c ≠ i ∨ ∀ n, (g n).parent = n.parent) →
      (Heap.node ((h.upd p (fun n => { n with children := Dict.del (h.node p).children l })).upd c g) i).parent =
      (h.node i).parent := by
    intro i ho
    rw [node_upd _ _ _ _ hc', node_upd _ _ _ _ hp]
    by_cases e1 : c = i
    · rw [if_pos e1]
      rcases ho with ho | ho
      · exact absurd e1 ho
      · rw [ho]
        by_cases e2 : p = i <;> simp [e2]
    · rw [if_neg e1]
      by_cases e2 : p = i <;> simp [e2]
  refine ⟨?_, ?_⟩
  · intro q hq l' d hd
    simp only [upd_length] at hq ⊢
    rw [hch] at hd
    have hold : Dict.get? (h.node q).children l' = some d ∧ (q = p → l' ≠ l) := by
      by_cases e : p = q
      · subst e
        rw [if_pos rfl, Dict.get?_del hwf] at hd
        by_cases e' : l = l'
        · rw [if_pos e'] at hd; cases hd
        · rw [if_neg e'] at hd; exact ⟨hd, fun _ => Ne.symm e'⟩
      · rw [if_neg e] at hd; exact ⟨hd, fun ee => absurd ee.symm e⟩
    obtain ⟨h1, h2, h3⟩ := hi.links q hq l' d hold.1
    refine ⟨h1, by rw [hlab]; exact h2, ?_⟩
    rw [hpa d]
    · exact h3
    · rcases hpar with hpar | hpar
      · exact Or.inr hpar
      · left
        rintro rfl
        exact hpar q hq l' hold.2 hold.1
  · intro n hm
    have hd : Dict.WF (Dict.del (h.node p).children l) := Dict.WF_del hwf l
    have hin : ∀ n' ∈ h.upd p (fun n => { n with children := Dict.del (h.node p).children l }), Dict.WF n'.children := by
      intro n' hm'
      rcases mem_upd hm' with hm2 | ⟨n0, hm2, _, rfl⟩
      · exact hi.wf n' hm2
      · exact hd
    rcases mem_upd hm with hm2 | ⟨n0, hm2, _, rfl⟩
    · exact hin n hm2
    · rw [(hg _).2]; exact hin n0 hm2

theorem LinkInv.step {h : Heap} (hi : LinkInv h) (op : TreeOp) (h1 : op.inHeap h) (h2 : op.fresh h) : LinkInv (op.step h) := by
  cases op with
  | new l a => exact hi.new l a
  | add p c => exact hi.add p c h1.1 h1.2 h2
  | set r k v => exact hi.setAttr r k v h1
  | unset r k =>
    simp only [TreeOp.step, delAttr]
    cases Dict.get? (h.node r).attrib k with
    | none => exact hi
    | some _ => exact hi.attrib r (fun a => Dict.del a k) h1
  | del p c =>
    simp only [TreeOp.step, delChild, delItem]
    cases e : Dict.get? (h.node p).children (h.node c).label with
    | none => exact hi
    | some d =>
      exact hi.drop p c _ _ h1.1 h1.2 (fun n => ⟨rfl, rfl⟩) (Or.inl (fun n => rfl))
  | unlink c =>
    have hc : c < h.length := h1
    -- whatever the parent is, no other entry leads to `c`
    simp only [TreeOp.step, Cjk.unlink]
    have hno : ∀ p, (h.node c).parent = some p → ∀ q < h.length, ∀ l', (q = p → l' ≠ (h.node c).label) →
        Dict.get? (h.node q).children l' ≠ some c := by
      intro p hp q hq l' hl hg
      obtain ⟨_, g2, g3⟩ := hi.links q hq l' c hg
      rw [hp] at g3; cases g3
      exact hl rfl g2.symm
    have hsimple : (∀ q < h.length, ∀ l', Dict.get? (h.node q).children l' ≠ some c) →
        LinkInv (h.upd c (fun n => { n with parent := none })) := by
      intro hn
      refine ⟨?_, ?_⟩
      · intro q hq l d hd
        rw [upd_length] at hq ⊢
        rw [node_upd _ _ _ _ hc] at hd
        have hd' : Dict.get? (h.node q).children l = some d := by
          by_cases e : c = q
          · rw [if_pos e] at hd; exact hd
          · rw [if_neg e] at hd; exact hd
        obtain ⟨g1, g2, g3⟩ := hi.links q hq l d hd'
        have hne : c ≠ d := by rintro rfl; exact hn q hq l hd'
        rw [node_upd _ _ _ _ hc, if_neg hne]
        exact ⟨g1, g2, g3⟩
      · intro n hm
        rcases mem_upd hm with hm2 | ⟨n0, hm2, _, rfl⟩
        · exact hi.wf n hm2
        · exact hi.wf n0 hm2
    cases hp : (h.node c).parent with
    | none =>
      apply hsimple
      intro q hq l' hg
      obtain ⟨_, _, g3⟩ := hi.links q hq l' c hg
      rw [hp] at g3; cases g3
    | some p =>
      simp only
      by_cases hemp : (h.node p).children.isEmpty = true
      · rw [if_pos hemp]
        apply hsimple
        intro q hq l' hg
        have hg' := hg
        obtain ⟨_, _, g3⟩ := hi.links q hq l' c hg
        rw [hp] at g3; cases g3
        rw [List.isEmpty_iff.1 hemp] at hg'; cases hg'
      · rw [if_neg hemp]
        unfold delItem
        cases e : Dict.get? (h.node p).children (h.node c).label with
        | none => exact hi
        | some d =>
          have hpl : p < h.length := by
            by_contra hn
            apply hemp
            unfold Heap.node
            rw [List.getElem?_eq_none (by omega)]; rfl
          exact hi.drop p c _ _ hpl hc (fun n => ⟨rfl, rfl⟩) (Or.inr (hno p hp))

/-- C51 (true part): in every history of creating nodes, `add_child`, `unlink`, `del_child` and attribute changes (also
ones that raise) in which no node is added while it is a child of another node, a child under label `l` always has label
`l` and the right parent, and a node is a child of at most one node, under one label.  Missing: the hypothesis
`allFresh`, without which the claim is false (`C51_links_refuted`). -/
theorem C51_links_partial (ops : List TreeOp) (h1 : TreeOp.allInHeap [] ops) (h2 : TreeOp.allFresh [] ops) :
    LinksOk (TreeOp.run [] ops) ∧
    ∀ p < (TreeOp.run [] ops).length, ∀ q < (TreeOp.run [] ops).length, ∀ l l' c,
      Dict.get? ((TreeOp.run [] ops).node p).children l = some c →
      Dict.get? ((TreeOp.run [] ops).node q).children l' = some c → p = q ∧ l = l' := by
  have key : ∀ (ops : List TreeOp) (h : Heap), LinkInv h → TreeOp.allInHeap h ops → TreeOp.allFresh h ops →
      LinkInv (TreeOp.run h ops) := by
    intro ops
    induction ops with
    | nil => intro h hi _ _; exact hi
    | cons op ops ih => intro h hi h1 h2; exact ih _ (hi.step op h1.1 h2.1) h1.2 h2.2
  have hi := key ops [] ⟨by intro p hp; simp at hp, by simp⟩ h1 h2
  refine ⟨hi.links, ?_⟩
  intro p hp q hq l l' c e1 e2
  obtain ⟨_, g2, g3⟩ := hi.links p hp l c e1
  obtain ⟨_, g4, g5⟩ := hi.links q hq l' c e2
  rw [g3] at g5; cases g5
  exact ⟨rfl, g2.symm.trans g4⟩

/-- A history with every operation, meeting the hypotheses. -/
def demoOps : List TreeOp :=
  [.new u!"a" [], .new u!"b" [], .new u!"c" [], .new u!"b" [], .add 0 1, .add 1 2, .unlink 2, .add 0 2, .del 0 1, .add 2 1,
   .add 0 3, .unlink 1, .set 0 (.str u!"k") .none, .unset 0 (.str u!"k"), .unlink 1, .del 0 1]

instance (h : Heap) : (op : TreeOp) → Decidable (op.inHeap h)
  | .new _ _ => inferInstanceAs (Decidable True)
  | .add p c => inferInstanceAs (Decidable (p < h.length ∧ c < h.length))
  | .unlink c => inferInstanceAs (Decidable (c < h.length))
  | .del p c => inferInstanceAs (Decidable (p < h.length ∧ c < h.length))
  | .set r _ _ => inferInstanceAs (Decidable (r < h.length))
  | .unset r _ => inferInstanceAs (Decidable (r < h.length))

instance (h : Heap) : (op : TreeOp) → Decidable (op.fresh h)
  | .new _ _ => inferInstanceAs (Decidable True)
  | .add p c => inferInstanceAs (Decidable (∀ q < h.length, q ≠ p → c ∉ Dict.values (h.node q).children))
  | .unlink _ => inferInstanceAs (Decidable True)
  | .del _ _ => inferInstanceAs (Decidable True)
  | .set _ _ _ => inferInstanceAs (Decidable True)
  | .unset _ _ => inferInstanceAs (Decidable True)

instance decAllInHeap : (h : Heap) → (ops : List TreeOp) → Decidable (TreeOp.allInHeap h ops)
  | _, [] => inferInstanceAs (Decidable True)
  | h, op :: ops =>
    have := decAllInHeap (op.step h) ops
    inferInstanceAs (Decidable (op.inHeap h ∧ TreeOp.allInHeap (op.step h) ops))

instance decAllFresh : (h : Heap) → (ops : List TreeOp) → Decidable (TreeOp.allFresh h ops)
  | _, [] => inferInstanceAs (Decidable True)
  | h, op :: ops =>
    have := decAllFresh (op.step h) ops
    inferInstanceAs (Decidable (op.fresh h ∧ TreeOp.allFresh (op.step h) ops))

example : TreeOp.allInHeap [] demoOps ∧ TreeOp.allFresh [] demoOps := by decide +kernel

/-- C51 is false in general: adding a node to a second parent leaves it a child of both. -/
theorem C51_links_refuted : ∃ ops : List TreeOp, TreeOp.allInHeap [] ops ∧ ¬ LinksOk (TreeOp.run [] ops) ∧
    ∃ p q l c, p ≠ q ∧ Dict.get? ((TreeOp.run [] ops).node p).children l = some c ∧
      Dict.get? ((TreeOp.run [] ops).node q).children l = some c := by
  refine ⟨[.new u!"a" [], .new u!"b" [], .new u!"c" [], .add 0 2, .add 1 2], ?_, ?_, 0, 1, u!"c", 2, by decide, ?_, ?_⟩
  · decide +kernel
  · intro hl
    have := hl 0 (by decide +kernel) u!"c" 2 (by decide +kernel)
    revert this; decide +kernel
  · decide +kernel
  · decide +kernel

/-- `del_child` never removes the parent pointer of the child, although its documentation says so. -/
theorem C51_del_child_keeps_parent (h h' : Heap) (p c : Nat) (hc : c < h.length) (e : delChild h p c = .ok h') :
    (h'.node c).parent = (h.node c).parent ∧ Dict.get? (h'.node c).attrib (.str u!"parent") = some .none := by
  unfold delChild delItem at e
  cases hg : Dict.get? (h.node p).children (h.node c).label with
  | none => rw [hg] at e; cases e
  | some d =>
    rw [hg] at e
    cases e
    rw [node_upd _ _ _ _ (by simpa using hc), if_pos rfl]
    refine ⟨?_, Dict.get?_set_self _ _ _⟩
    by_cases e : p = c
    · subst e; rw [node_upd _ _ _ _ hc, if_pos rfl]
    · rw [upd_node_ne _ _ e]

/-! ### C53 -/

/-- C53 is false: `build_index` raises an exception for every node whatsoever. -/
theorem C53_build_index_refuted (h : Heap) (r : Nat) : ∃ e, buildIndex h r = .error e ∧ (e = .keyError ∨ e = .valueError) := by
  have : ∃ e, unpackPair (h.node r).attrib = .error e ∧ (e = .keyError ∨ e = .valueError) := by
    unfold unpackPair Dict.getItem
    cases Dict.get? (h.node r).attrib (.int 0) with
    | none => exact ⟨_, rfl, Or.inl rfl⟩
    | some x =>
      cases Dict.get? (h.node r).attrib (.int 1) with
      | none => exact ⟨_, rfl, Or.inl rfl⟩
      | some y =>
        cases Dict.get? (h.node r).attrib (.int 2) with
        | none => exact ⟨_, rfl, Or.inl rfl⟩
        | some z => exact ⟨_, rfl, Or.inr rfl⟩
  obtain ⟨e, he, ho⟩ := this
  exact ⟨e, by unfold buildIndex; rw [he], ho⟩

/-! ### A concrete tree meeting the hypotheses of the tree theorems -/

/-- `a` with children `b` (which has a child `d`) and `c`; node 4 is a second, unrelated root. -/
def demoHeap : Heap :=
  [⟨u!"a", [(u!"b", 1), (u!"c", 2)], [], none⟩, ⟨u!"b", [(u!"d", 3)], [(.str u!"n", .num 2)], some 0⟩,
   ⟨u!"c", [], [], some 0⟩, ⟨u!"d", [], [], some 1⟩, ⟨u!"a", [], [], none⟩]

def demoTree : ATree :=
  .node 0 u!"a" [] (.cons u!"b" (.node 1 u!"b" [(.str u!"n", .num 2)] (.cons u!"d" (.node 3 u!"d" [] .nil) .nil))
    (.cons u!"c" (.node 2 u!"c" [] .nil) .nil))

theorem demo_isTree : IsTree demoHeap demoTree := by
  refine ⟨?_, by decide +kernel, ?_⟩
  · simp only [demoTree, Rep, RepF, and_true]
    exact ⟨⟨none, rfl⟩, ⟨⟨some 0, rfl⟩, ⟨some 1, rfl⟩⟩, ⟨some 0, rfl⟩⟩
  · simp only [demoTree, ATree.keysDistinct, AForest.keysDistinct, AForest.items]
    decide +kernel

theorem demo_par : Par demoHeap none demoTree := by
  simp only [demoTree, Par, ParF, and_true]
  decide +kernel

theorem demo_labels : demoTree.keysAreLabels := by
  simp only [demoTree, ATree.keysAreLabels, AForest.keysAreLabels, ATree.label]
  decide +kernel

example : parentTruthy demoHeap demoTree.ref = false := rfl
example : ∀ s ∈ demoTree.subs, Dict.WF s.attrib := by
  simp only [demoTree, ATree.subs, AForest.subs, Dict.WF]
  decide +kernel

example : walkPre demoHeap 5 0 = some [0, 2, 1, 3] := by decide +kernel
example : walkPost demoHeap 9 0 = some [2, 3, 1, 0] := by decide +kernel
example : walkBfs (fun _ l => l) demoHeap 9 0 = some [0, 2, 1, 3] := by decide +kernel
example : pathFromRoot demoHeap 5 3 = some [0, 1, 3] := by decide +kernel
example : ((treePrune (fun l _ => l == u!"d") demoHeap 9 0).map (fun r => r.map (fun x => (x.2, (x.1.drop 5).map TNode.label))))
    = some (.ok (some 5, [u!"a", u!"b", u!"c", u!"d"])) := by decide +kernel

end Cjk
