import Verif.Props.TreeLayout
import Verif.Props.TreeDist
/-!
# C109: copying and drawing a distribution; C111: the attributes of nodes
-/

namespace Cjk
open Py

/-! #### What a drawing depends on -/

mutual
theorem ATree.marked_bare : ∀ t : ATree,
    t.bare.marked.map (fun m => (m.1, m.2.label, m.2.attrib)) = t.marked.map (fun m => (m.1, m.2.label, m.2.attrib))
  | .node r l a k => by
    rw [ATree.bare, ATree.marked, ATree.marked, List.map_cons, List.map_cons, AForest.marked_bare k]; rfl
theorem AForest.marked_bare : ∀ k : AForest,
    k.bare.marked.map (fun m => (m.1, m.2.label, m.2.attrib)) = k.marked.map (fun m => (m.1, m.2.label, m.2.attrib))
  | .nil => rfl
  | .cons key t rest => by
    rw [AForest.bare, AForest.marked, AForest.marked, List.map_append, List.map_append, AForest.marked_bare rest]
    have e : rest.bare.items.isEmpty = rest.items.isEmpty := by rw [AForest.bare_items]; cases rest.items <;> rfl
    congr 1
    have h := ATree.marked_bare t
    rw [e, List.map_map, List.map_map]
    have g := congrArg (List.map (fun x : List Bool × Str × Attrib => (rest.items.isEmpty :: x.1, x.2.1, x.2.2))) h
    rw [List.map_map, List.map_map] at g
    exact g
end

mutual
theorem ATree.marked_mapAttrib (f : ATree → Attrib) : ∀ t : ATree,
    (t.mapAttrib f).marked.map (fun m => (m.1, m.2.label, m.2.attrib)) = t.marked.map (fun m => (m.1, m.2.label, f m.2))
  | .node r l a k => by
    rw [ATree.mapAttrib, ATree.marked, ATree.marked, List.map_cons, List.map_cons, AForest.marked_mapAttrib f k]; rfl
theorem AForest.marked_mapAttrib (f : ATree → Attrib) : ∀ k : AForest,
    (k.mapAttrib f).marked.map (fun m => (m.1, m.2.label, m.2.attrib)) = k.marked.map (fun m => (m.1, m.2.label, f m.2))
  | .nil => rfl
  | .cons key t rest => by
    rw [AForest.mapAttrib, AForest.marked, AForest.marked, List.map_append, List.map_append, AForest.marked_mapAttrib f rest]
    have e : (rest.mapAttrib f).items.isEmpty = rest.items.isEmpty := by cases rest <;> simp [AForest.mapAttrib, AForest.items]
    congr 1
    have h := ATree.marked_mapAttrib f t
    rw [e, List.map_map, List.map_map]
    have g := congrArg (List.map (fun x : List Bool × Str × Attrib => (rest.items.isEmpty :: x.1, x.2.1, x.2.2))) h
    rw [List.map_map, List.map_map] at g
    exact g
end

mutual
theorem ATree.keysAreLabels_bare : ∀ t : ATree, t.bare.keysAreLabels ↔ t.keysAreLabels
  | .node r l a k => by rw [ATree.bare, ATree.keysAreLabels, ATree.keysAreLabels, AForest.keysAreLabels_bare k]
theorem AForest.keysAreLabels_bare : ∀ k : AForest, k.bare.keysAreLabels ↔ k.keysAreLabels
  | .nil => Iff.rfl
  | .cons key t rest => by
    rw [AForest.bare, AForest.keysAreLabels, AForest.keysAreLabels, AForest.keysAreLabels_bare rest, ATree.keysAreLabels_bare t]
    have : t.bare.label = t.label := by cases t; rfl
    rw [this]
end

theorem size_mapAttrib (f : ATree → Attrib) (t : ATree) : (t.mapAttrib f).size = t.size := by
  have := congrArg List.length (mapAttrib_refs f t)
  unfold ATree.refs at this
  unfold ATree.size
  simpa using this

/-- The lines as a function of labels and attributes. -/
theorem printed_congr (f : Str → Attrib → Except PyErr Str) (g g' : ATree → Except PyErr Str) :
    ∀ (ms ms' : List (List Bool × ATree)), (∀ m ∈ ms, g m.2 = f m.2.label m.2.attrib) →
      (∀ m ∈ ms', g' m.2 = f m.2.label m.2.attrib) →
      ms.map (fun m => (m.1, m.2.label, m.2.attrib)) = ms'.map (fun m => (m.1, m.2.label, m.2.attrib)) →
      Spec.printed g ms = Spec.printed g' ms'
  | [], [], _, _, _ => rfl
  | [], _ :: _, _, _, e => by cases e
  | _ :: _, [], _, _, e => by cases e
  | m :: ms, m' :: ms', h, h', e => by
    simp only [List.map_cons, List.cons.injEq, Prod.mk.injEq] at e
    obtain ⟨⟨e1, e2, e3⟩, e4⟩ := e
    rw [Spec.printed, Spec.printed, h m (by simp), h' m' (by simp), e1, e2, e3,
      printed_congr f g g' ms ms' (fun x hx => h x (by simp [hx])) (fun x hx => h' x (by simp [hx])) e4]

theorem mem_marked {t : ATree} {m : List Bool × ATree} (hm : m ∈ t.marked) : m.2 ∈ t.subs := by
  rw [← t.marked_subs]; exact List.mem_map.2 ⟨m, hm, rfl⟩

/-- The representation of a node of a distribution depends on label and attributes. -/
def freqLine (fmt : ℚ → Str) (l : Str) (a : Attrib) : Except PyErr Str := freqMethod fmt ⟨l, [], a, none⟩

theorem freqMethod_node (fmt : ℚ → Str) {h : Heap} {t s : ATree} (hr : Rep h t) (hs : s ∈ t.subs) :
    freqMethod fmt (h.node s.ref) = freqLine fmt s.label s.attrib := by
  have := (Rep.of_mem_subs t hr s hs).lookup
  unfold freqLine freqMethod
  rw [this.1, this.2.2]

/-! #### C109 -/

/-- C109: the copy of a distribution is a tree of new nodes with the same labels, attributes (so the same counts and
frequencies) and shape; nothing that existed is changed. -/
theorem C109_copy (ar : Arith) (h : Heap) (t : ATree) (hr : Rep h t) (hk : t.keysDistinct) (hl : t.keysAreLabels)
    (hroot : parentTruthy h t.ref = false) (fuel : Nat) (hf : t.size < fuel) :
    ∃ h' t', treeDistCopy ar h fuel t.ref = some (.ok (h', t'.ref)) ∧ IsTree h' t' ∧ t'.bare = t.bare ∧ Par h' none t' ∧
      (∀ x ∈ t'.refs, h.length ≤ x) ∧ (∀ x < h.length, h'[x]? = h[x]?) := by
  obtain ⟨h1, t1, a1, a2, a3, a4, a5, a6⟩ := C49_copy h t hr hk hl hroot fuel hf
  have hroot1 : parentTruthy h1 t1.ref = false := by unfold parentTruthy; rw [a4.parent]
  have hle : h.length ≤ h1.length := by
    have := a5 t1.ref t1.ref_mem_refs
    have := a2.rep.lt
    omega
  obtain ⟨h2, t2, b1, b2, b3, b4, b5, b6⟩ := C49_copy h1 t1 a2.rep a2.keys (by
      have : t1.bare.keysAreLabels := by rw [a3]; exact (ATree.keysAreLabels_bare t).2 hl
      exact (ATree.keysAreLabels_bare t1).1 this) hroot1 fuel (by rw [size_bare t t1 a3]; exact hf)
  refine ⟨h2, t2, ?_, b2, b3.trans a3, b4, fun x hx => by have := b5 x hx; omega, ?_⟩
  · unfold treeDistCopy treeDist
    rw [a1]; simp only
    rw [b1]
  · intro x hx
    rw [b6 x (by omega), a6 x hx]

/-- C109: drawing a distribution made with a count method prints one line for each node, in depth-first order: label and
frequency, behind the columns of C86; nothing raises. -/
theorem C109_layout (fmt : ℚ → Str) (m : Str → Attrib → Nat → ℚ) (h : Heap) (t : ATree) (hr : Rep h t) (hk : t.keysDistinct)
    (hl : t.keysAreLabels) (hroot : parentTruthy h t.ref = false) (fuel : Nat) (hf : 2 * t.size < fuel)
    (ht : t.count1 m ≠ 0) :
    ∃ h' r', treeDist .exact (some (countBy m)) h fuel t.ref = some (.ok (h', r')) ∧
      distLayout fmt h' fuel r' =
        some (t.marked.map (fun s => Spec.indent s.1 ++ (s.2.label ++ u!" " ++ fmt (s.2.count1 m / t.count1 m))), none) := by
  obtain ⟨h', t', e1, e2, e3, e4, e5, e6⟩ := C75_dist_partial m h t hr hk hl hroot fuel hf ht
  refine ⟨h', t'.ref, e1, ?_⟩
  have hsz : t'.size ≤ fuel := by
    have e7 : t'.size = t.size := by
      rw [size_bare _ _ e4]
      exact size_mapAttrib _ t
    omega
  unfold distLayout
  rw [(C86_layout h' t' e2.rep _ fuel hsz).1]
  have key : ∀ (ms ms' : List (List Bool × ATree)), (∀ s ∈ ms', s.2 ∈ t'.subs) →
      ms'.map (fun s => (s.1, s.2.label, s.2.attrib)) =
        ms.map (fun s => (s.1, s.2.label, distAttrib m (ATree.count1 m) (t.count1 m) s.2)) →
      Spec.printed (fun s => freqMethod fmt (h'.node s.ref)) ms' =
        (ms.map (fun s => Spec.indent s.1 ++ (s.2.label ++ u!" " ++ fmt (s.2.count1 m / t.count1 m))), none) := by
    intro ms
    induction ms with
    | nil => intro ms' _ e; cases ms' with
      | nil => rfl
      | cons _ _ => cases e
    | cons s ms ih =>
      intro ms' hm e
      cases ms' with
      | nil => cases e
      | cons s' ms' =>
        simp only [List.map_cons, List.cons.injEq, Prod.mk.injEq] at e
        obtain ⟨⟨g1, g2, g3⟩, g4⟩ := e
        rw [Spec.printed, freqMethod_node fmt e2.rep (hm s' (by simp)), g1, g2, g3,
          ih ms' (fun x hx => hm x (by simp [hx])) g4]
        have : freqLine fmt s.2.label (distAttrib m (ATree.count1 m) (t.count1 m) s.2) =
            .ok (s.2.label ++ u!" " ++ fmt (s.2.count1 m / t.count1 m)) := by
          unfold freqLine freqMethod distAttrib
          simp only [Dict.get?_set_self]
        rw [this]; rfl
  rw [key t.marked t'.marked (fun s hs => mem_marked hs) ?_]
  rw [← ATree.marked_bare t', e4, ATree.marked_bare, ATree.marked_mapAttrib]

/-- C109: the copy of a distribution is drawn like the distribution. -/
theorem C109_copy_layout (ar : Arith) (fmt : ℚ → Str) (h : Heap) (t : ATree) (hr : Rep h t) (hk : t.keysDistinct) (hl : t.keysAreLabels)
    (hroot : parentTruthy h t.ref = false) (fuel : Nat) (hf : t.size < fuel) :
    ∃ h' r', treeDistCopy ar h fuel t.ref = some (.ok (h', r')) ∧ distLayout fmt h' fuel r' = distLayout fmt h fuel t.ref := by
  obtain ⟨h', t', e1, e2, e3, e4, e5, e6⟩ := C109_copy ar h t hr hk hl hroot fuel hf
  refine ⟨h', t'.ref, e1, ?_⟩
  unfold distLayout
  rw [(C86_layout h' t' e2.rep _ fuel (by rw [size_bare t t' e3]; omega)).1, (C86_layout h t hr _ fuel (by omega)).1]
  congr 1
  refine printed_congr (freqLine fmt) _ _ _ _ (fun m hm => freqMethod_node fmt e2.rep (mem_marked hm))
    (fun m hm => freqMethod_node fmt hr (mem_marked hm)) ?_
  rw [← ATree.marked_bare t', e3, ATree.marked_bare]

/-- C109: a distribution made without a count method, from a root without frequency, cannot be drawn: `KeyError`, and
nothing is printed. -/
theorem C109_no_counts (ar : Arith) (fmt : ℚ → Str) (h : Heap) (t : ATree) (hr : Rep h t) (hk : t.keysDistinct) (hl : t.keysAreLabels)
    (hroot : parentTruthy h t.ref = false) (fuel : Nat) (hf : t.size < fuel)
    (hno : Dict.get? t.attrib (.str u!"freq") = none) :
    ∃ h' r', treeDist ar none h fuel t.ref = some (.ok (h', r')) ∧ distLayout fmt h' fuel r' = some ([], some .keyError) := by
  obtain ⟨h', t', e1, e2, e3, e4, e5, e6⟩ := C49_copy h t hr hk hl hroot fuel hf
  refine ⟨h', t'.ref, ?_, ?_⟩
  · unfold treeDist; rw [e1]
  · unfold distLayout
    rw [(C86_layout h' t' e2.rep _ fuel (by rw [size_bare t t' e3]; omega)).1]
    have ha : t'.attrib = t.attrib := by
      obtain ⟨r, l, a, k⟩ := t; obtain ⟨r', l', a', k'⟩ := t'
      simp only [ATree.bare, ATree.node.injEq] at e3
      exact e3.2.2.1
    have hm : freqMethod fmt (h'.node t'.ref) = .error .keyError := by
      rw [freqMethod_node fmt e2.rep t'.mem_subs_self, freqLine, freqMethod]
      simp only [ha, hno]
    obtain ⟨r', l', a', k'⟩ := t'
    rw [ATree.marked, Spec.printed]
    rw [show freqMethod fmt (h'.node (([] : List Bool), ATree.node r' l' a' k').2.ref) = .error .keyError from hm]

/-! #### C111 -/

/-- The attribute dictionaries of the heap have distinct keys, as Python dictionaries do. -/
def AttribsOk (h : Heap) : Prop := ∀ n ∈ h, Dict.WF n.attrib

/-- C111: after `node[key] = value`, reading that key of that node gives the value and the key is in the node; all other
keys of the node and all other nodes read as before. -/
theorem C111_set (h : Heap) (r : Nat) (hr : r < h.length) (key : AKey) (v : AVal) :
    getAttr (setAttr h r key v) r key = .ok v ∧ hasAttr (setAttr h r key v) r key = true ∧
    (∀ x k, x ≠ r ∨ k ≠ key →
      getAttr (setAttr h r key v) x k = getAttr h x k ∧ hasAttr (setAttr h r key v) x k = hasAttr h x k) ∧
    ∀ x, ((setAttr h r key v).node x).label = (h.node x).label ∧ ((setAttr h r key v).node x).children = (h.node x).children ∧
      ((setAttr h r key v).node x).parent = (h.node x).parent := by
  have hself : ((setAttr h r key v).node r).attrib = Dict.set (h.node r).attrib key v := by
    unfold setAttr; rw [upd_node_eq _ _ hr]
  refine ⟨?_, ?_, ?_, ?_⟩
  · unfold getAttr Dict.getItem; rw [hself, Dict.get?_set_self]
  · unfold hasAttr; rw [hself, Dict.get?_set_self]; rfl
  · intro x k hx
    by_cases e : x = r
    · subst e
      have hk : k ≠ key := by rcases hx with hx | hx; exact absurd rfl hx; exact hx
      unfold getAttr hasAttr Dict.getItem
      rw [hself, Dict.get?_set_ne _ _ (Ne.symm hk)]
      exact ⟨rfl, rfl⟩
    · unfold getAttr hasAttr setAttr
      rw [upd_node_ne _ _ (Ne.symm e)]
      exact ⟨rfl, rfl⟩
  · intro x
    unfold setAttr
    by_cases e : x = r
    · subst e
      rw [upd_node_eq _ _ hr]; exact ⟨rfl, rfl, rfl⟩
    · rw [upd_node_ne _ _ (Ne.symm e)]; exact ⟨rfl, rfl, rfl⟩

/-- C111: `key in node` says whether `node[key]` gives a value; otherwise it raises `KeyError`. -/
theorem C111_in (h : Heap) (r : Nat) (key : AKey) :
    (hasAttr h r key = true ↔ ∃ v, getAttr h r key = .ok v) ∧ (hasAttr h r key = false ↔ getAttr h r key = .error .keyError) := by
  unfold hasAttr getAttr Dict.getItem
  cases Dict.get? (h.node r).attrib key <;> simp

/-- C111: `del node[key]` raises `KeyError` exactly if the key is not in the node; otherwise the key is gone, all other keys
of the node and all other nodes read as before, and labels, children and parents are as before. -/
theorem C111_del (h : Heap) (hw : AttribsOk h) (r : Nat) (hr : r < h.length) (key : AKey) :
    (hasAttr h r key = false → delAttr h r key = .error .keyError) ∧
    (hasAttr h r key = true → ∃ h', delAttr h r key = .ok h' ∧ h'.length = h.length ∧ AttribsOk h' ∧
      getAttr h' r key = .error .keyError ∧
      (∀ x k, x ≠ r ∨ k ≠ key → getAttr h' x k = getAttr h x k) ∧
      ∀ x, (h'.node x).label = (h.node x).label ∧ (h'.node x).children = (h.node x).children ∧
        (h'.node x).parent = (h.node x).parent) := by
  have hwr : Dict.WF (h.node r).attrib := by
    apply hw; unfold Heap.node; rw [List.getElem?_eq_getElem hr]; exact List.getElem_mem hr
  unfold hasAttr delAttr
  cases e : Dict.get? (h.node r).attrib key with
  | none => exact ⟨fun _ => rfl, fun hc => (by cases hc)⟩
  | some v =>
    refine ⟨fun hc => (by cases hc), fun _ => ⟨_, rfl, (by simp), ?_, ?_, ?_, ?_⟩⟩
    · intro n hn
      rcases mem_upd hn with hn | ⟨n0, hm, _, rfl⟩
      · exact hw n hn
      · exact Dict.WF_del (hw n0 hm) key
    · unfold getAttr Dict.getItem
      rw [upd_node_eq _ _ hr]
      simp only [Dict.get?_del hwr]
      simp
    · intro x k hx
      by_cases ex : x = r
      · subst ex
        have hk : k ≠ key := by rcases hx with hx | hx; exact absurd rfl hx; exact hx
        unfold getAttr Dict.getItem
        rw [upd_node_eq _ _ hr]
        simp only [Dict.get?_del hwr]
        rw [if_neg (Ne.symm hk)]
      · unfold getAttr
        rw [upd_node_ne _ _ (Ne.symm ex)]
    · intro x
      by_cases ex : r = x
      · subst ex; rw [upd_node_eq _ _ hr]; exact ⟨rfl, rfl, rfl⟩
      · rw [upd_node_ne _ _ ex]; exact ⟨rfl, rfl, rfl⟩

/-- C111: `AttribsOk` holds after every history in which the attributes given to new nodes are dictionaries. -/
theorem C111_histories (ops : List TreeOp) (hn : ∀ l a, TreeOp.new l a ∈ ops → Dict.WF a) : AttribsOk (TreeOp.run [] ops) := by
  have upd : ∀ (h : Heap) (r : Nat) (f : TNode → TNode), AttribsOk h → (∀ n, Dict.WF n.attrib → Dict.WF (f n).attrib) →
      AttribsOk (h.upd r f) := by
    intro h r f ho hf n hn
    rcases mem_upd hn with hn | ⟨n0, hm, _, rfl⟩
    · exact ho n hn
    · exact hf n0 (ho n0 hm)
  have key : ∀ (ops : List TreeOp) (h : Heap), AttribsOk h → (∀ l a, TreeOp.new l a ∈ ops → Dict.WF a) →
      AttribsOk (TreeOp.run h ops) := by
    intro ops
    induction ops with
    | nil => intro h ho _; exact ho
    | cons op ops ih =>
      intro h ho hn
      refine ih _ ?_ (fun l a hm => hn l a (by simp [hm]))
      cases op with
      | new l a =>
        intro n hm
        rcases List.mem_append.1 hm with hm | hm
        · exact ho n hm
        · rw [List.mem_singleton.1 hm]; exact hn l a (by simp)
      | add p c => exact upd _ _ _ (upd _ _ _ ho (fun _ h => h)) (fun _ h => h)
      | unlink c =>
        simp only [TreeOp.step, Cjk.unlink]
        cases hp : (h.node c).parent with
        | none => exact upd _ _ _ ho (fun _ h => h)
        | some p =>
          simp only
          split
          · rename_i h' e1
            split at e1
            · cases e1; exact upd _ _ _ ho (fun _ h => h)
            · split at e1
              · cases e1
              · cases e1; exact upd _ _ _ (upd _ _ _ ho (fun _ h => h)) (fun _ h => h)
          · exact ho
      | del p c =>
        simp only [TreeOp.step, delChild]
        cases delItem (h.node p).children (h.node c).label with
        | error e => exact ho
        | ok d => exact upd _ _ _ (upd _ _ _ ho (fun _ h => h)) (fun _ h => Dict.WF_set h _ _)
      | set r k v => exact upd _ _ _ ho (fun _ h => Dict.WF_set h _ _)
      | unset r k =>
        simp only [TreeOp.step, delAttr]
        cases Dict.get? (h.node r).attrib k with
        | none => exact ho
        | some _ => exact upd _ _ _ ho (fun _ h => Dict.WF_del h _)
  exact key ops [] (by intro n hn; cases hn) hn

/-- A tree for the examples. -/
def drawDemo : Heap :=
  [⟨u!"r", [(u!"a", 1), (u!"b", 2)], [], none⟩, ⟨u!"a", [], [(.str u!"k", .num 1)], some 0⟩, ⟨u!"b", [], [], some 0⟩]

/-- The hypotheses can be met: every node counts 1, so the root has frequency 1 and the others 1/3. -/
example : ∃ t : ATree, Rep drawDemo t ∧ t.keysDistinct ∧ t.keysAreLabels ∧ parentTruthy drawDemo t.ref = false ∧
    t.count1 (fun _ _ _ => 1) = 3 ∧ Dict.get? t.attrib (.str u!"freq") = none ∧
    (t.marked.map (fun s => s.2.count1 (fun _ _ _ => 1) / 3)) = [1, 1 / 3, 1 / 3] := by
  refine ⟨.node 0 u!"r" [] (.cons u!"a" (.node 1 u!"a" [(.str u!"k", .num 1)] .nil) (.cons u!"b" (.node 2 u!"b" [] .nil) .nil)),
    ?_, ?_, ?_, rfl, by decide +kernel, rfl, by decide +kernel⟩
  · simp only [Rep, RepF, and_true]; exact ⟨⟨none, rfl⟩, ⟨some 0, rfl⟩, ⟨some 0, rfl⟩⟩
  · simp only [ATree.keysDistinct, AForest.keysDistinct, AForest.items]; decide +kernel
  · simp only [ATree.keysAreLabels, AForest.keysAreLabels, ATree.label]; decide +kernel

/-- Attributes: a key that is there and one that is not. -/
example : AttribsOk drawDemo ∧ hasAttr drawDemo 1 (.str u!"k") = true ∧ hasAttr drawDemo 1 (.str u!"z") = false := by
  refine ⟨?_, rfl, rfl⟩
  intro n hn
  simp only [drawDemo, List.mem_cons, List.not_mem_nil, or_false] at hn
  rcases hn with rfl | rfl | rfl <;> simp [Dict.WF, Dict.keys]

end Cjk
