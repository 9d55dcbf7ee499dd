import Verif.Model.TreeLayout
import Verif.Spec.TreeLayout
import Verif.Lemmas.Tree
/-!
# C86: tree drawings
-/

namespace Cjk
open Py

/-! ### What is printed -/

/-- The lines for the nodes below, without prefix. -/
def AForest.draw (f : ATree → Str) (k : AForest) : List Str := k.marked.map (fun m => Spec.indent m.1 ++ f m.2)

theorem ATree.marked_ne (t : ATree) : ∃ m, t.marked = ([], t) :: m := by
  obtain ⟨r, l, a, k⟩ := t
  exact ⟨_, by rw [ATree.marked]⟩

mutual
theorem ATree.marked_subs : ∀ t : ATree, t.marked.map Prod.snd = t.subs
  | .node r l a k => by rw [ATree.marked, ATree.subs, List.map_cons, AForest.marked_subs k]
theorem AForest.marked_subs : ∀ k : AForest, k.marked.map Prod.snd = k.subs
  | .nil => rfl
  | .cons key t rest => by
    rw [AForest.marked, AForest.subs, List.map_append, AForest.marked_subs rest, List.map_map, ← ATree.marked_subs t]; rfl
end

/-- No marks below the root are empty. -/
theorem AForest.marked_nonempty : ∀ k : AForest, ∀ m ∈ k.marked, m.1 ≠ []
  | .nil, m, hm => by simp [AForest.marked] at hm
  | .cons key t rest, m, hm => by
    rw [AForest.marked, List.mem_append] at hm
    rcases hm with hm | hm
    · obtain ⟨m', _, rfl⟩ := List.mem_map.1 hm
      simp
    · exact AForest.marked_nonempty rest m hm

theorem indent_cons (b : Bool) (l : List Bool) (h : l ≠ []) :
    Spec.indent (b :: l) = (if b then u!"   " else u!"│  ") ++ Spec.indent l := by
  cases l with
  | nil => exact absurd rfl h
  | cons c l => rw [Spec.indent]; intro h; cases h

theorem draw_cons (f : ATree → Str) (key : Str) (t : ATree) (rest : AForest) : (AForest.cons key t rest).draw f =
    ((if rest.items.isEmpty then u!"└─ " else u!"├─ ") ++ f t) ::
      (t.kids.draw f).map ((if rest.items.isEmpty then u!"   " else u!"│  ") ++ ·) ++ rest.draw f := by
  obtain ⟨r, l, a, k⟩ := t
  unfold AForest.draw
  rw [AForest.marked, ATree.marked, List.map_cons, List.cons_append, List.map_cons, List.map_append, List.map_map, List.map_map]
  simp only [ATree.kids, List.cons_append, Spec.indent]
  congr 2
  refine List.map_congr_left ?_
  intro m hm
  simp only [Function.comp_apply, indent_cons _ _ (AForest.marked_nonempty k m hm), List.append_assoc]

/-- As `Spec.printed`, behind a prefix. -/
def printedAt (pre : Str) (f : ATree → Except PyErr Str) : List (List Bool × ATree) → Printed
  | [] => ([], none)
  | m :: ms => (printLine (pre ++ Spec.indent m.1) (f m.2)).andThen (printedAt pre f ms)

theorem andThen_assoc (a b c : Printed) : (a.andThen b).andThen c = a.andThen (b.andThen c) := by
  obtain ⟨a, x⟩ := a; obtain ⟨b, y⟩ := b; obtain ⟨c, z⟩ := c
  cases x <;> cases y <;> simp [Printed.andThen]

theorem andMaybe_some (a b : Printed) : a.andMaybe (some b) = some (a.andThen b) := by
  obtain ⟨a, x⟩ := a
  cases x <;> rfl

theorem andThen_nil (b : Printed) : Printed.andThen ([], none) b = b := by
  obtain ⟨b, y⟩ := b; simp [Printed.andThen]

theorem printedAt_append (pre : Str) (f : ATree → Except PyErr Str) (ms ms' : List (List Bool × ATree)) :
    printedAt pre f (ms ++ ms') = (printedAt pre f ms).andThen (printedAt pre f ms') := by
  induction ms with
  | nil => rw [List.nil_append, printedAt, andThen_nil]
  | cons m ms ih => rw [List.cons_append, printedAt, printedAt, ih, andThen_assoc]

theorem printedAt_deeper (pre : Str) (f : ATree → Except PyErr Str) (b : Bool) (ms : List (List Bool × ATree)) (h : ∀ m ∈ ms, m.1 ≠ []) :
    printedAt pre f (ms.map (fun m => (b :: m.1, m.2))) = printedAt (pre ++ if b then u!"   " else u!"│  ") f ms := by
  induction ms with
  | nil => rfl
  | cons m ms ih =>
    rw [List.map_cons, printedAt, printedAt, ih (fun m hm => h m (by simp [hm]))]
    simp only [indent_cons b m.1 (h m (by simp)), List.append_assoc]

theorem printedAt_cons (pre : Str) (f : ATree → Except PyErr Str) (key : Str) (t : ATree) (rest : AForest) :
    printedAt pre f (AForest.cons key t rest).marked =
      ((printLine (pre ++ if rest.items.isEmpty then u!"└─ " else u!"├─ ") (f t)).andThen
        (printedAt (pre ++ if rest.items.isEmpty then u!"   " else u!"│  ") f t.kids.marked)).andThen (printedAt pre f rest.marked) := by
  obtain ⟨r, l, a, k⟩ := t
  rw [AForest.marked, ATree.marked, List.map_cons, printedAt_append, printedAt,
    printedAt_deeper pre f _ k.marked (AForest.marked_nonempty k)]
  rfl

theorem layoutKids_eq (h : Heap) (method : TNode → Except PyErr Str) (fuel : Nat) :
    ∀ (k : AForest) (pre : Str), RepF h k → k.subs.length < fuel →
      layoutKids h method fuel pre (k.items.map (fun kt => kt.2.ref)) =
        some (printedAt pre (fun s => method (h.node s.ref)) k.marked) := by
  induction fuel with
  | zero => intro k pre _ hf; omega
  | succ fuel ih =>
    intro k pre hr hf
    cases k with
    | nil => rfl
    | cons key t rest =>
      have e1 := hr.1.lookup
      have hkids : RepF h t.kids := by obtain ⟨r, l, a, k⟩ := t; exact hr.1.2
      have hsub : (AForest.cons key t rest).subs = t :: (t.kids.subs ++ rest.subs) := by
        obtain ⟨r, l, a, k⟩ := t
        rw [AForest.subs, ATree.subs]; rfl
      rw [hsub] at hf
      simp only [List.length_cons, List.length_append] at hf
      have b1 := fun pre => ih t.kids pre hkids (by omega)
      have b2 := fun pre => ih rest pre hr.2 (by omega)
      rw [printedAt_cons]
      cases hrest : rest with
      | nil =>
        simp only [AForest.items, List.map_cons, List.map_nil, layoutKids, e1.2.1, AForest.values_dict, b1, andMaybe_some,
          List.isEmpty_nil, if_true, AForest.marked]
        congr 1
        generalize (printLine _ _ : Printed).andThen _ = x
        obtain ⟨a, b⟩ := x
        cases b <;> simp [Printed.andThen, printedAt]
      | cons key2 t2 rest2 =>
        rw [hrest] at b2
        simp only [AForest.items, List.map_cons] at b2
        simp only [AForest.items, List.map_cons, layoutKids, e1.2.1, AForest.values_dict, b1, b2, andMaybe_some, Option.bind_some,
          List.isEmpty_cons, Bool.false_eq_true, if_false]

theorem printedAt_nil (f : ATree → Except PyErr Str) (ms : List (List Bool × ATree)) : printedAt [] f ms = Spec.printed f ms := by
  induction ms with
  | nil => rfl
  | cons m ms ih =>
    rw [printedAt, Spec.printed, ih]
    cases f m.2 <;> simp [printLine, Printed.andThen]

/-- C86: `layout` prints one line for each node, in depth-first order with the children in order: the representation of the node, behind
three columns for each level below the root that show which of its ancestors are last children.  If the method raises, the lines of the
nodes before have been printed and the exception is passed on. -/
theorem C86_layout (h : Heap) (t : ATree) (hr : Rep h t) (method : TNode → Except PyErr Str) (fuel : Nat) (hf : t.size ≤ fuel) :
    treeLayout h fuel t.ref method = some (Spec.printed (fun s => method (h.node s.ref)) t.marked) ∧
      t.marked.map Prod.snd = t.subs := by
  refine ⟨?_, t.marked_subs⟩
  have e1 := hr.lookup
  obtain ⟨r, l, a, k⟩ := t
  have hk : k.subs.length < fuel := by
    have := hf; unfold ATree.size at this; rw [ATree.subs] at this
    simp only [List.length_cons] at this; omega
  unfold treeLayout
  rw [e1.2.1, AForest.values_dict]
  rw [show (ATree.node r l a k).kids = k from rfl, layoutKids_eq h method fuel k [] hr.2 hk, andMaybe_some, ← printedAt_nil, ATree.marked, printedAt]
  rfl

/-- C86: with the default method the lines are the labels. -/
theorem C86_default (h : Heap) (t : ATree) (hr : Rep h t) (fuel : Nat) (hf : t.size ≤ fuel) :
    treeLayout h fuel t.ref labelMethod = some (t.marked.map (fun m => Spec.indent m.1 ++ m.2.label), none) := by
  rw [(C86_layout h t hr labelMethod fuel hf).1]
  have key : ∀ ms : List (List Bool × ATree), (∀ m ∈ ms, m.2 ∈ t.subs) →
      Spec.printed (fun s => labelMethod (h.node s.ref)) ms = (ms.map (fun m => Spec.indent m.1 ++ m.2.label), none) := by
    intro ms
    induction ms with
    | nil => intro _; rfl
    | cons m ms ih =>
      intro hm
      rw [Spec.printed, ih (fun m' hm' => hm m' (by simp [hm']))]
      simp only [labelMethod, (hr.of_mem_subs t m.2 (hm m (by simp))).lookup.1, List.map_cons]
  rw [key t.marked]
  intro m hm
  rw [← t.marked_subs]; exact List.mem_map.2 ⟨m, hm, rfl⟩

/-! ### Reading a drawing -/

theorem draw_head (f : ATree → Str) (k : AForest) : k = .nil ∨ ∃ l ls, k.draw f = l :: ls ∧ l.head? ∈ [some c!"└", some c!"├"] := by
  cases k with
  | nil => exact Or.inl rfl
  | cons key t rest =>
    right
    rw [draw_cons]
    refine ⟨_, _, rfl, ?_⟩
    split <;> simp

theorem takeWhile_split {α : Type} (p : α → Bool) : ∀ (a a' b b' : List α), (∀ x ∈ a, p x = true) → (∀ x ∈ a', p x = true) →
    (∀ x, b.head? = some x → p x = false) → (∀ x, b'.head? = some x → p x = false) → a ++ b = a' ++ b' → a = a' ∧ b = b'
  | [], [], b, b', _, _, _, _, e => ⟨rfl, e⟩
  | [], y :: a', b, b', _, h2, h3, _, e => by
    simp only [List.nil_append] at e
    have := h3 y (by rw [e]; rfl)
    rw [h2 y (by simp)] at this; cases this
  | x :: a, [], b, b', h1, _, _, h4, e => by
    simp only [List.nil_append] at e
    have := h4 x (by rw [← e]; rfl)
    rw [h1 x (by simp)] at this; cases this
  | x :: a, y :: a', b, b', h1, h2, h3, h4, e => by
    simp only [List.cons_append, List.cons.injEq] at e
    obtain ⟨rfl, e⟩ := e
    obtain ⟨e1, e2⟩ := takeWhile_split p a a' b b' (fun z hz => h1 z (by simp [hz])) (fun z hz => h2 z (by simp [hz])) h3 h4 e
    exact ⟨by rw [e1], e2⟩

theorem map_append_inj (p : Str) {a b : List Str} (h : a.map (p ++ ·) = b.map (p ++ ·)) : a = b :=
  List.map_injective_iff.2 (fun _ _ e => List.append_cancel_left e) h

theorem draw_inj_aux (n : Nat) : ∀ (k k' : AForest), k.subs.length ≤ n → k.draw ATree.label = k'.draw ATree.label → k.labels = k'.labels := by
  induction n with
  | zero =>
    intro k k' hn e
    cases k with
    | nil =>
      rcases draw_head ATree.label k' with rfl | ⟨l, ls, h, _⟩
      · rfl
      · rw [h] at e; cases e
    | cons key t rest => obtain ⟨r, l, a, k⟩ := t; rw [AForest.subs, ATree.subs] at hn; simp at hn
  | succ n ih =>
    intro k k' hn e
    cases k with
    | nil =>
      rcases draw_head ATree.label k' with rfl | ⟨l, ls, h, _⟩
      · rfl
      · rw [h] at e; cases e
    | cons key t rest =>
      cases k' with
      | nil => rw [draw_cons] at e; cases e
      | cons key' t' rest' =>
        have hsub : (AForest.cons key t rest).subs = t :: (t.kids.subs ++ rest.subs) := by
          obtain ⟨r, l, a, k⟩ := t
          rw [AForest.subs, ATree.subs]; rfl
        rw [hsub] at hn
        simp only [List.length_cons, List.length_append] at hn
        rw [draw_cons, draw_cons] at e
        simp only [List.cons_append, List.cons.injEq] at e
        obtain ⟨e0, e⟩ := e
        have hb : rest.items.isEmpty = rest'.items.isEmpty := by
          cases h1 : rest.items.isEmpty <;> cases h2 : rest'.items.isEmpty <;> simp [h1, h2] at e0 ⊢
        rw [hb] at e e0
        have hlab := List.append_cancel_left e0
        have hstart : ∀ r : AForest, r.items.isEmpty = rest'.items.isEmpty → ∀ x, (r.draw ATree.label).head? = some x →
            (fun s : Str => decide (s.head? ∈ [some c!" ", some c!"│"])) x = false := by
          intro r hr x hx
          rcases draw_head ATree.label r with rfl | ⟨l, ls, h, hh⟩
          · simp [AForest.draw, AForest.marked] at hx
          · rw [h] at hx
            simp only [List.head?_cons, Option.some.injEq] at hx
            subst hx
            simp only [List.mem_cons, List.not_mem_nil, or_false] at hh
            rcases hh with hh | hh <;> simp [hh]
        have hsplit := takeWhile_split (fun s : Str => decide (s.head? ∈ [some c!" ", some c!"│"])) _ _ _ _ (by
            intro x hx
            obtain ⟨y, _, rfl⟩ := List.mem_map.1 hx
            split <;> simp) (by
            intro x hx
            obtain ⟨y, _, rfl⟩ := List.mem_map.1 hx
            split <;> simp) (hstart rest hb) (hstart rest' rfl) e
        have hkid := ih t.kids t'.kids (by omega) (map_append_inj _ hsplit.1)
        have hrest := ih rest rest' (by omega) hsplit.2
        obtain ⟨r, l, a, k⟩ := t
        obtain ⟨r', l', a', k'⟩ := t'
        simp only [ATree.label, ATree.kids] at hlab hkid
        rw [AForest.labels, AForest.labels, ATree.labels, ATree.labels, hlab, hkid, hrest]

theorem marked_lines (t : ATree) : t.marked.map (fun m => Spec.indent m.1 ++ m.2.label) = t.label :: t.kids.draw ATree.label := by
  obtain ⟨r, l, a, k⟩ := t
  rw [ATree.marked]; rfl

/-- C86: the lines printed determine the labels and the shape of the tree, whatever the labels are. -/
theorem C86_lines_determine (h h' : Heap) (t t' : ATree) (hr : Rep h t) (hr' : Rep h' t') (fuel : Nat) (hf : t.size ≤ fuel)
    (hf' : t'.size ≤ fuel) (e : treeLayout h fuel t.ref labelMethod = treeLayout h' fuel t'.ref labelMethod) :
    t.labels = t'.labels := by
  rw [C86_default h t hr fuel hf, C86_default h' t' hr' fuel hf', marked_lines, marked_lines] at e
  simp only [Option.some.injEq, Prod.mk.injEq, List.cons.injEq, and_true] at e
  have hk := draw_inj_aux _ t.kids t'.kids (Nat.le_refl _) e.2
  obtain ⟨r, l, a, k⟩ := t
  obtain ⟨r', l', a', k'⟩ := t'
  simp only [ATree.label, ATree.kids] at e hk
  rw [ATree.labels, ATree.labels, e.1, hk]

theorem lines_inj : ∀ a b : List Str, (∀ l ∈ a, (10 : Nat) ∉ l) → (∀ l ∈ b, (10 : Nat) ∉ l) →
    a.flatMap (· ++ [10]) = b.flatMap (· ++ [10]) → a = b
  | [], [], _, _, _ => rfl
  | [], y :: b, _, _, e => by simp at e
  | x :: a, [], _, _, e => by simp at e
  | x :: a, y :: b, ha, hb, e => by
    simp only [List.flatMap_cons, List.append_assoc] at e
    obtain ⟨e1, e2⟩ := takeWhile_split (fun c : Nat => decide (c ≠ 10)) x y _ _
      (by intro c hc; simp only [ne_eq, decide_eq_true_eq]; rintro rfl; exact ha x (by simp) hc)
      (by intro c hc; simp only [ne_eq, decide_eq_true_eq]; rintro rfl; exact hb y (by simp) hc)
      (by intro c hc; simp at hc; subst hc; rfl) (by intro c hc; simp at hc; subst hc; rfl) e
    simp only [List.singleton_append, List.cons.injEq, true_and] at e2
    rw [e1, lines_inj a b (fun l hl => ha l (by simp [hl])) (fun l hl => hb l (by simp [hl])) e2]

theorem indent_no_newline : ∀ l : List Bool, (10 : Nat) ∉ Spec.indent l
  | [] => by simp [Spec.indent]
  | [b] => by cases b <;> simp [Spec.indent]
  | b :: c :: l => by
    rw [indent_cons _ _ (by simp), List.mem_append]
    rintro (h | h)
    · cases b <;> simp at h
    · exact indent_no_newline (c :: l) h

/-- C86: if no label contains a newline, standard output determines the labels and the shape. -/
theorem C86_text_determines (h h' : Heap) (t t' : ATree) (hr : Rep h t) (hr' : Rep h' t') (fuel : Nat) (hf : t.size ≤ fuel)
    (hf' : t'.size ≤ fuel) (hn : ∀ s ∈ t.subs, (10 : Nat) ∉ s.label) (hn' : ∀ s ∈ t'.subs, (10 : Nat) ∉ s.label)
    (p p' : Printed) (e : treeLayout h fuel t.ref labelMethod = some p) (e' : treeLayout h' fuel t'.ref labelMethod = some p')
    (et : p.text = p'.text) : t.labels = t'.labels := by
  refine C86_lines_determine h h' t t' hr hr' fuel hf hf' ?_
  rw [C86_default h t hr fuel hf] at e ⊢
  rw [C86_default h' t' hr' fuel hf'] at e' ⊢
  cases e; cases e'
  have key : ∀ u : ATree, (∀ s ∈ u.subs, (10 : Nat) ∉ s.label) →
      ∀ l ∈ u.marked.map (fun m => Spec.indent m.1 ++ m.2.label), (10 : Nat) ∉ l := by
    intro u hu l hl
    obtain ⟨m, hm, rfl⟩ := List.mem_map.1 hl
    rw [List.mem_append]
    rintro (h | h)
    · exact indent_no_newline _ h
    · exact hu m.2 (by rw [← u.marked_subs]; exact List.mem_map.2 ⟨m, hm, rfl⟩) h
  rw [lines_inj _ _ (key t hn) (key t' hn') et]

/-- A tree with an inner node, a last child and a deeper level. -/
def layoutDemo : Heap :=
  [⟨u!"r", [(u!"a", 1), (u!"b", 2)], [], none⟩, ⟨u!"a", [(u!"x", 3)], [], some 0⟩, ⟨u!"b", [(u!"y", 4)], [], some 0⟩,
   ⟨u!"x", [], [], some 1⟩, ⟨u!"y", [], [], some 2⟩]

/-- Its tree. -/
def layoutDemoTree : ATree :=
  .node 0 u!"r" [] (.cons u!"a" (.node 1 u!"a" [] (.cons u!"x" (.node 3 u!"x" [] .nil) .nil))
    (.cons u!"b" (.node 2 u!"b" [] (.cons u!"y" (.node 4 u!"y" [] .nil) .nil)) .nil))

/-- The hypotheses can be met. -/
example : Rep layoutDemo layoutDemoTree ∧ layoutDemoTree.size = 5 ∧ (∀ s ∈ layoutDemoTree.subs, (10 : Nat) ∉ s.label) ∧
    treeLayout layoutDemo 5 0 labelMethod = some ([u!"r", u!"├─ a", u!"│  └─ x", u!"└─ b", u!"   └─ y"], none) := by
  refine ⟨?_, by decide, ?_, by decide⟩
  · simp [layoutDemo, layoutDemoTree, Rep, RepF, AForest.dict, AForest.items, ATree.ref]
  · simp [layoutDemoTree, ATree.subs, AForest.subs, ATree.label]

end Cjk
