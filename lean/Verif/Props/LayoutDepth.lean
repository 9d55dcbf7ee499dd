import Verif.Model.LayoutDepth
import Verif.Spec.LayoutDepth
import Verif.Props.TreeLayout
import Verif.Lemmas.Graph
/-!
# C159: drawings and the limit on nested calls
-/

namespace Cjk
open Py
open Spec (Leads Circular nodeKids)

/-- As `Spec.drawn`, behind a prefix. -/
def drawnAt (pre : Str) (n : Nat) (text : Nat → Nat → Except PyErr Str) : List (List Bool × Nat) → Printed
  | [] => ([], none)
  | m :: ms =>
    match text (n - m.1.length) m.2 with
    | .error e => ([], some e)
    | .ok s => if m.1.length = n then ([pre ++ Spec.indent m.1 ++ s], some .recursionError) else ((pre ++ Spec.indent m.1 ++ s) :: (drawnAt pre n text ms).1, (drawnAt pre n text ms).2)

theorem drawnAt_append (pre : Str) (n : Nat) (text : Nat → Nat → Except PyErr Str) (a b : List (List Bool × Nat)) :
    drawnAt pre n text (a ++ b) = (drawnAt pre n text a).andThen (drawnAt pre n text b) := by
  induction a with
  | nil => rw [List.nil_append, drawnAt, andThen_nil]
  | cons m a ih =>
    rw [List.cons_append, drawnAt, drawnAt]
    cases text (n - m.1.length) m.2 with
    | error e => rfl
    | ok s =>
      simp only
      split
      · rfl
      · rw [ih]
        generalize drawnAt pre n text a = x
        obtain ⟨x, e⟩ := x
        cases e <;> rfl

theorem drawnAt_deeper (pre : Str) (n : Nat) (text : Nat → Nat → Except PyErr Str) (b : Bool) (ms : List (List Bool × Nat)) (h : ∀ m ∈ ms, m.1 ≠ []) :
    drawnAt pre (n + 1) text (ms.map (fun m => (b :: m.1, m.2))) = drawnAt (pre ++ if b then u!"   " else u!"│  ") n text ms := by
  induction ms with
  | nil => rfl
  | cons m ms ih =>
    rw [List.map_cons, drawnAt, drawnAt, ih (fun m hm => h m (by simp [hm]))]
    simp only [List.length_cons, Nat.add_sub_add_right, Nat.add_right_cancel_iff, indent_cons b m.1 (h m (by simp)), List.append_assoc]

theorem rowWays_nonempty (ways : Nat → List (List Bool × Nat)) (l : List Nat) : ∀ m ∈ Spec.rowWays ways l, m.1 ≠ [] := by
  induction l with
  | nil => intro m hm; cases hm
  | cons c l ih =>
    intro m hm
    rw [Spec.rowWays, List.mem_append] at hm
    rcases hm with hm | hm
    · obtain ⟨m', _, rfl⟩ := List.mem_map.1 hm
      simp
    · exact ih m hm

section
variable (h : Heap) (method : Nat → TNode → Except PyErr Str)

/-- A child and what is below it. -/
theorem layoutCall_child (n : Nat) (pre : Str) (b : Bool) (c : Nat)
    (ih : ∀ m, n = m + 1 → ∀ pre r, layoutCall h method n pre r = drawnAt pre n (fun k x => method k (h.node x)) (Spec.rowWays (Spec.waysDown (nodeKids h) m) ((nodeKids h r).map Prod.snd))) :
    (printLine (pre ++ if b then u!"└─ " else u!"├─ ") (method n (h.node c))).andThen (layoutCall h method n (pre ++ if b then u!"   " else u!"│  ") c) =
      drawnAt pre (n + 1) (fun k x => method k (h.node x)) ((Spec.waysDown (nodeKids h) n c).map (fun m => (b :: m.1, m.2))) := by
  cases n with
  | zero =>
    simp only [Spec.waysDown, List.map_cons, List.map_nil, drawnAt, List.length_cons, List.length_nil, Nat.zero_add, Nat.sub_self, layoutCall]
    cases method 0 (h.node c) with
    | error e => rfl
    | ok s => cases b <;> rfl
  | succ m =>
    rw [Spec.waysDown, List.map_cons, drawnAt, ih m rfl, drawnAt_deeper _ _ _ _ _ (rowWays_nonempty _ _)]
    simp only [List.length_cons, List.length_nil, Nat.zero_add, Nat.add_sub_cancel]
    cases method (m + 1) (h.node c) with
    | error e => rfl
    | ok s =>
      simp only
      rw [if_neg (show ¬ 1 = m + 1 + 1 by omega)]
      cases b <;> rfl

theorem layoutRow_ways (n : Nat) (pre : Str) (l : List Nat)
    (ih : ∀ m, n = m + 1 → ∀ pre r, layoutCall h method n pre r = drawnAt pre n (fun k x => method k (h.node x)) (Spec.rowWays (Spec.waysDown (nodeKids h) m) ((nodeKids h r).map Prod.snd))) :
    layoutRow (fun front c => printLine front (method n (h.node c))) (fun pre c => layoutCall h method n pre c) pre l =
      drawnAt pre (n + 1) (fun k x => method k (h.node x)) (Spec.rowWays (Spec.waysDown (nodeKids h) n) l) := by
  induction l with
  | nil => rfl
  | cons c l ihl =>
    cases l with
    | nil =>
      rw [layoutRow, Spec.rowWays, Spec.rowWays, List.append_nil]
      exact layoutCall_child h method n pre true c ih
    | cons d l =>
      rw [layoutRow, Spec.rowWays, drawnAt_append, ihl]
      congr 1
      exact layoutCall_child h method n pre false c ih

theorem layoutCall_ways (n : Nat) (pre : Str) (r : Nat) :
    layoutCall h method (n + 1) pre r = drawnAt pre (n + 1) (fun k x => method k (h.node x)) (Spec.rowWays (Spec.waysDown (nodeKids h) n) ((nodeKids h r).map Prod.snd)) := by
  induction n generalizing pre r with
  | zero =>
    rw [layoutCall]
    exact layoutRow_ways h method 0 pre _ (fun m hm => by omega)
  | succ n ih =>
    rw [layoutCall]
    exact layoutRow_ways h method (n + 1) pre _ (fun m hm => by
      have : n = m := by omega
      subst this
      exact ih)

theorem drawnAt_nil (n : Nat) (text : Nat → Nat → Except PyErr Str) (ms : List (List Bool × Nat)) : drawnAt [] n text ms = Spec.drawn n text ms := by
  induction ms with
  | nil => rfl
  | cons m ms ih => rw [drawnAt, Spec.drawn, ih]; rfl

/-- C159: what `layout` prints and raises when `n` nested calls are left: the lines of the ways down, depth first, up to the first one that is too long or whose node the method cannot represent. -/
theorem C159_drawn (n r : Nat) : treeLayoutIn h n r method = Spec.drawn n (fun k x => method k (h.node x)) (Spec.waysDown (nodeKids h) n r) := by
  rw [← drawnAt_nil, treeLayoutIn]
  cases n with
  | zero =>
    simp only [Spec.waysDown, drawnAt, List.length_nil, Nat.sub_self, layoutCall]
    cases method 0 (h.node r) <;> rfl
  | succ n =>
    rw [layoutCall_ways, Spec.waysDown, drawnAt]
    simp only [List.length_nil, Nat.sub_zero]
    cases method (n + 1) (h.node r) with
    | error e => rfl
    | ok s =>
      simp only
      rw [if_neg (by omega)]
      rfl

end

/-! ### Ways -/

theorem mem_rowWays {ways : Nat → List (List Bool × Nat)} {l : List Nat} {m : List Bool × Nat} (hm : m ∈ Spec.rowWays ways l) :
    ∃ c ∈ l, ∃ m' ∈ ways c, m.1.length = m'.1.length + 1 ∧ m.2 = m'.2 := by
  induction l with
  | nil => cases hm
  | cons c l ih =>
    rw [Spec.rowWays, List.mem_append] at hm
    rcases hm with hm | hm
    · obtain ⟨m', h1, rfl⟩ := List.mem_map.1 hm
      exact ⟨c, by simp, m', h1, rfl, rfl⟩
    · obtain ⟨d, hd, h1⟩ := ih hm
      exact ⟨d, by simp [hd], h1⟩

theorem rowWays_mem {ways : Nat → List (List Bool × Nat)} {l : List Nat} {c : Nat} (hc : c ∈ l) {m : List Bool × Nat} (hm : m ∈ ways c) :
    ∃ b, (b :: m.1, m.2) ∈ Spec.rowWays ways l := by
  induction l with
  | nil => cases hc
  | cons d l ih =>
    rw [Spec.rowWays]
    rcases List.mem_cons.1 hc with rfl | hc
    · exact ⟨l.isEmpty, List.mem_append.2 (Or.inl (List.mem_map.2 ⟨m, hm, rfl⟩))⟩
    · obtain ⟨b, hb⟩ := ih hc
      exact ⟨b, List.mem_append.2 (Or.inr hb)⟩

theorem waysDown_leads (kids : Nat → List (Str × Nat)) (n r : Nat) (m : List Bool × Nat) (hm : m ∈ Spec.waysDown kids n r) :
    ∃ ks, Leads kids r ks m.2 ∧ ks.length = m.1.length ∧ m.1.length ≤ n := by
  induction n generalizing r m with
  | zero =>
    simp only [Spec.waysDown, List.mem_singleton] at hm
    subst hm
    exact ⟨[], .here r, rfl, Nat.le_refl _⟩
  | succ n ih =>
    rw [Spec.waysDown, List.mem_cons] at hm
    rcases hm with rfl | hm
    · exact ⟨[], .here r, rfl, Nat.zero_le _⟩
    · obtain ⟨c, hc, m', h1, h2, h3⟩ := mem_rowWays hm
      obtain ⟨⟨k, c'⟩, hk, rfl⟩ := List.mem_map.1 hc
      obtain ⟨ks, h4, h5, h6⟩ := ih _ _ h1
      exact ⟨k :: ks, .step hk (by rw [h3]; exact h4), by rw [List.length_cons, h5, h2], by omega⟩

theorem leads_waysDown (kids : Nat → List (Str × Nat)) (n r : Nat) (ks : List Str) (x : Nat) (hl : Leads kids r ks x) (hn : ks.length ≤ n) :
    ∃ m ∈ Spec.waysDown kids n r, m.1.length = ks.length ∧ m.2 = x := by
  induction hl generalizing n with
  | here r => cases n <;> exact ⟨([], r), by simp [Spec.waysDown], rfl, rfl⟩
  | @step r c x k ks hk _ ih =>
    cases n with
    | zero => simp at hn
    | succ n =>
      obtain ⟨m, h1, h2, h3⟩ := ih n (by simpa using hn)
      obtain ⟨b, hb⟩ := rowWays_mem (List.mem_map.2 ⟨(k, c), hk, rfl⟩ : c ∈ (kids r).map Prod.snd) h1
      exact ⟨(b :: m.1, m.2), by rw [Spec.waysDown]; exact List.mem_cons_of_mem _ hb, by simp [h2], h3⟩

/-- If there is a way with many steps, there is one with fewer. -/
theorem leads_shorter {kids : Nat → List (Str × Nat)} {r x : Nat} {ks : List Str} (hl : Leads kids r ks x) (d : Nat) (hd : d ≤ ks.length) :
    ∃ ks' x', Leads kids r ks' x' ∧ ks'.length = d := by
  induction hl generalizing d with
  | here r => exact ⟨[], r, .here r, by simp at hd; simp [hd]⟩
  | @step r c x k ks hk _ ih =>
    cases d with
    | zero => exact ⟨[], r, .here r, rfl⟩
    | succ d =>
      obtain ⟨ks', x', h1, h2⟩ := ih d (by simpa using hd)
      exact ⟨k :: ks', x', .step hk h1, by simp [h2]⟩

/-! ### When the limit is met -/

theorem drawn_nested (n k : Nat) (hk : 1 ≤ k) (text : Nat → Str) (ms : List (List Bool × Nat)) :
    Spec.drawn n (fun j x => if j < k then .error .recursionError else .ok (text x)) ms =
      ((ms.takeWhile (fun m => decide (m.1.length + k ≤ n))).map (fun m => Spec.indent m.1 ++ text m.2),
        if ∀ m ∈ ms, m.1.length + k ≤ n then none else some .recursionError) := by
  induction ms with
  | nil => simp [Spec.drawn]
  | cons m ms ih =>
    rw [Spec.drawn, List.takeWhile_cons]
    by_cases hm : m.1.length + k ≤ n
    · simp only [hm, decide_true, if_true, List.mem_cons, forall_eq_or_imp, true_and]
      rw [if_neg (by omega)]
      simp only
      rw [if_neg (by omega), ih]
      rfl
    · simp only [hm, decide_false, List.mem_cons, forall_eq_or_imp, false_and, if_false]
      rw [if_pos (by omega)]
      rfl

/-- C159: with a method that makes calls `k` deep and does not raise, `layout` draws the node exactly if with `n` nested calls left every way down has at most `n - k` steps; otherwise it raises
`RecursionError`.  In both cases it has printed the lines of the ways, depth first, before the first one that is longer. -/
theorem C159_limit (h : Heap) (n k : Nat) (hk : 1 ≤ k) (method : TNode → Except PyErr Str) (text : TNode → Str) (hm : ∀ x, method x = .ok (text x)) (r : Nat) :
    (treeLayoutIn h n r (nestedMethod k method)).1 =
      ((Spec.waysDown (nodeKids h) n r).takeWhile (fun m => decide (m.1.length + k ≤ n))).map (fun m => Spec.indent m.1 ++ text (h.node m.2)) ∧
    ((treeLayoutIn h n r (nestedMethod k method)).2 = none ↔ ∀ ks x, Leads (nodeKids h) r ks x → ks.length + k ≤ n) ∧
    ((treeLayoutIn h n r (nestedMethod k method)).2 = none ∨ (treeLayoutIn h n r (nestedMethod k method)).2 = some .recursionError) := by
  have e : (fun (j x : Nat) => nestedMethod k method j (h.node x)) = fun j x => if j < k then .error .recursionError else .ok (text (h.node x)) := by
    funext j x
    rw [nestedMethod, hm]
  rw [C159_drawn, e, drawn_nested n k hk (fun x => text (h.node x))]
  refine ⟨rfl, ?_, ?_⟩
  · simp only
    constructor
    · intro hn ks x hl
      apply Classical.byContradiction
      intro hlt
      have hall : ∀ m ∈ Spec.waysDown (nodeKids h) n r, m.1.length + k ≤ n := by
        apply Classical.byContradiction
        intro hc
        rw [if_neg hc] at hn
        cases hn
      obtain ⟨ks', x', h1, h2⟩ := leads_shorter hl (min ks.length n) (Nat.min_le_left _ _)
      obtain ⟨m, h3, h4, _⟩ := leads_waysDown _ n r ks' x' h1 (by rw [h2]; exact Nat.min_le_right _ _)
      have := hall m h3
      rw [h4, h2] at this
      omega
    · intro hall
      rw [if_pos]
      intro m hmem
      obtain ⟨ks, h1, h2, _⟩ := waysDown_leads _ n r m hmem
      rw [← h2]
      exact hall ks _ h1
  · simp only
    split
    · exact Or.inl rfl
    · exact Or.inr rfl

/-- C159: a node that contains itself is not drawn for ever: `layout` ends with `RecursionError`, whatever the limit. -/
theorem C159_circular (h : Heap) (n k : Nat) (hk : 1 ≤ k) (method : TNode → Except PyErr Str) (text : TNode → Str) (hm : ∀ x, method x = .ok (text x)) (r : Nat)
    (hc : Circular (nodeKids h) r) : (treeLayoutIn h n r (nestedMethod k method)).2 = some .recursionError := by
  obtain ⟨_, h2, h3⟩ := C159_limit h n k hk method text hm r
  rcases h3 with h3 | h3
  · obtain ⟨ks, x, h4, h5⟩ := hc.paths (n + 1)
    have := h2.1 h3 ks x h4
    omega
  · exact h3

/-! ### With enough calls -/

theorem layoutKids_room (h : Heap) (k : Nat) (method : TNode → Except PyErr Str) (fuel : Nat) : ∀ (pre : Str) (l : List Nat) (p : Printed) (n : Nat),
    layoutKids h method fuel pre l = some p → fuel + k ≤ n + 1 →
      layoutRow (fun front c => printLine front (nestedMethod k method n (h.node c))) (fun pre c => layoutCall h (nestedMethod k method) n pre c) pre l = p := by
  induction fuel with
  | zero => intro pre l p n hp; simp [layoutKids] at hp
  | succ fuel ih =>
    have below : ∀ (front pre : Str) (c : Nat) (p : Printed) (n : Nat), fuel + 1 + k ≤ n + 1 →
        (printLine front (method (h.node c))).andMaybe (layoutKids h method fuel pre (Dict.values (h.node c).children)) = some p →
        (printLine front (nestedMethod k method n (h.node c))).andThen (layoutCall h (nestedMethod k method) n pre c) = p := by
      intro front pre c p n hn hp
      rw [nestedMethod, if_neg (by omega)]
      cases hmc : method (h.node c) with
      | error e =>
        rw [hmc] at hp
        simpa [printLine, Printed.andMaybe, Printed.andThen] using hp
      | ok s =>
        rw [hmc] at hp
        cases hin : layoutKids h method fuel pre (Dict.values (h.node c).children) with
        | none => rw [hin] at hp; simp [printLine, Printed.andMaybe] at hp
        | some q =>
          have hpos : fuel ≠ 0 := by
            intro h0
            rw [h0] at hin
            simp [layoutKids] at hin
          obtain ⟨m, rfl⟩ : ∃ m, n = m + 1 := ⟨n - 1, by omega⟩
          rw [hin] at hp
          rw [layoutCall, ih pre _ q m hin (by omega)]
          simpa [printLine, Printed.andMaybe, Printed.andThen] using hp
    intro pre l p n hp hn
    cases l with
    | nil => simpa [layoutKids, layoutRow] using hp
    | cons c l =>
      cases l with
      | nil => exact below _ _ c p n hn hp
      | cons d l =>
        rw [layoutKids] at hp
        rw [layoutRow]
        cases hq : (printLine (pre ++ u!"├─ ") (method (h.node c))).andMaybe (layoutKids h method fuel (pre ++ u!"│  ") (Dict.values (h.node c).children)) with
        | none => rw [hq] at hp; simp at hp
        | some q =>
          rw [hq, Option.bind_some] at hp
          rw [below _ _ c q n hn hq]
          obtain ⟨ql, qe⟩ := q
          cases qe with
          | some e => simpa [Printed.andMaybe, Printed.andThen] using hp
          | none =>
            cases hr : layoutKids h method fuel pre (d :: l) with
            | none => rw [hr] at hp; simp [Printed.andMaybe] at hp
            | some q2 =>
              rw [hr] at hp
              rw [ih pre (d :: l) q2 n hr (by omega)]
              simpa [Printed.andMaybe, Printed.andThen] using hp

/-- C159: whatever `layout` prints and raises without a limit (C86), it prints and raises with every limit from some number on. -/
theorem C159_enough (h : Heap) (k fuel r : Nat) (method : TNode → Except PyErr Str) (p : Printed) (hp : treeLayout h fuel r method = some p) (n : Nat) (hn : fuel + k ≤ n) :
    treeLayoutIn h n r (nestedMethod k method) = p := by
  rw [treeLayout] at hp
  rw [treeLayoutIn, nestedMethod, if_neg (by omega)]
  cases hmr : method (h.node r) with
  | error e =>
    rw [hmr] at hp
    simpa [printLine, Printed.andMaybe, Printed.andThen] using hp
  | ok s =>
    rw [hmr] at hp
    cases hin : layoutKids h method fuel [] (Dict.values (h.node r).children) with
    | none => rw [hin] at hp; simp [printLine, Printed.andMaybe] at hp
    | some q =>
      have hpos : fuel ≠ 0 := by
        intro h0
        rw [h0] at hin
        simp [layoutKids] at hin
      obtain ⟨m, rfl⟩ : ∃ m, n = m + 1 := ⟨n - 1, by omega⟩
      rw [hin] at hp
      rw [layoutCall, layoutKids_room h k method fuel [] _ q m hin (by omega)]
      simpa [printLine, Printed.andMaybe, Printed.andThen] using hp

/-- A chain of three nodes and a second child of the first: with two nested calls left the second level is not drawn; with three all is. -/
example : let h := TreeOp.run [] [.new u!"a" [], .new u!"b" [], .new u!"c" [], .new u!"d" [], .add 0 1, .add 1 2, .add 0 3]
    treeLayoutIn h 2 0 (nestedMethod 1 labelMethod) = ([u!"a", u!"├─ b"], some .recursionError) ∧
      treeLayoutIn h 3 0 (nestedMethod 1 labelMethod) = ([u!"a", u!"├─ b", u!"│  └─ c", u!"└─ d"], none) := by
  decide +kernel

end Cjk
