import Verif.Model.TreeWalks
import Verif.Spec.TreeWalks
import Verif.Props.TreeWalk
import Verif.Props.TreeOps
import Verif.Props.TreeLoops
import Verif.Props.TreePrune

/-!
# C147: changing a tree while walking it
-/

namespace Cjk
open Py
open Spec (yieldAt childrenOf Under takenOut Leads nodeKids)

/-! ### Single calls -/

theorem yieldAt_succ {γ : Type} {next : Heap → γ → Option (Option Nat × γ)} {hs : Nat → Heap} {g g' : γ} {o : Option Nat} (e : next (hs 0) g = some (o, g')) (i : Nat) :
    yieldAt next hs g (i + 1) = yieldAt next (fun j => hs (j + 1)) g' i := by
  show (match next (hs 0) g with | none => none | some (_, g') => yieldAt next (fun j => hs (j + 1)) g' i) = _
  rw [e]

theorem yieldAt_zero {γ : Type} {next : Heap → γ → Option (Option Nat × γ)} {hs : Nat → Heap} {g g' : γ} {o : Option Nat} (e : next (hs 0) g = some (o, g')) :
    yieldAt next hs g 0 = some o := by
  show (next (hs 0) g).map (·.1) = _
  rw [e]; rfl

/-- A generator that has nothing more to yield. -/
theorem yieldAt_over {γ : Type} {next : Heap → γ → Option (Option Nat × γ)} {g : γ} (e : ∀ h, next h g = some (none, g)) :
    ∀ (i : Nat) (hs : Nat → Heap), yieldAt next hs g i = some none := by
  intro i
  induction i with
  | zero => intro hs; exact yieldAt_zero (e _)
  | succ i ih => intro hs; rw [yieldAt_succ (e _)]; exact ih _

/-! ### Pre-order -/

theorem preNext_yields (h : Heap) : ∀ (ns : List Nat) (hs : Nat → Heap) (g : PreWalk), (∀ i (hi : i < ns.length), childrenOf (hs (i + 1)) ns[i] = childrenOf h ns[i]) →
    ((∀ i, yieldAt (fun h g => some (PreWalk.next h g)) hs g i = some ns[i]?) ↔ preLoop h (ns.length + 1) (g.extended (hs 0)) = some ns) := by
  intro ns
  induction ns with
  | nil =>
    intro hs g _
    cases e : g.extended (hs 0) with
    | nil =>
      have h1 : (fun h g => some (PreWalk.next h g)) (hs 0) g = some (none, ⟨none, []⟩) := by simp only [PreWalk.next, e]
      refine ⟨fun _ => rfl, fun _ i => ?_⟩
      cases i with
      | zero => exact yieldAt_zero h1
      | succ i => rw [yieldAt_succ h1]; exact yieldAt_over (fun h => rfl) i _
    | cons r stack =>
      have h1 : (fun h g => some (PreWalk.next h g)) (hs 0) g = some (some r, ⟨some r, stack⟩) := by simp only [PreWalk.next, e]
      constructor
      · intro hy
        have := hy 0
        rw [yieldAt_zero h1] at this
        cases this
      · intro hp
        simp only [List.length_nil, preLoop] at hp
        cases hp
  | cons x ns ih =>
    intro hs g hag
    cases e : g.extended (hs 0) with
    | nil =>
      have h1 : (fun h g => some (PreWalk.next h g)) (hs 0) g = some (none, ⟨none, []⟩) := by simp only [PreWalk.next, e]
      constructor
      · intro hy
        have := hy 0
        rw [yieldAt_zero h1] at this
        cases this
      · intro hp
        simp only [List.length_cons, preLoop] at hp
        cases hp
    | cons r stack =>
      have h1 : (fun h g => some (PreWalk.next h g)) (hs 0) g = some (some r, ⟨some r, stack⟩) := by simp only [PreWalk.next, e]
      by_cases hx : r = x
      · subst hx
        have hk := hag 0 (by simp)
        have hih := ih (fun j => hs (j + 1)) ⟨some r, stack⟩ (fun i hi => by
          have := hag (i + 1) (by simpa using hi)
          simpa using this)
        have hext : (PreWalk.mk (some r) stack).extended (hs 1) = (Dict.values (h.node r).children).reverse ++ stack := by
          simp only [PreWalk.extended]
          have hk' : ((hs 1).node r).children = (h.node r).children := hk
          rw [hk']
        simp only [Nat.zero_add, hext] at hih
        constructor
        · intro hy
          have h2 := hih.1 (fun i => by
            have := hy (i + 1)
            rw [yieldAt_succ h1] at this
            simpa using this)
          simp only [List.length_cons, preLoop]
          rw [h2]; rfl
        · intro hp i
          simp only [List.length_cons, preLoop] at hp
          obtain ⟨ns', h2, h3⟩ := Option.map_eq_some_iff.1 hp
          cases h3
          cases i with
          | zero => exact yieldAt_zero h1
          | succ i => rw [yieldAt_succ h1]; simpa using hih.2 h2 i
      · constructor
        · intro hy
          have := hy 0
          rw [yieldAt_zero h1] at this
          simp only [List.length_cons, Nat.zero_lt_succ, getElem?_pos, List.getElem_cons_zero, Option.some.injEq] at this
          exact absurd this hx
        · intro hp
          simp only [List.length_cons, preLoop] at hp
          obtain ⟨ns', h2, h3⟩ := Option.map_eq_some_iff.1 hp
          cases h3
          exact absurd rfl hx

/-! ### Breadth first -/

theorem bfsNext_yields (shuffle : Nat → List Nat → List Nat) (h : Heap) : ∀ (ns : List Nat) (hs : Nat → Heap) (g : BfsWalk),
    (∀ i (hi : i < ns.length), childrenOf (hs (i + 1)) ns[i] = childrenOf h ns[i]) →
    ((∀ i, yieldAt (fun h g => some (BfsWalk.next shuffle h g)) hs g i = some ns[i]?) ↔
      bfsLoop shuffle h (ns.length + 1) (g.advance shuffle (hs 0)).shuffles (g.advance shuffle (hs 0)).frontier (g.advance shuffle (hs 0)).nextFrontier = some ns) := by
  intro ns
  have hnone : ∀ (hh : Heap) (g : BfsWalk), (g.advance shuffle hh).pending = none := by
    intro hh g
    unfold BfsWalk.advance
    cases e : g.pending with
    | none => exact e
    | some r => simp only; split <;> rfl
  induction ns with
  | nil =>
    intro hs g _
    cases e : (g.advance shuffle (hs 0)).frontier with
    | nil =>
      have h1 : (fun h g => some (BfsWalk.next shuffle h g)) (hs 0) g = some (none, g.advance shuffle (hs 0)) := by simp only [BfsWalk.next, e]
      refine ⟨fun _ => rfl, fun _ i => ?_⟩
      cases i with
      | zero => exact yieldAt_zero h1
      | succ i =>
        rw [yieldAt_succ h1]
        refine yieldAt_over (fun h => ?_) i _
        have : (g.advance shuffle (hs 0)).advance shuffle h = g.advance shuffle (hs 0) := by
          unfold BfsWalk.advance
          have := hnone (hs 0) g
          unfold BfsWalk.advance at this
          rw [this]
        simp only [BfsWalk.next, this, e]
    | cons r frontier =>
      have h1 : (fun h g => some (BfsWalk.next shuffle h g)) (hs 0) g =
          some (some r, { g.advance shuffle (hs 0) with pending := some r, frontier := frontier }) := by simp only [BfsWalk.next, e]
      constructor
      · intro hy
        have := hy 0
        rw [yieldAt_zero h1] at this
        cases this
      · intro hp
        simp only [List.length_nil, bfsLoop] at hp
        split at hp <;> cases hp
  | cons x ns ih =>
    intro hs g hag
    cases e : (g.advance shuffle (hs 0)).frontier with
    | nil =>
      have h1 : (fun h g => some (BfsWalk.next shuffle h g)) (hs 0) g = some (none, g.advance shuffle (hs 0)) := by simp only [BfsWalk.next, e]
      constructor
      · intro hy
        have := hy 0
        rw [yieldAt_zero h1] at this
        cases this
      · intro hp
        simp only [List.length_cons, bfsLoop] at hp
        cases hp
    | cons r frontier =>
      have h1 : (fun h g => some (BfsWalk.next shuffle h g)) (hs 0) g =
          some (some r, { g.advance shuffle (hs 0) with pending := some r, frontier := frontier }) := by simp only [BfsWalk.next, e]
      generalize g.advance shuffle (hs 0) = ga at *
      by_cases hx : r = x
      · subst hx
        have hk : ((hs 1).node r).children = (h.node r).children := hag 0 (by simp)
        have hih := ih (fun j => hs (j + 1)) { ga with pending := some r, frontier := frontier } (fun i hi => by
          have := hag (i + 1) (by simpa using hi)
          simpa using this)
        have hbfs : bfsLoop shuffle h (ns.length + 1 + 1) ga.shuffles (r :: frontier) ga.nextFrontier =
            (bfsLoop shuffle h (ns.length + 1) (({ ga with pending := some r, frontier := frontier } : BfsWalk).advance shuffle (hs 1)).shuffles
              (({ ga with pending := some r, frontier := frontier } : BfsWalk).advance shuffle (hs 1)).frontier
              (({ ga with pending := some r, frontier := frontier } : BfsWalk).advance shuffle (hs 1)).nextFrontier).map (r :: ·) := by
          simp only [bfsLoop, BfsWalk.advance, hk]
          by_cases hf : frontier.isEmpty <;> simp [hf]
        simp only [Nat.zero_add] at hih
        rw [show (r :: ns).length + 1 = ns.length + 1 + 1 from rfl, hbfs]
        constructor
        · intro hy
          have h2 := hih.1 (fun i => by
            have := hy (i + 1)
            rw [yieldAt_succ h1] at this
            simpa using this)
          rw [h2]; rfl
        · intro hp i
          obtain ⟨ns', h2, h3⟩ := Option.map_eq_some_iff.1 hp
          cases h3
          cases i with
          | zero => exact yieldAt_zero h1
          | succ i => rw [yieldAt_succ h1]; simpa using hih.2 h2 i
      · constructor
        · intro hy
          have := hy 0
          rw [yieldAt_zero h1] at this
          simp only [List.length_cons, Nat.zero_lt_succ, getElem?_pos, List.getElem_cons_zero, Option.some.injEq] at this
          exact absurd this hx
        · intro hp
          simp only [List.length_cons, bfsLoop] at hp
          split at hp <;>
          · obtain ⟨ns', h2, h3⟩ := Option.map_eq_some_iff.1 hp
            cases h3
            exact absurd rfl hx

/-! ### Post-order -/

theorem postLoop_under (h : Heap) : ∀ (fuel : Nat) (stack : List (Nat × Bool)) (out : List Nat), postLoop h fuel stack = some out →
    ∀ r, (r, false) ∈ stack → ∀ ks x, Leads (nodeKids h) r ks x → x ∈ out := by
  intro fuel
  induction fuel with
  | zero => intro stack out e; cases e
  | succ fuel ih =>
    intro stack out e r hr ks x hl
    cases stack with
    | nil => cases hr
    | cons s stack =>
      obtain ⟨r0, v⟩ := s
      simp only [postLoop] at e
      split at e
      · rename_i hc
        obtain ⟨out', e', e2⟩ := Option.map_eq_some_iff.1 e
        subst e2
        rcases List.mem_cons.1 hr with e2 | hr
        · cases e2
          simp only [Bool.false_or] at hc
          cases hl with
          | here => simp
          | step hm _ =>
            have := List.isEmpty_iff.1 hc
            unfold nodeKids at hm
            rw [this] at hm
            cases hm
        · exact List.mem_cons_of_mem _ (ih _ _ e' r hr ks x hl)
      · rcases List.mem_cons.1 hr with e2 | hr
        · cases e2
          cases hl with
          | here => exact post_true h fuel _ _ e _ (List.mem_append_right _ (List.mem_cons_self ..))
          | step hm h2 =>
            exact ih _ _ e _ (List.mem_append_left _ (List.mem_map.2 ⟨_, List.mem_reverse.2 (mem_values_iff.2 ⟨_, hm⟩), rfl⟩)) _ _ h2
        · exact ih _ _ e r (List.mem_append_right _ (List.mem_cons_of_mem _ hr)) ks x hl
where
  post_true (h : Heap) : ∀ (fuel : Nat) (stack : List (Nat × Bool)) (out : List Nat), postLoop h fuel stack = some out →
      ∀ r, (r, true) ∈ stack → r ∈ out := by
    intro fuel
    induction fuel with
    | zero => intro stack out e; cases e
    | succ fuel ih =>
      intro stack out e r hr
      cases stack with
      | nil => cases hr
      | cons s stack =>
        obtain ⟨r0, v⟩ := s
        simp only [postLoop] at e
        split at e
        · obtain ⟨out', e', e2⟩ := Option.map_eq_some_iff.1 e
          subst e2
          rcases List.mem_cons.1 hr with e2 | hr
          · cases e2; simp
          · exact List.mem_cons_of_mem _ (ih _ _ e' r hr)
        · rename_i hc
          rcases List.mem_cons.1 hr with e2 | hr
          · cases e2; simp at hc
          · exact ih _ _ e r (List.mem_append_right _ (List.mem_cons_of_mem _ hr))

/-- One call: `h'` is the heap of the call, and the nodes that the walk has not begun have the same children in `h`. -/
theorem postNext_call (h h' : Heap) (seen : List Nat) (hag : ∀ n, (∀ x ∈ seen, ¬ Under h n x) → childrenOf h' n = childrenOf h n) :
    ∀ (fuel : Nat) (stack : List (Nat × Bool)) (out : List Nat), postLoop h fuel stack = some out → (seen ++ out).Nodup → ∀ F, fuel ≤ F →
    ∃ stack', postNext h' F stack = some (out.head?, stack') ∧
      (out = [] → stack' = []) ∧ ∀ x rest, out = x :: rest → ∃ fuel' ≤ fuel, postLoop h fuel' stack' = some rest := by
  intro fuel
  induction fuel with
  | zero => intro stack out e; cases e
  | succ fuel ih =>
    intro stack out e hn F hF
    obtain ⟨F', rfl⟩ : ∃ F', F = F' + 1 := ⟨F - 1, by omega⟩
    cases stack with
    | nil =>
      simp only [postLoop] at e
      cases e
      exact ⟨[], rfl, fun _ => rfl, fun x rest hc => by cases hc⟩
    | cons s stack =>
      obtain ⟨r, v⟩ := s
      have hr : v = false → (h'.node r).children = (h.node r).children := by
        intro hv
        subst hv
        apply hag r
        rintro x hx ⟨ks, hl⟩
        have := postLoop_under h (fuel + 1) _ _ e r (List.mem_cons_self ..) ks x hl
        exact (List.nodup_append.1 hn).2.2 x hx x this rfl
      simp only [postLoop] at e
      have hcond : (v || ((h'.node r).children).isEmpty) = (v || ((h.node r).children).isEmpty) := by
        cases v with
        | true => rfl
        | false => rw [hr rfl]
      simp only [postNext, hcond]
      split at e
      · rename_i hc
        obtain ⟨rest, e', e2⟩ := Option.map_eq_some_iff.1 e
        subst e2
        rw [if_pos hc]
        refine ⟨stack, rfl, (fun hc => by cases hc), fun x rest' hx => ?_⟩
        cases hx
        exact ⟨fuel, Nat.le_succ _, e'⟩
      · rename_i hc
        have hv : v = false := by cases v with | true => simp at hc | false => rfl
        rw [if_neg hc, hr hv]
        obtain ⟨stack', h1, h2, h3⟩ := ih _ _ e hn F' (by omega)
        refine ⟨stack', h1, h2, fun x rest hx => ?_⟩
        obtain ⟨f, hf, hp⟩ := h3 x rest hx
        exact ⟨f, by omega, hp⟩

theorem postNext_yields (h : Heap) (F : Nat) : ∀ (out seen : List Nat) (fuel : Nat) (stack : List (Nat × Bool)) (hs : Nat → Heap), fuel ≤ F →
    postLoop h fuel stack = some out → (seen ++ out).Nodup →
    (∀ i n, (∀ x ∈ seen ++ out.take i, ¬ Under h n x) → childrenOf (hs i) n = childrenOf h n) →
    ∀ i, yieldAt (fun h g => postNext h F g) hs stack i = some out[i]? := by
  intro out
  induction out with
  | nil =>
    intro seen fuel stack hs hF hp hn hag i
    obtain ⟨stack', h1, h2, _⟩ := postNext_call h (hs 0) seen (fun n hn => hag 0 n (by simpa using hn)) fuel stack _ hp hn F hF
    cases h2 rfl
    cases i with
    | zero => exact yieldAt_zero h1
    | succ i =>
      rw [yieldAt_succ (next := fun h g => postNext h F g) h1]
      refine yieldAt_over (fun h => ?_) i _
      cases F with
      | zero => cases h1
      | succ F => rfl
  | cons x out ih =>
    intro seen fuel stack hs hF hp hn hag i
    obtain ⟨stack', h1, _, h3⟩ := postNext_call h (hs 0) seen (fun n hn => hag 0 n (by simpa using hn)) fuel stack _ hp hn F hF
    obtain ⟨f, hf, hp'⟩ := h3 x out rfl
    cases i with
    | zero => exact yieldAt_zero h1
    | succ i =>
      rw [yieldAt_succ (next := fun h g => postNext h F g) h1]
      have := ih (seen ++ [x]) f stack' (fun j => hs (j + 1)) (by omega) hp' (by simpa using hn) (fun i n hu => by
        apply hag (i + 1) n
        intro y hy
        apply hu y
        simpa using hy) i
      simpa using this

/-! ### The walks -/

/-- C147, pre-order: let the program change the tree between the calls of `next`, the heap being `hs i` at the `i`-th call (and `childrenOf h n` be the children of each visited node
`n` at the call after the one that yielded it).  Then the walk visits these nodes, and ends, if and only if a walk over `h` visits them: the children of a node are looked
at when the next node is asked for, not before and not again. -/
theorem C147_preorder (h : Heap) (hs : Nat → Heap) (r : Nat) (ns : List Nat) (hag : ∀ i (hi : i < ns.length), childrenOf (hs (i + 1)) ns[i] = childrenOf h ns[i]) :
    (∀ i, yieldAt (fun h g => some (PreWalk.next h g)) hs (.start r) i = some ns[i]?) ↔ walkPre h (ns.length + 1) r = some ns :=
  preNext_yields h ns hs (.start r) hag

/-- C147, breadth first: likewise. -/
theorem C147_breadth_first (shuffle : Nat → List Nat → List Nat) (h : Heap) (hs : Nat → Heap) (r : Nat) (ns : List Nat)
    (hag : ∀ i (hi : i < ns.length), childrenOf (hs (i + 1)) ns[i] = childrenOf h ns[i]) :
    (∀ i, yieldAt (fun h g => some (BfsWalk.next shuffle h g)) hs (.start r) i = some ns[i]?) ↔ walkBfs shuffle h (ns.length + 1) r = some ns :=
  bfsNext_yields shuffle h ns hs (.start r) hag

/-- C147, post-order: the children of a node are looked at when the walk first goes to it or below it.  If until then every node has the children that it has in the tree `h`,
the walk visits the nodes of a walk over `h`, whatever happens afterwards. -/
theorem C147_postorder (h : Heap) (hs : Nat → Heap) (r fuel : Nat) (ns : List Nat) (hw : walkPost h fuel r = some ns) (hn : ns.Nodup)
    (hag : ∀ i n, (∀ x ∈ ns.take i, ¬ Under h n x) → childrenOf (hs i) n = childrenOf h n) :
    ∀ i, yieldAt (fun h g => postNext h fuel g) hs [(r, false)] i = some ns[i]? :=
  postNext_yields h fuel ns [] fuel _ hs (Nat.le_refl _) hw (by simpa using hn) (by simpa using hag)


/-- C147, pre-order and breadth first: if the children of a node do not change after the walk has gone on from it, the walk visits what a walk over the tree at the end visits; so
a loop may add and remove children of the node it is at. -/
theorem C147_final (shuffle : Nat → List Nat → List Nat) (hs : Nat → Heap) (r : Nat) (ns : List Nat)
    (hlast : ∀ i (hi : i < ns.length), childrenOf (hs (i + 1)) ns[i] = childrenOf (hs ns.length) ns[i]) :
    ((∀ i, yieldAt (fun h g => some (PreWalk.next h g)) hs (.start r) i = some ns[i]?) ↔ walkPre (hs ns.length) (ns.length + 1) r = some ns) ∧
    ((∀ i, yieldAt (fun h g => some (BfsWalk.next shuffle h g)) hs (.start r) i = some ns[i]?) ↔ walkBfs shuffle (hs ns.length) (ns.length + 1) r = some ns) :=
  ⟨C147_preorder _ hs r ns hlast, C147_breadth_first shuffle _ hs r ns hlast⟩

/-! ### Fuel -/

theorem preLoop_exact (h : Heap) : ∀ (fuel : Nat) (stack ns : List Nat), preLoop h fuel stack = some ns → preLoop h (ns.length + 1) stack = some ns := by
  intro fuel
  induction fuel with
  | zero => intro stack ns e; cases e
  | succ fuel ih =>
    intro stack ns e
    cases stack with
    | nil => simp only [preLoop] at e; cases e; rfl
    | cons r stack =>
      simp only [preLoop] at e
      obtain ⟨ns', h2, h3⟩ := Option.map_eq_some_iff.1 e
      subst h3
      simp only [List.length_cons, preLoop]
      rw [ih _ _ h2]; rfl

theorem bfsLoop_exact (shuffle : Nat → List Nat → List Nat) (h : Heap) : ∀ (fuel n : Nat) (frontier next ns : List Nat), bfsLoop shuffle h fuel n frontier next = some ns →
    bfsLoop shuffle h (ns.length + 1) n frontier next = some ns := by
  intro fuel
  induction fuel with
  | zero => intro n frontier next ns e; cases e
  | succ fuel ih =>
    intro n frontier next ns e
    cases frontier with
    | nil => simp only [bfsLoop] at e; cases e; rfl
    | cons r frontier =>
      simp only [bfsLoop] at e
      split at e
      · rename_i hf
        obtain ⟨ns', h2, h3⟩ := Option.map_eq_some_iff.1 e
        subst h3
        simp only [List.length_cons, bfsLoop, hf, if_true]
        rw [ih _ _ _ _ h2]; rfl
      · rename_i hf
        obtain ⟨ns', h2, h3⟩ := Option.map_eq_some_iff.1 e
        subst h3
        simp only [List.length_cons, bfsLoop, hf]
        rw [if_neg (by simp), ih _ _ _ _ h2]; rfl

/-! ### Loops -/

/-- A loop whose body does not raise, along the heaps that it makes. -/
theorem forWalk_heaps {γ : Type} (next : Heap → γ → Option (Option Nat × γ)) (body : Heap → Nat → Except PyErr Heap) : ∀ (ns : List Nat) (hs : Nat → Heap) (g : γ) (F : Nat),
    (∀ i, yieldAt next hs g i = some ns[i]?) → (∀ i (hi : i < ns.length), body (hs i) ns[i] = .ok (hs (i + 1))) → ns.length < F →
    forWalk next body F (hs 0) g = some (.ok (hs ns.length)) := by
  intro ns
  induction ns with
  | nil =>
    intro hs g F hy _ hF
    obtain ⟨F', rfl⟩ : ∃ F', F = F' + 1 := ⟨F - 1, by simp at hF; omega⟩
    have h0 := hy 0
    unfold forWalk
    cases e : next (hs 0) g with
    | none => simp only [yieldAt, e] at h0; cases h0
    | some og =>
      obtain ⟨o, g'⟩ := og
      rw [yieldAt_zero e] at h0
      cases h0
      rfl
  | cons x ns ih =>
    intro hs g F hy hb hF
    obtain ⟨F', rfl⟩ : ∃ F', F = F' + 1 := ⟨F - 1, by simp at hF; omega⟩
    have h0 := hy 0
    unfold forWalk
    cases e : next (hs 0) g with
    | none => simp only [yieldAt, e] at h0; cases h0
    | some og =>
      obtain ⟨o, g'⟩ := og
      rw [yieldAt_zero e] at h0
      cases h0
      rw [show (x :: ns)[0]? = some x from rfl]
      simp only
      have hb0 : body (hs 0) x = .ok (hs 1) := hb 0 (by simp)
      rw [hb0]
      simp only
      have := ih (fun j => hs (j + 1)) g' F' (fun i => by
        have := hy (i + 1)
        rw [yieldAt_succ e] at this
        simpa using this) (fun i hi => hb (i + 1) (Nat.succ_lt_succ hi)) (by simp at hF; omega)
      simpa using this

/-- A loop whose body leaves the children of all nodes alone. -/
theorem forWalk_fold {γ : Type} (next : Heap → γ → Option (Option Nat × γ)) (body : Heap → Nat → Except PyErr Heap)
    (hbody : ∀ h n h', body h n = .ok h' → ∀ m, childrenOf h' m = childrenOf h m) : ∀ (ns : List Nat) (h : Heap) (g : γ) (F : Nat),
    (∀ hs : Nat → Heap, (∀ i m, childrenOf (hs i) m = childrenOf h m) → ∀ i, yieldAt next hs g i = some ns[i]?) → ns.length < F →
    forWalk next body F h g = some (ns.foldlM body h) := by
  intro ns
  induction ns with
  | nil =>
    intro h g F hy hF
    obtain ⟨F', rfl⟩ : ∃ F', F = F' + 1 := ⟨F - 1, by simp at hF; omega⟩
    have h0 := hy (fun _ => h) (fun _ _ => rfl) 0
    unfold forWalk
    cases e : next h g with
    | none => simp only [yieldAt, e] at h0; cases h0
    | some og =>
      obtain ⟨o, g'⟩ := og
      rw [yieldAt_zero (hs := fun _ => h) e] at h0
      cases h0
      rfl
  | cons x ns ih =>
    intro h g F hy hF
    obtain ⟨F', rfl⟩ : ∃ F', F = F' + 1 := ⟨F - 1, by simp at hF; omega⟩
    have h0 := hy (fun _ => h) (fun _ _ => rfl) 0
    unfold forWalk
    cases e : next h g with
    | none => simp only [yieldAt, e] at h0; cases h0
    | some og =>
      obtain ⟨o, g'⟩ := og
      rw [yieldAt_zero (hs := fun _ => h) e] at h0
      cases h0
      rw [show (x :: ns)[0]? = some x from rfl]
      simp only [List.foldlM_cons]
      cases hb : body h x with
      | error er => rfl
      | ok h' =>
        simp only
        have hc := hbody h x h' hb
        refine ih h' g' F' (fun hs hh i => ?_) (by simp at hF; omega)
        have := hy (fun j => if j = 0 then h else hs (j - 1)) (fun i m => by
          by_cases hi : i = 0
          · rw [if_pos hi]
          · rw [if_neg hi, hh, hc]) (i + 1)
        rw [yieldAt_succ (hs := fun j => if j = 0 then h else hs (j - 1)) (by simpa using e)] at this
        simpa using this

/-- C147: a loop over a walk whose body leaves the children of all nodes alone (it may change attributes) does to the nodes, in order, what it would do if the walk had been made beforehand,
up to the first exception. -/
theorem C147_attributes (shuffle : Nat → List Nat → List Nat) (body : Heap → Nat → Except PyErr Heap)
    (hbody : ∀ h n h', body h n = .ok h' → ∀ m, childrenOf h' m = childrenOf h m) (h : Heap) (r fuel F : Nat) (ns : List Nat) :
    (walkPre h fuel r = some ns → fuel ≤ F → forPre body F h r = some (ns.foldlM body h)) ∧
    (walkBfs shuffle h fuel r = some ns → fuel ≤ F → forBfs shuffle body F h r = some (ns.foldlM body h)) ∧
    (walkPost h fuel r = some ns → ns.Nodup → fuel ≤ F → forPost body F h r = some (ns.foldlM body h)) := by
  refine ⟨fun hw hF => ?_, fun hw hF => ?_, fun hw hn hF => ?_⟩
  · refine forWalk_fold _ body hbody ns h _ F (fun hs hh => ?_) ?_
    · exact (C147_preorder h hs r ns (fun i _ => hh _ _)).2 (preLoop_exact h fuel _ _ hw)
    · have := preLoop_len h fuel _ _ hw
      omega
  · refine forWalk_fold _ body hbody ns h _ F (fun hs hh => ?_) ?_
    · exact (C147_breadth_first shuffle h hs r ns (fun i _ => hh _ _)).2 (bfsLoop_exact shuffle h fuel _ _ _ _ hw)
    · have := bfsLoop_len shuffle h fuel _ _ _ _ hw
      omega
  · refine forWalk_fold _ body hbody ns h _ F (fun hs hh => ?_) ?_
    · exact postNext_yields h F ns [] fuel _ hs hF hw (by simpa using hn) (fun i n _ => hh i n)
    · have := postLoop_len h fuel _ _ hw
      omega
where
  preLoop_len (h : Heap) : ∀ (fuel : Nat) (stack ns : List Nat), preLoop h fuel stack = some ns → ns.length < fuel := by
    intro fuel
    induction fuel with
    | zero => intro stack ns e; cases e
    | succ fuel ih =>
      intro stack ns e
      cases stack with
      | nil => simp only [preLoop] at e; cases e; simp
      | cons r stack =>
        simp only [preLoop] at e
        obtain ⟨ns', h2, h3⟩ := Option.map_eq_some_iff.1 e
        subst h3
        simpa using ih _ _ h2
  bfsLoop_len (shuffle : Nat → List Nat → List Nat) (h : Heap) : ∀ (fuel n : Nat) (frontier next ns : List Nat), bfsLoop shuffle h fuel n frontier next = some ns →
      ns.length < fuel := by
    intro fuel
    induction fuel with
    | zero => intro n frontier next ns e; cases e
    | succ fuel ih =>
      intro n frontier next ns e
      cases frontier with
      | nil => simp only [bfsLoop] at e; cases e; simp
      | cons r frontier =>
        simp only [bfsLoop] at e
        split at e <;>
        · obtain ⟨ns', h2, h3⟩ := Option.map_eq_some_iff.1 e
          subst h3
          simpa using ih _ _ _ _ h2
  postLoop_len (h : Heap) : ∀ (fuel : Nat) (stack : List (Nat × Bool)) (ns : List Nat), postLoop h fuel stack = some ns → ns.length < fuel := by
    intro fuel
    induction fuel with
    | zero => intro stack ns e; cases e
    | succ fuel ih =>
      intro stack ns e
      cases stack with
      | nil => simp only [postLoop] at e; cases e; simp
      | cons s stack =>
        obtain ⟨r0, v⟩ := s
        simp only [postLoop] at e
        split at e
        · obtain ⟨out', e', e2⟩ := Option.map_eq_some_iff.1 e
          subst e2
          simpa using ih _ _ e'
        · have := ih _ _ e
          omega

/-! ### Taking a tree apart -/

theorem takenOut_node (h : Heap) (V : List Nat) (i : Nat) : (takenOut h V).node i =
    { h.node i with children := (h.node i).children.filter (fun kc => !V.contains kc.2), parent := if V.contains i then none else (h.node i).parent } := by
  unfold takenOut Heap.node
  rw [List.getElem?_mapIdx]
  cases h[i]? with
  | none => simp [Option.getD, default]
  | some n => rfl

theorem takenOut_length (h : Heap) (V : List Nat) : (takenOut h V).length = h.length := by simp [takenOut]

theorem takenOut_nil (h : Heap) : takenOut h [] = h := by
  unfold takenOut
  apply List.ext_getElem?
  intro i
  rw [List.getElem?_mapIdx]
  cases h[i]? with
  | none => rfl
  | some n => simp

theorem takenOut_congr (h : Heap) {V W : List Nat} (e : ∀ x, x ∈ V ↔ x ∈ W) : takenOut h V = takenOut h W := by
  have : ∀ x, V.contains x = W.contains x := by
    intro x
    rw [Bool.eq_iff_iff, List.contains_iff_mem, List.contains_iff_mem]
    exact e x
  unfold takenOut
  simp only [this]

/-- `unlink` on a heap from which some nodes have been taken out already. -/
theorem unlink_takenOut (h : Heap) (hl : LinksOk h) (hw : ∀ p, Dict.WF (childrenOf h p)) (V : List Nat) (n : Nat) (hn : n < h.length) (hV : n ∉ V)
    (hp : ∀ p, (h.node n).parent = some p → Dict.get? (childrenOf h p) (h.node n).label = some n) :
    unlink (takenOut h V) n = .ok (takenOut h (V ++ [n])) := by
  have hin : ∀ p k c, (k, c) ∈ (h.node p).children → (h.node c).label = k ∧ (h.node c).parent = some p := by
    intro p k c hm
    have hlt : p < h.length := by
      apply Nat.lt_of_not_le
      intro hle
      rw [show h.node p = default from by unfold Heap.node; rw [List.getElem?_eq_none hle]; rfl] at hm
      cases hm
    exact (hl p hlt k c ((Dict.get?_eq_some_iff (hw p) _ _).2 hm)).2
  have hVc : V.contains n = false := by
    rw [Bool.eq_false_iff]
    intro hc
    exact hV (List.contains_iff_mem.1 hc)
  have hcon : ∀ x, (V ++ [n]).contains x = (V.contains x || x == n) := by
    intro x
    rw [Bool.eq_iff_iff]
    simp [List.contains_iff_mem]
  have hlen : n < (takenOut h V).length := by rw [takenOut_length]; exact hn
  have hpar : ((takenOut h V).node n).parent = (h.node n).parent := by rw [takenOut_node]; simp only [hVc]; rfl
  have hlab : ((takenOut h V).node n).label = (h.node n).label := by rw [takenOut_node]
  -- what the nodes are afterwards
  have hgoal : ∀ (H : Heap), H.length = h.length →
      (∀ i, H.node i = { h.node i with children := (h.node i).children.filter (fun kc => !(V.contains kc.2 || kc.2 == n)),
                                        parent := if V.contains i || i == n then none else (h.node i).parent }) → H = takenOut h (V ++ [n]) := by
    intro H hlen hnode
    apply List.ext_getElem?
    intro i
    by_cases hi : i < h.length
    · rw [node_eq_of_lt (by omega), node_eq_of_lt (by rw [takenOut_length]; exact hi), hnode, takenOut_node]
      simp only [hcon]
    · rw [List.getElem?_eq_none (by omega), List.getElem?_eq_none (by rw [takenOut_length]; omega)]
  unfold unlink
  rw [hpar]
  cases hpn : (h.node n).parent with
  | none =>
    simp only
    congr 1
    refine hgoal _ (by simp [Heap.upd, takenOut_length]) (fun i => ?_)
    rw [node_upd _ _ _ _ hlen, takenOut_node]
    have hf : (h.node i).children.filter (fun kc => !(V.contains kc.2 || kc.2 == n)) = (h.node i).children.filter (fun kc => !V.contains kc.2) := by
      apply List.filter_congr
      intro kc hkc
      have : kc.2 ≠ n := by
        intro e
        have := (hin i kc.1 kc.2 hkc).2
        rw [e, hpn] at this
        cases this
      simp [this]
    rw [hf]
    by_cases e : n = i
    · subst e; simp
    · rw [if_neg e]
      have : (i == n) = false := by simpa using fun h => e h.symm
      simp [this]
  | some p =>
    simp only
    have hget := hp p hpn
    have hmem : ((h.node n).label, n) ∈ (h.node p).children := Dict.mem_of_get?_eq_some hget
    have hkids : ((takenOut h V).node p).children = (h.node p).children.filter (fun kc => !V.contains kc.2) := by rw [takenOut_node]
    have hmem' : ((h.node n).label, n) ∈ ((takenOut h V).node p).children := by
      rw [hkids]
      exact List.mem_filter.2 ⟨hmem, by rw [hVc]; rfl⟩
    have hwf' : Dict.WF ((takenOut h V).node p).children := by
      rw [hkids]
      exact ((hw p).sublist ((List.filter_sublist).map _) :)
    rw [if_neg (by
      intro he
      rw [List.isEmpty_iff.1 he] at hmem'
      cases hmem'), hlab]
    unfold delItem
    rw [(Dict.get?_eq_some_iff hwf' _ _).2 hmem']
    simp only
    congr 1
    have hplt : p < h.length := by
      apply Nat.lt_of_not_le
      intro hle
      rw [show h.node p = default from by unfold Heap.node; rw [List.getElem?_eq_none hle]; rfl] at hmem
      cases hmem
    refine hgoal _ (by simp [Heap.upd, takenOut_length]) (fun i => ?_)
    rw [node_upd _ _ _ _ (by simpa [Heap.upd] using hlen), node_upd _ _ _ _ (by rw [takenOut_length]; exact hplt)]
    have hdel : Dict.del ((takenOut h V).node p).children (h.node n).label = (h.node p).children.filter (fun kc => !(V.contains kc.2 || kc.2 == n)) := by
      rw [del_eq_filter _ hwf', hkids, List.filter_filter]
      apply List.filter_congr
      intro kc hkc
      have hiff : kc.1 = (h.node n).label ↔ kc.2 = n := by
        constructor
        · intro e
          have h1 := (Dict.get?_eq_some_iff (hw p) kc.1 kc.2).2 hkc
          rw [e] at h1
          have h2 : some n = some kc.2 := hget.symm.trans h1
          cases h2; rfl
        · intro e
          rw [← (hin p kc.1 kc.2 hkc).1, e]
      by_cases e : kc.2 = n
      · simp [e, hiff.2 e]
      · have : ¬ kc.1 = (h.node n).label := fun h => e (hiff.1 h)
        simp [e, this]
    have hother : i ≠ p → (h.node i).children.filter (fun kc => !(V.contains kc.2 || kc.2 == n)) = (h.node i).children.filter (fun kc => !V.contains kc.2) := by
      intro hip
      apply List.filter_congr
      intro kc hkc
      have : kc.2 ≠ n := by
        intro e
        have := (hin i kc.1 kc.2 hkc).2
        rw [e, hpn] at this
        cases this
        exact hip rfl
      simp [this]
    by_cases e : n = i
    · subst e
      rw [if_pos rfl]
      by_cases e2 : p = n
      · subst e2
        rw [if_pos rfl, hdel, takenOut_node]; simp
      · rw [if_neg e2, takenOut_node, hother (fun h => e2 h.symm)]; simp
    · rw [if_neg e]
      have hin' : (i == n) = false := by simpa using fun h => e h.symm
      by_cases e2 : p = i
      · subst e2
        rw [if_pos rfl, hdel, takenOut_node]; simp [hin']
      · rw [if_neg e2, takenOut_node, hother (fun h => e2 h.symm)]; simp [hin']

theorem preLoop_after (h : Heap) : ∀ (fuel : Nat) (stack ns : List Nat), preLoop h fuel stack = some ns →
    (∀ x ∈ stack, x ∈ ns) ∧ ∀ i (hi : i < ns.length), ∀ c ∈ Dict.values (h.node ns[i]).children, c ∈ ns.drop (i + 1) := by
  intro fuel
  induction fuel with
  | zero => intro stack ns e; cases e
  | succ fuel ih =>
    intro stack ns e
    cases stack with
    | nil => simp only [preLoop] at e; cases e; exact ⟨fun x hx => (by cases hx), fun i hi => (by simp at hi)⟩
    | cons r stack =>
      simp only [preLoop] at e
      obtain ⟨ns', h2, h3⟩ := Option.map_eq_some_iff.1 e
      subst h3
      obtain ⟨g1, g2⟩ := ih _ _ h2
      refine ⟨fun x hx => ?_, fun i hi c hc => ?_⟩
      · rcases List.mem_cons.1 hx with e | hx
        · subst e; simp
        · exact List.mem_cons_of_mem _ (g1 x (List.mem_append_right _ hx))
      · cases i with
        | zero => exact g1 c (List.mem_append_left _ (List.mem_reverse.2 hc))
        | succ i => exact g2 i (Nat.lt_of_succ_lt_succ hi) c hc

theorem bfsLoop_after (shuffle : Nat → List Nat → List Nat) (hs : ∀ n l, (shuffle n l).Perm l) (h : Heap) : ∀ (fuel n : Nat) (frontier next ns : List Nat), frontier ≠ [] ∨ next = [] →
    bfsLoop shuffle h fuel n frontier next = some ns →
    (∀ x ∈ frontier ++ next, x ∈ ns) ∧ ∀ i (hi : i < ns.length), ∀ c ∈ Dict.values (h.node ns[i]).children, c ∈ ns.drop (i + 1) := by
  intro fuel
  induction fuel with
  | zero => intro n frontier next ns _ e; cases e
  | succ fuel ih =>
    intro n frontier next ns hne e
    cases frontier with
    | nil =>
      simp only [bfsLoop] at e; cases e
      rcases hne with hne | hne
      · exact absurd rfl hne
      · subst hne
        exact ⟨fun x hx => (by cases hx), fun i hi => (by simp at hi)⟩
    | cons r frontier =>
      simp only [bfsLoop] at e
      split at e
      · rename_i hf
        obtain ⟨ns', h2, h3⟩ := Option.map_eq_some_iff.1 e
        subst h3
        obtain ⟨g1, g2⟩ := ih _ _ _ _ (.inr rfl) h2
        have g1' : ∀ x ∈ next ++ Dict.values (h.node r).children, x ∈ ns' := by
          intro x hx
          apply g1 x
          rw [List.append_nil, List.mem_reverse]
          exact (hs _ _).mem_iff.2 hx
        have hf' := List.isEmpty_iff.1 hf
        subst hf'
        refine ⟨fun x hx => ?_, fun i hi c hc => ?_⟩
        · rcases List.mem_cons.1 hx with e | hx
          · subst e; simp
          · exact List.mem_cons_of_mem _ (g1' x (List.mem_append_left _ hx))
        · cases i with
          | zero => exact g1' c (List.mem_append_right _ hc)
          | succ i => exact g2 i (Nat.lt_of_succ_lt_succ hi) c hc
      · rename_i hf
        obtain ⟨ns', h2, h3⟩ := Option.map_eq_some_iff.1 e
        subst h3
        obtain ⟨g1, g2⟩ := ih _ _ _ _ (.inl (by simpa using hf)) h2
        refine ⟨fun x hx => ?_, fun i hi c hc => ?_⟩
        · rcases List.mem_cons.1 hx with e | hx
          · subst e; simp
          · apply List.mem_cons_of_mem
            apply g1
            rw [← List.append_assoc]
            exact List.mem_append_left _ hx
        · cases i with
          | zero => exact g1 c (List.mem_append_right _ (List.mem_append_right _ hc))
          | succ i => exact g2 i (Nat.lt_of_succ_lt_succ hi) c hc

theorem takenOut_children (h : Heap) (V : List Nat) (n : Nat) (hc : ∀ c ∈ Dict.values (h.node n).children, c ∉ V) : childrenOf (takenOut h V) n = childrenOf h n := by
  unfold childrenOf
  rw [takenOut_node]
  apply List.filter_eq_self.2
  intro kc hkc
  have := hc kc.2 (List.mem_map.2 ⟨kc, hkc, rfl⟩)
  rw [Bool.not_eq_true', Bool.eq_false_iff]
  exact fun h => this (List.contains_iff_mem.1 h)

/-- The loop that unlinks the nodes that a walk yields. -/
theorem forWalk_unlink {γ : Type} (next : Heap → γ → Option (Option Nat × γ)) (h : Heap) (hl : LinksOk h) (hw : ∀ p, Dict.WF (childrenOf h p)) (ns : List Nat) (hn : ns.Nodup)
    (hlt : ∀ n ∈ ns, n < h.length) (hp : ∀ n ∈ ns, ∀ p, (h.node n).parent = some p → Dict.get? (childrenOf h p) (h.node n).label = some n) (g : γ) (F : Nat) (hF : ns.length < F)
    (hy : ∀ i, yieldAt next (fun i => takenOut h (ns.take i)) g i = some ns[i]?) :
    forWalk next unlink F h g = some (.ok (takenOut h ns)) := by
  have := forWalk_heaps next unlink ns (fun i => takenOut h (ns.take i)) g F hy (fun i hi => by
    have hm : ns[i] ∈ ns := List.getElem_mem hi
    show unlink (takenOut h (ns.take i)) ns[i] = .ok (takenOut h (ns.take (i + 1)))
    rw [List.take_succ_eq_append_getElem hi]
    refine unlink_takenOut h hl hw _ _ (hlt _ hm) ?_ (hp _ hm)
    intro hmem
    obtain ⟨j, hj, e⟩ := List.mem_take_iff_getElem.1 hmem
    have := (List.Nodup.getElem_inj_iff hn).1 e
    omega) hF
  simpa [takenOut_nil] using this

theorem child_mem_refs (t : ATree) : ∀ s ∈ t.subs, ∀ kt ∈ s.kids.items, kt.2.ref ∈ t.refs := by
  induction t using ATree.ind with
  | h r l a k ih =>
    intro s hs kt hkt
    rw [ATree.subs_node] at hs
    rw [ATree.refs_node]
    apply List.mem_cons_of_mem
    rcases List.mem_cons.1 hs with rfl | hs
    · exact List.mem_flatMap.2 ⟨kt, hkt, kt.2.ref_mem_refs⟩
    · obtain ⟨kt', hkt', hs⟩ := List.mem_flatMap.1 hs
      exact List.mem_flatMap.2 ⟨kt', hkt', ih kt' hkt' s hs kt hkt⟩

theorem refs_root_or_child (t : ATree) : ∀ x ∈ t.refs, x = t.ref ∨ ∃ s ∈ t.subs, ∃ kt ∈ s.kids.items, kt.2.ref = x := by
  induction t using ATree.ind with
  | h r l a k ih =>
    intro x hx
    rw [ATree.refs_node] at hx
    rcases List.mem_cons.1 hx with rfl | hx
    · exact .inl rfl
    · obtain ⟨kt, hkt, hx⟩ := List.mem_flatMap.1 hx
      refine .inr ?_
      rcases ih kt hkt x hx with e | ⟨s, hs, kt', hkt', e⟩
      · exact ⟨_, ATree.mem_subs_self _, kt, hkt, e.symm⟩
      · refine ⟨s, ?_, kt', hkt', e⟩
        rw [ATree.subs_node]
        exact List.mem_cons_of_mem _ (List.mem_flatMap.2 ⟨kt, hkt, hs⟩)

/-- A child of a node of the tree: its parent and label. -/
theorem child_links {h : Heap} {t : ATree} (ht : IsTree h t) (hl : LinksOk h) (hw : ∀ p, Dict.WF (childrenOf h p)) {s : ATree} (hs : s ∈ t.subs) {kt : Str × ATree} (hkt : kt ∈ s.kids.items) :
    Dict.get? (childrenOf h s.ref) (h.node kt.2.ref).label = some kt.2.ref ∧ (h.node kt.2.ref).parent = some s.ref := by
  have hr := ht.rep.of_mem_subs t s hs
  have hm : (kt.1, kt.2.ref) ∈ childrenOf h s.ref := by
    unfold childrenOf
    rw [hr.lookup.2.1]
    exact List.mem_map.2 ⟨kt, hkt, rfl⟩
  have hg := (Dict.get?_eq_some_iff (hw s.ref) _ _).2 hm
  obtain ⟨_, h2, h3⟩ := hl s.ref hr.lt _ _ hg
  exact ⟨by rw [h2]; exact hg, h3⟩

/-- C147: a loop over a walk of a tree in which every node is unlinked raises nothing, in any of the three orders, and takes out all nodes of the tree.  The hypothesis about the root: if it has a
parent, it is a child of it. -/
theorem C147_dismantle (shuffle : Nat → List Nat → List Nat) (hs : ∀ n l, (shuffle n l).Perm l) (h : Heap) (t : ATree) (ht : IsTree h t) (hl : LinksOk h)
    (hw : ∀ p, Dict.WF (childrenOf h p)) (hroot : ∀ p, (h.node t.ref).parent = some p → Dict.get? (childrenOf h p) (h.node t.ref).label = some t.ref) (F : Nat) (hF : 2 * t.size < F) :
    forPre unlink F h t.ref = some (.ok (takenOut h t.refs)) ∧ forBfs shuffle unlink F h t.ref = some (.ok (takenOut h t.refs)) ∧
    forPost unlink F h t.ref = some (.ok (takenOut h t.refs)) := by
  have hpar : ∀ n ∈ t.refs, ∀ p, (h.node n).parent = some p → Dict.get? (childrenOf h p) (h.node n).label = some n := by
    intro n hn p hp
    rcases refs_root_or_child t n hn with e | ⟨s, hs, kt, hkt, e⟩
    · subst e; exact hroot p hp
    · subst e
      obtain ⟨h1, h2⟩ := child_links ht hl hw hs hkt
      rw [h2] at hp
      cases hp
      exact h1
  have after : ∀ (ns : List Nat), ns.Nodup → ∀ i, i < ns.length → ∀ c ∈ ns.drop (i + 1), c ∉ ns.take (i + 1) := by
    intro ns hn i _ c hc hc'
    have := List.take_append_drop (i + 1) ns
    rw [← this] at hn
    exact (List.nodup_append.1 hn).2.2 c hc' c hc rfl
  have key : ∀ {γ : Type} (next : Heap → γ → Option (Option Nat × γ)) (g : γ) (ns : List Nat), ns.Perm t.refs → ns.Nodup →
      (∀ i, yieldAt next (fun i => takenOut h (ns.take i)) g i = some ns[i]?) → forWalk next unlink F h g = some (.ok (takenOut h t.refs)) := by
    intro γ next g ns hp hn hy
    have hlen : ns.length = t.size := by
      rw [hp.length_eq]
      simp [ATree.refs, ATree.size]
    rw [forWalk_unlink next h hl hw ns hn (fun n hm => ht.rep.refs_lt n (hp.mem_iff.1 hm)) (fun n hm => hpar n (hp.mem_iff.1 hm)) g F (by omega) hy]
    rw [takenOut_congr h (fun x => hp.mem_iff)]
  refine ⟨?_, ?_, ?_⟩
  · obtain ⟨ns, h1, h2, h3, _⟩ := C46_preorder h t ht F (by omega)
    refine key _ _ ns h2 h3 ?_
    refine (C147_preorder h _ t.ref ns (fun i hi => ?_)).2 (preLoop_exact h F _ _ h1)
    exact takenOut_children h _ _ (fun c hc => after ns h3 i hi c ((preLoop_after h F _ _ h1).2 i hi c hc))
  · obtain ⟨parts, h1, _, h2, h3⟩ := C48_breadth_first shuffle hs h t ht F (by omega)
    refine key _ _ parts.flatten h2 h3 ?_
    refine (C147_breadth_first shuffle h _ t.ref _ (fun i hi => ?_)).2 (bfsLoop_exact shuffle h F _ _ _ _ h1)
    exact takenOut_children h _ _ (fun c hc => after _ h3 i hi c ((bfsLoop_after shuffle hs h F _ _ _ _ (.inr rfl) h1).2 i hi c hc))
  · obtain ⟨ns, h1, h2, h3, _⟩ := C47_postorder h t ht F hF
    refine key _ _ ns h2 h3 ?_
    refine C147_postorder h _ t.ref F ns h1 h3 (fun i n hn => ?_)
    refine takenOut_children h _ n (fun c hc hc' => ?_)
    obtain ⟨k, hk⟩ := mem_values_iff.1 hc
    exact hn c hc' ⟨[k], .step hk (.here c)⟩

/-- C147: afterwards the nodes of the tree have no children and no parents, with the labels and attributes that they had; every other node is as before, except that
the former parent of the root no longer has it as child. -/
theorem C147_apart (h : Heap) (t : ATree) (ht : IsTree h t) (hl : LinksOk h) (hw : ∀ p, Dict.WF (childrenOf h p)) :
    (∀ s ∈ t.subs, (takenOut h t.refs).node s.ref = ⟨s.label, [], s.attrib, none⟩) ∧
    (∀ y, y ∉ t.refs → (takenOut h t.refs).node y = { h.node y with children := (childrenOf h y).filter (fun kc => kc.2 ≠ t.ref) }) ∧
    (takenOut h t.refs).length = h.length := by
  refine ⟨fun s hs => ?_, fun y hy => ?_, takenOut_length h _⟩
  · have hr := ht.rep.of_mem_subs t s hs
    obtain ⟨h1, h2, h3⟩ := hr.lookup
    have hm : t.refs.contains s.ref = true := List.contains_iff_mem.2 (List.mem_map_of_mem hs)
    rw [takenOut_node]; simp only; rw [h1, h2, h3, hm]
    have : s.kids.dict.filter (fun kc => !t.refs.contains kc.2) = [] := by
      apply List.filter_eq_nil_iff.2
      intro kc hkc
      obtain ⟨kt, hkt, e⟩ := List.mem_map.1 hkc
      subst e
      have := List.contains_iff_mem.2 (child_mem_refs t s hs kt hkt)
      rw [this]; simp
    rw [this]; rfl
  · have hm : t.refs.contains y = false := by
      rw [Bool.eq_false_iff]
      exact fun h => hy (List.contains_iff_mem.1 h)
    rw [takenOut_node, hm]
    have : (h.node y).children.filter (fun kc => !t.refs.contains kc.2) = (childrenOf h y).filter (fun kc => kc.2 ≠ t.ref) := by
      apply List.filter_congr
      intro kc hkc
      by_cases e : kc.2 = t.ref
      · have := List.contains_iff_mem.2 (e ▸ t.ref_mem_refs : kc.2 ∈ t.refs)
        rw [this]; simp [e]
      · have : t.refs.contains kc.2 = false := by
          rw [Bool.eq_false_iff]
          intro hc
          rcases refs_root_or_child t kc.2 (List.contains_iff_mem.1 hc) with e' | ⟨s, hs, kt, hkt, e'⟩
          · exact e e'
          · have h2 := (child_links ht hl hw hs hkt).2
            have hlt : y < h.length := by
              apply Nat.lt_of_not_le
              intro hle
              rw [show h.node y = default from by unfold Heap.node; rw [List.getElem?_eq_none hle]; rfl] at hkc
              cases hkc
            have h3 := (hl y hlt kc.1 kc.2 ((Dict.get?_eq_some_iff (hw y) _ _).2 hkc)).2.2
            rw [← e', h2] at h3
            cases h3
            exact hy (List.mem_map_of_mem hs)
        rw [this]; simp [e]
    rw [this]; rfl

/-! ### The loops of `TreeDist` and `prune` -/

theorem setAttr_childrenOf (h : Heap) (r : Nat) (k : AKey) (v : AVal) (m : Nat) : childrenOf (setAttr h r k v) m = childrenOf h m := by
  unfold childrenOf setAttr
  by_cases hr : r < h.length
  · rw [node_upd _ _ _ _ hr]
    split <;> rfl
  · have : h.upd r (fun n => { n with attrib := Dict.set n.attrib k v }) = h := by
      unfold Heap.upd
      exact List.modify_eq_self (by omega)
    rw [this]

theorem countNode_childrenOf (ar : Arith) (m : CountMethod) (h : Heap) (n : Nat) (h' : Heap) (e : countNode ar m h n = .ok h') (x : Nat) : childrenOf h' x = childrenOf h x := by
  unfold countNode at e
  simp only [bind, Except.bind] at e
  repeat' split at e
  all_goals first | cases e | skip
  rw [setAttr_childrenOf, setAttr_childrenOf]

theorem freqNode_childrenOf (ar : Arith) (total : ℚ) (h : Heap) (n : Nat) (h' : Heap) (e : freqNode ar total h n = .ok h') (x : Nat) : childrenOf h' x = childrenOf h x := by
  unfold freqNode at e
  simp only [bind, Except.bind] at e
  repeat' split at e
  all_goals first | cases e | skip
  rw [setAttr_childrenOf]

theorem countAll_fold (ar : Arith) (m : CountMethod) : ∀ (ns : List Nat) (h : Heap), ns.foldlM (countNode ar m) h = countAll ar m h ns := by
  intro ns
  induction ns with
  | nil => intro h; rfl
  | cons n ns ih =>
    intro h
    rw [List.foldlM_cons]
    unfold countAll
    congr 1
    funext h'
    exact ih h'

theorem freqAll_fold (ar : Arith) (total : ℚ) : ∀ (ns : List Nat) (h : Heap), ns.foldlM (freqNode ar total) h = freqAll ar total h ns := by
  intro ns
  induction ns with
  | nil => intro h; rfl
  | cons n ns ih =>
    intro h
    rw [List.foldlM_cons]
    unfold freqAll freqNode
    simp only [bind, Except.bind]
    cases getAttr h n (.str u!"cum_count") with
    | error e => rfl
    | ok v =>
      simp only
      cases divVal ar v total with
      | error e => rfl
      | ok f => exact ih _

/-- C147 for `TreeDist`: its two loops, which set attributes while the walks are under way, do what they would do to the nodes of walks made beforehand. -/
theorem C147_tree_dist (ar : Arith) (m : CountMethod) (total : ℚ) (h : Heap) (r fuel : Nat) (post pre : List Nat) :
    (walkPost h fuel r = some post → post.Nodup → forPost (countNode ar m) fuel h r = some (countAll ar m h post)) ∧
    (walkPre h fuel r = some pre → forPre (freqNode ar total) fuel h r = some (freqAll ar total h pre)) := by
  refine ⟨fun hw hn => ?_, fun hw => ?_⟩
  · rw [← countAll_fold]
    exact (C147_attributes (fun _ l => l) (countNode ar m) (countNode_childrenOf ar m) h r fuel fuel post).2.2 hw hn (Nat.le_refl _)
  · rw [← freqAll_fold]
    exact (C147_attributes (fun _ l => l) (freqNode ar total) (freqNode_childrenOf ar total) h r fuel fuel pre).1 hw (Nat.le_refl _)

theorem postNext_more (h : Heap) : ∀ (K : Nat) (stack : List (Nat × Bool)) (x : Option Nat × List (Nat × Bool)), postNext h K stack = some x → ∀ K', K ≤ K' → postNext h K' stack = some x := by
  intro K
  induction K with
  | zero => intro stack x e; cases e
  | succ K ih =>
    intro stack x e K' hK
    obtain ⟨K'', rfl⟩ : ∃ K'', K' = K'' + 1 := ⟨K' - 1, by omega⟩
    cases stack with
    | nil => exact e
    | cons s stack =>
      obtain ⟨r, v⟩ := s
      simp only [postNext] at e ⊢
      split
      · rename_i hc; rw [if_pos hc] at e; exact e
      · rename_i hc; rw [if_neg hc] at e; exact ih _ _ e _ (by omega)

theorem forPost_more (body : Heap → Nat → Except PyErr Heap) (K K' : Nat) (hK : K ≤ K') : ∀ (F : Nat) (h : Heap) (stack : List (Nat × Bool)) (res : Except PyErr Heap),
    forWalk (fun h g => postNext h K g) body F h stack = some res → ∀ F', F ≤ F' → forWalk (fun h g => postNext h K' g) body F' h stack = some res := by
  intro F
  induction F with
  | zero => intro h stack res e; cases e
  | succ F ih =>
    intro h stack res e F' hF
    obtain ⟨F'', rfl⟩ : ∃ F'', F' = F'' + 1 := ⟨F' - 1, by omega⟩
    unfold forWalk at e ⊢
    cases hn : postNext h K stack with
    | none => rw [hn] at e; cases e
    | some x =>
      rw [hn] at e
      rw [postNext_more h K stack x hn K' hK]
      obtain ⟨o, st⟩ := x
      cases o with
      | none => exact e
      | some r =>
        simp only at e ⊢
        cases hb : body h r with
        | error er => rw [hb] at e; exact e
        | ok h' => rw [hb] at e; exact ih _ _ _ e _ (by omega)

/-- C147 for `prune`: its loop is a loop over the walk in post-order, which sees the heap as changed so far. -/
theorem C147_prune (p : Str → Attrib → Bool) (h : Heap) (r fuel : Nat) (res : Except PyErr Heap) (e : pruneLoop p fuel h [(r, false)] = some res) (F : Nat) (hF : fuel ≤ F) :
    forPost (pruneNode p) F h r = some res := by
  have key : ∀ (fuel : Nat) (h : Heap) (stack : List (Nat × Bool)) (res : Except PyErr Heap), pruneLoop p fuel h stack = some res →
      forWalk (fun h g => postNext h fuel g) (pruneNode p) fuel h stack = some res := by
    intro fuel
    induction fuel with
    | zero => intro h stack res e; cases e
    | succ fuel ih =>
      intro h stack res e
      cases stack with
      | nil => exact e
      | cons s stack =>
        obtain ⟨r, v⟩ := s
        simp only [pruneLoop] at e
        by_cases hc : (v || ((h.node r).children).isEmpty) = true
        · rw [if_pos hc] at e
          unfold forWalk
          simp only [postNext, if_pos hc]
          unfold pruneNode
          by_cases hk : (!((h.node r).children).isEmpty || p (h.node r).label (h.node r).attrib) = true
          · rw [if_pos hk] at e ⊢
            exact forPost_more _ fuel _ (Nat.le_succ _) fuel _ _ _ (ih _ _ _ e) _ (Nat.le_refl _)
          · rw [if_neg hk] at e ⊢
            cases hu : unlink h r with
            | error er => rw [hu] at e; exact e
            | ok h' =>
              rw [hu] at e
              exact forPost_more _ fuel _ (Nat.le_succ _) fuel _ _ _ (ih _ _ _ e) _ (Nat.le_refl _)
        · rw [if_neg hc] at e
          have h1 := forPost_more _ fuel _ (Nat.le_succ _) fuel _ _ _ (ih _ _ _ e) _ (Nat.le_succ _)
          have h2 := ih _ _ _ e
          unfold forWalk
          simp only [postNext, if_neg hc]
          cases fuel with
          | zero => cases h2
          | succ fuel =>
            unfold forWalk at h1 h2
            generalize hst : (Dict.values (h.node r).children).reverse.map (·, false) ++ (r, true) :: stack = st at h1 h2 ⊢
            cases hn : postNext h (fuel + 1) st with
            | none => rw [hn] at h2; cases h2
            | some x =>
              rw [postNext_more h _ st x hn _ (Nat.le_succ _)] at h1
              exact h1
  exact forPost_more _ fuel F hF fuel _ _ _ (key fuel h _ res e) F hF

/-! ### Cases that meet the hypotheses -/

/-- Three nodes: a root with two children. -/
def walkHeap : Heap := [⟨u!"r", [(u!"a", 1), (u!"b", 2)], [], none⟩, ⟨u!"a", [], [(.str u!"x", .num 1)], some 0⟩, ⟨u!"b", [], [], some 0⟩]

/-- The tree on it. -/
def walkTree : ATree := .node 0 u!"r" [] (.cons u!"a" (.node 1 u!"a" [(.str u!"x", .num 1)] .nil) (.cons u!"b" (.node 2 u!"b" [] .nil) .nil))

example : IsTree walkHeap walkTree ∧ LinksOk walkHeap := by
  refine ⟨⟨⟨⟨none, rfl⟩, ⟨⟨some 0, rfl⟩, trivial⟩, ⟨⟨some 0, rfl⟩, trivial⟩, trivial⟩, by decide, ?_⟩, ?_⟩
  · refine ⟨by decide, ⟨by decide, trivial⟩, ⟨by decide, trivial⟩, trivial⟩
  · intro p hp l c hg
    have hp' : p < 3 := hp
    have h3 : p = 0 ∨ p = 1 ∨ p = 2 := by omega
    rcases h3 with rfl | rfl | rfl
    · simp only [walkHeap, Heap.node, List.getElem?_cons_zero, Option.getD_some, Dict.get?] at hg
      split at hg
      · rename_i e; cases hg; exact ⟨by decide, e, rfl⟩
      · split at hg
        · rename_i e; cases hg; exact ⟨by decide, e, rfl⟩
        · cases hg
    · cases hg
    · cases hg

example : forPre unlink 9 walkHeap 0 = some (.ok [⟨u!"r", [], [], none⟩, ⟨u!"a", [], [(.str u!"x", .num 1)], none⟩, ⟨u!"b", [], [], none⟩]) := by rfl
/-- Clearing the children of the root while the walk is at it: nothing else is visited. -/
example : ∀ i, yieldAt (fun h g => some (PreWalk.next h g)) (fun i => if i = 0 then walkHeap else walkHeap.set 0 ⟨u!"r", [], [], none⟩) (.start 0) i = some [0][i]? :=
  (C147_preorder [⟨u!"r", [], [], none⟩] _ 0 [0] (fun i hi => by
    have : i = 0 := by simpa using hi
    subst this
    rfl)).2 rfl

end Cjk
