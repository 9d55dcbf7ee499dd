import Verif.Props.TatoebaLinks
/-!
# When the link groups are the connected components (C59, exact condition)

`C59_components_partial` needs the hypothesis that no accepted link joins two ids that occurred before in different components.  Here:
the hypothesis is also necessary.  As soon as one such link has been read, two of the groups returned by `groups()` have a common member, whatever
is read later, because a group never loses a member.
-/

namespace Cjk
open Py

/-- A group never loses a member. -/
theorem linkAdd_group_mono {d : LinkData} (p : Int × Int) {n : Nat} {g : List Int} {i : Int}
    (hg : Dict.get? d.group n = some g) (hi : i ∈ g) : ∃ g', Dict.get? (linkAdd d p).group n = some g' ∧ i ∈ g' := by
  have key : ∀ (nodes node : Nat) (new : List Int),
      ∃ g', Dict.get? (linkEnter { d with nodes := nodes } node new).group n = some g' ∧ i ∈ g' := by
    intro nodes node new
    rw [linkEnter_group]
    by_cases h : node = n
    · subst h
      refine ⟨_, by rw [if_pos rfl], ?_⟩
      rw [setUnion_mem]
      left
      simpa [hg] using hi
    · exact ⟨g, by rw [if_neg h]; exact hg, hi⟩
  unfold linkAdd
  split
  · exact key d.nodes _ _
  · split
    · exact key d.nodes _ _
    · exact key _ _ _

theorem linkFold_group_mono (ls : List (Int × Int)) : ∀ {d : LinkData} {n : Nat} {g : List Int}
    {i : Int}, Dict.get? d.group n = some g → i ∈ g → ∃ g', Dict.get? (ls.foldl linkAdd d).group n = some g' ∧ i ∈ g' := by
  induction ls with
  | nil => intro d n g i hg hi; exact ⟨g, hg, hi⟩
  | cons p ls ih =>
    intro d n g i hg hi
    obtain ⟨g', hg', hi'⟩ := linkAdd_group_mono p hg hi
    exact ih hg' hi'

/-- Either no link merges two components, or there is a first one that does. -/
theorem neverMerges_or_first (ls : List (Int × Int)) : Spec.NeverMerges ls ∨ ∃ before p after, ls = before ++ p :: after ∧
    Spec.NeverMerges before ∧ Spec.Occurs before p.1 ∧ Spec.Occurs before p.2 ∧ ¬ Spec.Linked before p.1 p.2 := by
  have key : ∀ (rest done : List (Int × Int)), Spec.NeverMerges done →
      Spec.NeverMerges (done ++ rest) ∨ ∃ before p after, done ++ rest = before ++ p :: after ∧
        Spec.NeverMerges before ∧ Spec.Occurs before p.1 ∧ Spec.Occurs before p.2 ∧ ¬ Spec.Linked before p.1 p.2 := by
    intro rest
    induction rest with
    | nil => intro done h; left; simpa using h
    | cons p rest ih =>
      intro done h
      by_cases hp : Spec.Occurs done p.1 → Spec.Occurs done p.2 → Spec.Linked done p.1 p.2
      · have h' : Spec.NeverMerges (done ++ [p]) := by
          intro before q after he
          rcases List.eq_nil_or_concat after with rfl | ⟨after', x, rfl⟩
          · obtain ⟨rfl, h2⟩ := List.append_inj' he rfl
            simp only [List.cons.injEq, and_true] at h2
            subst h2
            exact hp
          · have he' : done ++ [p] = (before ++ q :: after') ++ [x] := by rw [he]; simp
            obtain ⟨h1, _⟩ := List.append_inj' he' rfl
            exact h before q after' h1
        have := ih (done ++ [p]) h'
        simpa using this
      · right
        refine ⟨done, p, rest, rfl, h, ?_⟩
        by_cases h1 : Spec.Occurs done p.1
        · by_cases h2 : Spec.Occurs done p.2
          · exact ⟨h1, h2, fun h3 => hp (fun _ _ => h3)⟩
          · exact absurd (fun _ h => absurd h h2) hp
        · exact absurd (fun h => absurd h h1) hp
  have h0 : Spec.NeverMerges [] := by
    intro before p after h
    simp at h
  simpa using key ls [] h0

section
variable {src : Str} {rows : Rows} {subset : Option (List Int)} {name : Str} {fn : Spec.FilterName} {r : LinkReader}

/-- C59: the groups returned by `groups()` are disjoint exactly if no accepted link joins two ids that both occurred before and were
not connected before. -/
theorem C59_disjoint_iff (hn : asciiLower name = fn.text) (h : LinkReader.new src rows subset name = .ok r) :
    r.data.groups.Pairwise (fun g g' => ∀ i ∈ g, i ∉ g') ↔ Spec.NeverMerges (Spec.links subset fn rows.1) := by
  constructor
  · intro hd
    rcases neverMerges_or_first (Spec.links subset fn rows.1) with hm | ⟨before, p, after, he, hm, o1, o2, hl⟩
    · exact hm
    · exfalso
      have inv := linkInv_all (Spec.links subset fn rows.1)
      rw [linkReader_new hn h] at hd
      have invb := linkInv_all before
      obtain ⟨n1, h1⟩ := Option.isSome_iff_exists.1 ((invb.occurs _).1 o1)
      obtain ⟨n2, h2⟩ := Option.isSome_iff_exists.1 ((invb.occurs _).1 o2)
      obtain ⟨g2, hg2, q, _, hq, e1, e2⟩ := invb.home _ _ h2
      have m2 : p.2 ∈ g2 := by rcases hq with hq | hq <;> (rw [hq]; assumption)
      obtain ⟨g1, hg1, q, _, hq, e1, e2⟩ := invb.home _ _ h1
      have m1 : p.1 ∈ g1 := by rcases hq with hq | hq <;> (rw [hq]; assumption)
      have hne : n1 ≠ n2 := by
        rintro rfl
        rw [hg1] at hg2
        simp only [Option.some.injEq] at hg2
        subst hg2
        exact hl ((invb.members _ _ hg1).2.2.2.2 _ m1 _ m2)
      have hadd : ∃ g, Dict.get? (linkAdd (before.foldl linkAdd ⟨[], [], 0⟩) p).group n1 = some g ∧ p.2 ∈ g := by
        generalize before.foldl linkAdd ⟨[], [], 0⟩ = d at h1
        unfold linkAdd
        rw [h1]
        refine ⟨_, by rw [linkEnter_group, if_pos rfl], ?_⟩
        rw [setUnion_mem]
        right
        simp
      obtain ⟨ga, hga, ma⟩ := hadd
      obtain ⟨gb, hgb, mb⟩ := linkAdd_group_mono p hg2 m2
      obtain ⟨gc, hgc, mc⟩ := linkFold_group_mono after hga ma
      obtain ⟨gd, hgd, md⟩ := linkFold_group_mono after hgb mb
      have hfold : (Spec.links subset fn rows.1).foldl linkAdd ⟨[], [], 0⟩ =
          after.foldl linkAdd (linkAdd (before.foldl linkAdd ⟨[], [], 0⟩) p) := by
        rw [he, List.foldl_append, List.foldl_cons]
      rw [← hfold] at hgc hgd
      have k1 := Dict.mem_of_get?_eq_some hgc
      have k2 := Dict.mem_of_get?_eq_some hgd
      unfold LinkData.groups Dict.values at hd
      rw [List.pairwise_map] at hd
      have hsym : ∀ ⦃a b : Nat × List Int⦄, (∀ i ∈ a.2, i ∉ b.2) → ∀ i ∈ b.2, i ∉ a.2 :=
        fun a b hab i hb ha => hab i ha hb
      have := List.Pairwise.forall_of_forall_of_flip (R := fun a b : Nat × List Int => a.1 ≠ b.1 → ∀ i ∈ a.2, i ∉ b.2)
        (l := ((Spec.links subset fn rows.1).foldl linkAdd ⟨[], [], 0⟩).group)
        (fun x _ hx => absurd rfl hx) (hd.imp (by intro a b hab _; exact hab)) (hd.imp (by intro a b hab _; exact hsym hab)) k1 k2 hne
      exact this p.2 mc md
  · intro hm
    exact (C59_components_partial hn h hm).2.2.2

/-- C59, exactly: the groups are the connected components and partition the linked ids if and only if no accepted link joins two ids
that both occurred before and were not connected before. -/
theorem C59_components_iff (hn : asciiLower name = fn.text) (h : LinkReader.new src rows subset name = .ok r) :
    ((∀ i g, r.data.groupOf i = .ok g → ∀ j, j ∈ g ↔ Spec.Linked (Spec.links subset fn rows.1) i j) ∧
      (∀ i, Spec.Occurs (Spec.links subset fn rows.1) i → ∃ g ∈ r.data.groups, i ∈ g) ∧
      (∀ g ∈ r.data.groups, g ≠ [] ∧ ∀ i ∈ g, r.data.groupOf i = .ok g) ∧
      r.data.groups.Pairwise (fun g g' => ∀ i ∈ g, i ∉ g')) ↔
    Spec.NeverMerges (Spec.links subset fn rows.1) :=
  ⟨fun hc => (C59_disjoint_iff hn h).1 hc.2.2.2, C59_components_partial hn h⟩

end

/-- Both sides occur: the file of `demoLinks_eq` above, and this one, in which the last link joins two groups. -/
example : ¬ Spec.NeverMerges [(1, 2), (3, 4), (1, 3), (1, 4)] := by
  intro h
  have hl := h [(1, 2), (3, 4)] (1, 3) [(1, 4)] rfl ⟨(1, 2), by simp, Or.inl rfl⟩ ⟨(3, 4), by simp, Or.inl rfl⟩
  have inv : ∀ i j, Spec.Linked [(1, 2), (3, 4)] i j → (i ≤ 2 ↔ j ≤ 2) := by
    intro i j hij
    induction hij with
    | step hp =>
      simp only [List.mem_cons, Prod.mk.injEq, List.not_mem_nil, or_false] at hp
      omega
    | refl => rfl
    | symm _ ih => exact ih.symm
    | trans _ _ a b => exact a.trans b
  have := (inv _ _ hl).1 (by decide)
  exact absurd this (by decide)

end Cjk
