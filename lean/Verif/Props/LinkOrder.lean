import Verif.Props.TatoebaLinksIff
import Verif.Props.FileOrder
/-!
# The order of the rows of a links file (C59)

`C59_components_iff` gives the condition under which the groups are the connected components, for the order in which the rows come.
Here: the groups do depend on the order (`C59_order_refuted`), and for which files they are right in every order
(`C59_any_order_iff`).
-/

namespace Cjk
open Py

theorem links_perm {subset : Option (List Int)} {fn : Spec.FilterName} {rows rows' : List (List Str)} (hp : rows.Perm rows') :
    (Spec.links subset fn rows).Perm (Spec.links subset fn rows') := (hp.filterMap _).filter _

/-- If no link merges two groups, two ids that occur before a link are connected after it only if they were before. -/
theorem linked_snoc {before : List (Int × Int)} {p : Int × Int}
    (hm : Spec.Occurs before p.1 → Spec.Occurs before p.2 → Spec.Linked before p.1 p.2) {a b : Int}
    (h : Spec.Linked (before ++ [p]) a b) :
    (Spec.Occurs before a ∧ Spec.Occurs before b → Spec.Linked before a b) ∧
    (¬ Spec.Occurs before a → Spec.Occurs before b → (a = p.1 ∧ Spec.Linked before p.2 b ∧ Spec.Occurs before p.2) ∨
      (a = p.2 ∧ Spec.Linked before p.1 b ∧ Spec.Occurs before p.1)) ∧
    (¬ Spec.Occurs before b → Spec.Occurs before a → (b = p.1 ∧ Spec.Linked before p.2 a ∧ Spec.Occurs before p.2) ∨
      (b = p.2 ∧ Spec.Linked before p.1 a ∧ Spec.Occurs before p.1)) ∧
    (¬ Spec.Occurs before a → ¬ Spec.Occurs before b → a = b ∨ ((a = p.1 ∨ a = p.2) ∧ (b = p.1 ∨ b = p.2) ∧
      ¬ Spec.Occurs before p.1 ∧ ¬ Spec.Occurs before p.2)) := by
  induction h with
  | @step a b hab =>
    rcases List.mem_append.1 hab with hab | hab
    · have ha : Spec.Occurs before a := ⟨_, hab, Or.inl rfl⟩
      have hb : Spec.Occurs before b := ⟨_, hab, Or.inr rfl⟩
      exact ⟨fun _ => .step hab, fun h => absurd ha h, fun h => absurd hb h, fun h => absurd ha h⟩
    · rw [List.mem_singleton] at hab
      subst hab
      exact ⟨fun h => hm h.1 h.2, fun _ h => Or.inl ⟨rfl, .refl, h⟩, fun _ h => Or.inr ⟨rfl, .refl, h⟩,
        fun h1 h2 => Or.inr ⟨Or.inl rfl, Or.inr rfl, h1, h2⟩⟩
  | refl => exact ⟨fun _ => .refl, fun h h' => absurd h' h, fun h h' => absurd h' h, fun _ _ => Or.inl rfl⟩
  | symm _ ih =>
    obtain ⟨i1, i2, i3, i4⟩ := ih
    refine ⟨fun h => .symm (i1 h.symm), i3, i2, fun h1 h2 => ?_⟩
    rcases i4 h2 h1 with h | ⟨a1, a2, a3⟩
    · exact Or.inl h.symm
    · exact Or.inr ⟨a2, a1, a3⟩
  | @trans a b c _ _ ih1 ih2 =>
    obtain ⟨i1, i2, i3, i4⟩ := ih1
    obtain ⟨j1, j2, j3, j4⟩ := ih2
    by_cases hb : Spec.Occurs before b
    · by_cases ha : Spec.Occurs before a
      · by_cases hc : Spec.Occurs before c
        · exact ⟨fun _ => .trans (i1 ⟨ha, hb⟩) (j1 ⟨hb, hc⟩), fun h => absurd ha h, fun h => absurd hc h, fun h => absurd ha h⟩
        · refine ⟨fun h => absurd h.2 hc, fun h => absurd ha h, fun _ _ => ?_, fun h => absurd ha h⟩
          rcases j3 hc hb with ⟨x, y, z⟩ | ⟨x, y, z⟩
          · exact Or.inl ⟨x, .trans y (.symm (i1 ⟨ha, hb⟩)), z⟩
          · exact Or.inr ⟨x, .trans y (.symm (i1 ⟨ha, hb⟩)), z⟩
      · by_cases hc : Spec.Occurs before c
        · refine ⟨fun h => absurd h.1 ha, fun _ _ => ?_, fun h => absurd hc h, fun _ h => absurd hc h⟩
          rcases i2 ha hb with ⟨x, y, z⟩ | ⟨x, y, z⟩
          · exact Or.inl ⟨x, .trans y (j1 ⟨hb, hc⟩), z⟩
          · exact Or.inr ⟨x, .trans y (j1 ⟨hb, hc⟩), z⟩
        · refine ⟨fun h => absurd h.1 ha, fun _ h => absurd h hc, fun _ h => absurd h ha, fun _ _ => ?_⟩
          left
          rcases i2 ha hb with ⟨x, y, z⟩ | ⟨x, y, z⟩ <;> rcases j3 hc hb with ⟨x', y', z'⟩ | ⟨x', y', z'⟩
          · rw [x, x']
          · subst x; exact absurd z' ha
          · subst x; exact absurd z' ha
          · rw [x, x']
    · by_cases ha : Spec.Occurs before a
      · by_cases hc : Spec.Occurs before c
        · refine ⟨fun _ => ?_, fun h => absurd ha h, fun h => absurd hc h, fun h => absurd ha h⟩
          rcases i3 hb ha with ⟨x, y, z⟩ | ⟨x, y, z⟩ <;> rcases j2 hb hc with ⟨x', y', z'⟩ | ⟨x', y', z'⟩
          · exact .trans (.symm y) y'
          · subst x'; exact absurd z hb
          · subst x'; exact absurd z hb
          · exact .trans (.symm y) y'
        · refine ⟨fun h => absurd h.2 hc, fun h => absurd ha h, fun _ _ => ?_, fun h => absurd ha h⟩
          rcases j4 hb hc with h | ⟨_, _, h3, h4⟩
          · subst h; exact i3 hb ha
          · rcases i3 hb ha with ⟨_, _, z⟩ | ⟨_, _, z⟩
            · exact absurd z h4
            · exact absurd z h3
      · by_cases hc : Spec.Occurs before c
        · refine ⟨fun h => absurd h.1 ha, fun _ _ => ?_, fun h => absurd hc h, fun _ h => absurd hc h⟩
          rcases i4 ha hb with h | ⟨_, _, h3, h4⟩
          · subst h; exact j2 hb hc
          · rcases j2 hb hc with ⟨_, _, z⟩ | ⟨_, _, z⟩
            · exact absurd z h4
            · exact absurd z h3
        · refine ⟨fun h => absurd h.1 ha, fun _ h => absurd h hc, fun _ h => absurd h ha, fun _ _ => ?_⟩
          rcases i4 ha hb with h | ⟨h1, h2, h3, h4⟩
          · subst h; exact j4 hb hc
          · rcases j4 hb hc with h | ⟨k1, k2, _⟩
            · subst h; exact Or.inr ⟨h1, h2, h3, h4⟩
            · exact Or.inr ⟨h1, k2, h3, h4⟩

theorem linked_before {first : List (Int × Int)} (rest : List (Int × Int)) (h : Spec.NeverMerges (first ++ rest)) {a b : Int}
    (ha : Spec.Occurs first a) (hb : Spec.Occurs first b) (hl : Spec.Linked (first ++ rest) a b) : Spec.Linked first a b := by
  induction rest generalizing first with
  | nil => simpa using hl
  | cons p rest ih =>
    have e : first ++ p :: rest = (first ++ [p]) ++ rest := by simp
    have grow : ∀ {x}, Spec.Occurs first x → Spec.Occurs (first ++ [p]) x := fun ⟨q, hq, hx⟩ => ⟨q, by simp [hq], hx⟩
    have h1 : Spec.Linked (first ++ [p]) a b := ih (by rw [← e]; exact h) (grow ha) (grow hb) (by rw [← e]; exact hl)
    exact (linked_snoc (h first p rest rfl) h1).1 ⟨ha, hb⟩

theorem pair_linked {p q : Int × Int} (h : Spec.Linked [p, q] p.1 q.1) : p.1 = q.1 ∨ p.1 = q.2 ∨ p.2 = q.1 ∨ p.2 = q.2 := by
  have key : ∀ {a b}, Spec.Linked [p, q] a b → (p.1 = q.1 ∨ p.1 = q.2 ∨ p.2 = q.1 ∨ p.2 = q.2) ∨
      ((a = p.1 ∨ a = p.2) ↔ (b = p.1 ∨ b = p.2)) := by
    intro a b hl
    induction hl with
    | @step a b hm =>
      simp only [List.mem_cons, List.not_mem_nil, or_false] at hm
      rcases hm with rfl | rfl
      · right; simp
      · by_cases h : p.1 = a ∨ p.1 = b ∨ p.2 = a ∨ p.2 = b
        · exact Or.inl h
        · right
          constructor
          · rintro (h1 | h1)
            · exact absurd (Or.inl h1.symm) h
            · exact absurd (Or.inr (Or.inr (Or.inl h1.symm))) h
          · rintro (h1 | h1)
            · exact absurd (Or.inr (Or.inl h1.symm)) h
            · exact absurd (Or.inr (Or.inr (Or.inr h1.symm))) h
    | refl => right; exact Iff.rfl
    | symm _ ih => exact ih.imp id Iff.symm
    | trans _ _ ih1 ih2 =>
      rcases ih1 with h | h
      · exact Or.inl h
      · exact ih2.imp id h.trans
  rcases key h with h | h
  · exact h
  · rcases h.1 (Or.inl rfl) with h | h
    · exact Or.inl h.symm
    · exact Or.inr (Or.inr (Or.inl h.symm))

theorem neverMerges_of_meet {ls : List (Int × Int)} (h : Spec.StarsAndTriangles ls) : Spec.NeverMerges ls := by
  rintro before r after he ⟨s, hs, h1⟩ ⟨t, ht, h2⟩
  have inls : ∀ p ∈ before, p ∈ ls := fun p hp => by rw [he]; simp [hp]
  have hr : r ∈ ls := by rw [he]; simp
  have lnk : ∀ {x : Int × Int} {l : List (Int × Int)}, x ∈ l → ∀ {y}, (y = x.1 ∨ y = x.2) → Spec.Linked l x.1 y := by
    intro x l hx y hy
    rcases hy with rfl | rfl
    · exact .refl
    · exact .step hx
  have hst : Spec.Meet s t := h s (inls s hs) t (inls t ht)
    (.trans (lnk (inls s hs) h1) (.trans (.step hr) (.symm (lnk (inls t ht) h2))))
  have l1 := lnk hs h1
  have l2 := lnk ht h2
  refine .trans (.symm l1) (.trans ?_ l2)
  rcases hst with e | e | e | e
  · rw [e]; exact .refl
  · rw [e]; exact .symm (.step ht)
  · rw [← e]; exact .step hs
  · exact .trans (.step hs) (by rw [e]; exact .symm (.step ht))

theorem linkRows_ok_iff {subset : Option (List Int)} {f : Bool × Bool} (rows : List (List Str)) (d : LinkData) :
    (∃ x, linkRows subset f d rows = .ok x) ↔ ∀ r ∈ rows, ∃ p, linkPair r = .ok p := by
  induction rows generalizing d with
  | nil => exact ⟨fun _ r hr => (by cases hr), fun _ => ⟨d, rfl⟩⟩
  | cons r rows ih =>
    cases hr : linkPair r with
    | error e =>
      simp only [linkRows, hr]
      constructor
      · rintro ⟨x, hx⟩; cases hx
      · intro h
        obtain ⟨p, hp⟩ := h r (List.mem_cons_self ..)
        rw [hr] at hp; cases hp
    | ok p =>
      simp only [linkRows, hr]
      rw [ih]
      constructor
      · intro h r' hr'
        rcases List.mem_cons.1 hr' with rfl | hr'
        · exact ⟨p, hr⟩
        · exact h r' hr'
      · exact fun h r' hr' => h r' (List.mem_cons_of_mem _ hr')

theorem linkNew_ok_iff {src : Str} {rows : List (List Str)} {subset : Option (List Int)} {name : Str} {fn : Spec.FilterName}
    (hn : asciiLower name = fn.text) :
    (∃ r, LinkReader.new src (rows, none) subset name = .ok r) ↔ ∀ x ∈ rows, ∃ p, linkPair x = .ok p := by
  obtain ⟨f, h1, _⟩ := linkFilter_eq subset name fn hn
  rw [← linkRows_ok_iff (subset := subset) (f := f) rows ⟨[], [], 0⟩]
  unfold LinkReader.new linkLoad
  rw [h1]
  simp only
  cases linkRows subset f ⟨[], [], 0⟩ rows with
  | error e => simp
  | ok d => simp

/-- C59: a links file that can be read can be read in every order of its rows; and the groups are the connected components in every
order exactly if any two accepted links that are connected at all have a sentence in common. -/
theorem C59_any_order_iff (src : Str) (rows : List (List Str)) (subset : Option (List Int)) (name : Str) (fn : Spec.FilterName)
    (hn : asciiLower name = fn.text) (r : LinkReader) (h : LinkReader.new src (rows, none) subset name = .ok r) :
    (∀ rows', rows.Perm rows' → ∃ r', LinkReader.new src (rows', none) subset name = .ok r') ∧
    ((∀ rows' r', rows.Perm rows' → LinkReader.new src (rows', none) subset name = .ok r' →
        (∀ i g, r'.data.groupOf i = .ok g → ∀ j, j ∈ g ↔ Spec.Linked (Spec.links subset fn rows) i j) ∧
        (∀ i, Spec.Occurs (Spec.links subset fn rows) i → ∃ g ∈ r'.data.groups, i ∈ g) ∧
        (∀ g ∈ r'.data.groups, g ≠ [] ∧ ∀ i ∈ g, r'.data.groupOf i = .ok g) ∧
        r'.data.groups.Pairwise (fun g g' => ∀ i ∈ g, i ∉ g')) ↔
      Spec.StarsAndTriangles (Spec.links subset fn rows)) := by
  have hall := (linkNew_ok_iff (src := src) hn).1 ⟨r, h⟩
  have hok : ∀ rows', rows.Perm rows' → ∃ r', LinkReader.new src (rows', none) subset name = .ok r' := fun rows' hp =>
    (linkNew_ok_iff hn).2 (fun x hx => hall x (hp.mem_iff.2 hx))
  refine ⟨hok, ?_, ?_⟩
  · intro hgood p hp q hq hl
    by_cases hm : Spec.Meet p q
    · exact hm
    · exfalso
      have mem : ∀ {x}, x ∈ Spec.links subset fn rows → ∃ row ∈ rows, Spec.pairOf row = some x ∧ Spec.linkAccepted subset fn x := by
        intro x hx
        unfold Spec.links at hx
        rw [List.mem_filter, List.mem_filterMap] at hx
        obtain ⟨⟨row, h1, h2⟩, h3⟩ := hx
        exact ⟨row, h1, h2, h3⟩
      obtain ⟨rp, hrp, hrp1, hrp2⟩ := mem hp
      obtain ⟨rq, hrq, hrq1, hrq2⟩ := mem hq
      have hne : rq ≠ rp := by
        rintro rfl
        rw [hrp1] at hrq1
        cases hrq1
        exact hm (Or.inl rfl)
      have hperm : rows.Perm (rp :: rq :: (rows.erase rp).erase rq) :=
        (List.perm_cons_erase hrp).trans ((List.perm_cons_erase ((List.mem_erase_of_ne hne).2 hrq)).cons _)
      obtain ⟨r', hr'⟩ := hok _ hperm
      have hg := hgood _ r' hperm hr'
      have hnm := (C59_disjoint_iff hn hr').1 hg.2.2.2
      have he : Spec.links subset fn (rp :: rq :: (rows.erase rp).erase rq) =
          [p, q] ++ Spec.links subset fn ((rows.erase rp).erase rq) := by
        simp [Spec.links, hrp1, hrq1, hrp2, hrq2]
      simp only at hnm
      rw [he] at hnm
      have hl' : Spec.Linked ([p, q] ++ Spec.links subset fn ((rows.erase rp).erase rq)) p.1 q.1 := by
        rw [← he]
        exact Linked.mono (fun x hx => (links_perm hperm).mem_iff.1 hx) hl
      exact hm (pair_linked (linked_before _ hnm ⟨p, by simp, Or.inl rfl⟩ ⟨q, by simp, Or.inl rfl⟩ hl'))
  · intro hst rows' r' hp hr'
    have hpl := links_perm (subset := subset) (fn := fn) hp
    have hlk : ∀ {i j}, Spec.Linked (Spec.links subset fn rows') i j ↔ Spec.Linked (Spec.links subset fn rows) i j := fun {i j} =>
      ⟨Linked.mono (fun x hx => hpl.mem_iff.2 hx), Linked.mono (fun x hx => hpl.mem_iff.1 hx)⟩
    have hst' : Spec.StarsAndTriangles (Spec.links subset fn rows') := fun p hp q hq hl =>
      hst p (hpl.mem_iff.2 hp) q (hpl.mem_iff.2 hq) (hlk.1 hl)
    obtain ⟨c1, c2, c3, c4⟩ := C59_components_partial hn hr' (neverMerges_of_meet hst')
    refine ⟨fun i g hg j => (c1 i g hg j).trans hlk, fun i hi => c2 i ?_, c3, c4⟩
    obtain ⟨p, hp1, hp2⟩ := hi
    exact ⟨p, hpl.mem_iff.1 hp1, hp2⟩

/-- C59: the groups depend on the order of the rows: the same three links in two orders. -/
theorem C59_order_refuted :
    ∃ r r', LinkReader.new u!"links.csv" ([[u!"1", u!"2"], [u!"3", u!"4"], [u!"1", u!"3"]], none) none u!"both" = .ok r ∧
      LinkReader.new u!"links.csv" ([[u!"1", u!"2"], [u!"1", u!"3"], [u!"3", u!"4"]], none) none u!"both" = .ok r' ∧
      r.data.groupOf 4 = .ok [4, 3] ∧ (∃ g, r'.data.groupOf 4 = .ok g ∧ 1 ∈ g ∧ 2 ∈ g) := by
  exact ⟨_, _, rfl, rfl, by decide +kernel, _, rfl, by decide +kernel, by decide +kernel⟩

/-- A star and a triangle meet the condition. -/
example : Spec.StarsAndTriangles (Spec.links none .both
    [[u!"1", u!"2"], [u!"1", u!"3"], [u!"4", u!"1"], [u!"5", u!"6"], [u!"6", u!"7"], [u!"7", u!"5"]]) := by
  have e : Spec.links none .both [[u!"1", u!"2"], [u!"1", u!"3"], [u!"4", u!"1"], [u!"5", u!"6"], [u!"6", u!"7"], [u!"7", u!"5"]] =
      [(1, 2), (1, 3), (4, 1), (5, 6), (6, 7), (7, 5)] := by decide +kernel
  rw [e]
  have key : ∀ {a b}, Spec.Linked [(1, 2), (1, 3), (4, 1), (5, 6), (6, 7), (7, 5)] a b → (a ≤ 4 ↔ b ≤ 4) := by
    intro a b h
    induction h with
    | step hm => simp only [List.mem_cons, Prod.mk.injEq, List.not_mem_nil, or_false] at hm; omega
    | refl => exact Iff.rfl
    | symm _ ih => exact ih.symm
    | trans _ _ h1 h2 => exact h1.trans h2
  intro p hp q hq hl
  have hk := key hl
  simp only [List.mem_cons, List.not_mem_nil, or_false] at hp hq
  unfold Spec.Meet
  rcases hp with rfl | rfl | rfl | rfl | rfl | rfl <;> rcases hq with rfl | rfl | rfl | rfl | rfl | rfl <;> simp at hk ⊢

end Cjk
