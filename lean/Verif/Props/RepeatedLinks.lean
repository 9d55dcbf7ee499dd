import Verif.Props.TatoebaLinks
/-!
# C163: links that are given again
-/

namespace Cjk
open Py

/-- Two answers of `group` that a caller cannot tell apart: the same exception or sets with the same members. -/
def Spec.SameGroup : Except PyErr (List Int) → Except PyErr (List Int) → Prop
  | .ok a, .ok b => ∀ i, i ∈ a ↔ i ∈ b
  | .error e, .error e' => e = e'
  | _, _ => False

theorem dict_set_same {K V : Type} [DecidableEq K] {d : Dict K V} {k : K} {v : V} (h : Dict.get? d k = some v) : Dict.set d k v = d := by
  induction d with
  | nil => simp at h
  | cons p d ih =>
    obtain ⟨x, y⟩ := p
    rw [Dict.get?_cons] at h
    by_cases e : x = k
    · rw [if_pos e] at h
      cases h
      simp [Dict.set, e]
    · rw [if_neg e] at h
      simp [Dict.set, e, ih h]

/-- Both ends of a link are in one group already. -/
def Settled (d : LinkData) (p : Int × Int) : Prop :=
  ∃ n g, Dict.get? d.link p.1 = some n ∧ Dict.get? d.link p.2 = some n ∧ Dict.get? d.group n = some g ∧ p.1 ∈ g ∧ p.2 ∈ g

theorem linkAdd_settled {d : LinkData} {p : Int × Int} (h : Settled d p) : linkAdd d p = d := by
  obtain ⟨n, g, h1, h2, h3, h4, h5⟩ := h
  unfold linkAdd
  rw [h1]
  simp only [linkEnter, h3, Option.getD_some, List.foldl_cons, List.foldl_nil, dict_set_same h2]
  rw [show setUnion g [p.2] = g by simp [setUnion, h5], dict_set_same h3]

theorem Settled.swap {d : LinkData} {p : Int × Int} (h : Settled d p) : Settled d (p.2, p.1) := by
  obtain ⟨n, g, h1, h2, h3, h4, h5⟩ := h
  exact ⟨n, g, h2, h1, h3, h5, h4⟩

theorem home_self {ls : List (Int × Int)} {d : LinkData} (inv : GroupInv ls d) {i : Int} {n : Nat} (h : Dict.get? d.link i = some n) :
    ∃ g, Dict.get? d.group n = some g ∧ i ∈ g := by
  obtain ⟨g, hg, p, _, hip, h1, h2⟩ := inv.home i n h
  refine ⟨g, hg, ?_⟩
  rcases hip with rfl | rfl
  · exact h1
  · exact h2

theorem settled_of_link {ls : List (Int × Int)} {d : LinkData} (inv : GroupInv ls d) {p : Int × Int} {n : Nat} (h1 : Dict.get? d.link p.1 = some n)
    (h2 : Dict.get? d.link p.2 = some n) : Settled d p := by
  obtain ⟨g, hg, h3⟩ := home_self inv h1
  obtain ⟨g', hg', h4⟩ := home_self inv h2
  rw [hg] at hg'
  cases hg'
  exact ⟨n, g, h1, h2, hg, h3, h4⟩

theorem linkAdd_settles {ls : List (Int × Int)} {d : LinkData} (inv : GroupInv ls d) (p : Int × Int) : Settled (linkAdd d p) p := by
  have inv' := linkAdd_inv inv p
  have key : ∃ n, Dict.get? (linkAdd d p).link p.1 = some n ∧ Dict.get? (linkAdd d p).link p.2 = some n := by
    unfold linkAdd
    cases h1 : Dict.get? d.link p.1 with
    | some n =>
      refine ⟨n, ?_, ?_⟩ <;> simp only [linkEnter_link, List.mem_singleton, h1] <;> simp
    | none =>
      cases h2 : Dict.get? d.link p.2 with
      | some n => refine ⟨n, ?_, ?_⟩ <;> simp only [linkEnter_link, List.mem_singleton, h2] <;> simp
      | none =>
        refine ⟨d.nodes, ?_, ?_⟩ <;> simp only [linkEnter_link] <;> by_cases e : p.1 = p.2 <;> simp [e]
  obtain ⟨n, h1, h2⟩ := key
  exact settled_of_link inv' h1 h2

section
variable {src src' : Str} {rows rows' : List (List Str)} {subset : Option (List Int)} {name : Str} {fn : Spec.FilterName} {a b : LinkReader}

/-- C163: a link that is given again right after itself, any number of times and in either direction, counts once: all groups and all lookups are the same, whatever
comes before and after. -/
theorem C163_again (hn : asciiLower name = fn.text) (ha : LinkReader.new src (rows, none) subset name = .ok a)
    (hb : LinkReader.new src' (rows', none) subset name = .ok b) {p : Int × Int} {before again after : List (Int × Int)}
    (h : Spec.links subset fn rows = before ++ p :: after) (h' : Spec.links subset fn rows' = before ++ p :: again ++ after)
    (hq : ∀ q ∈ again, q = p ∨ q = (p.2, p.1)) :
    b.data.groups = a.data.groups ∧ ∀ i, b.data.getItem i = a.data.getItem i ∧ b.data.groupOf i = a.data.groupOf i := by
  have inv := linkInv_all before
  have key : ∀ l : List (Int × Int), (∀ q ∈ l, q = p ∨ q = (p.2, p.1)) →
      l.foldl linkAdd (linkAdd (before.foldl linkAdd ⟨[], [], 0⟩) p) = linkAdd (before.foldl linkAdd ⟨[], [], 0⟩) p := by
    intro l
    induction l with
    | nil => intro _; rfl
    | cons q l ih =>
      intro hl
      rw [List.foldl_cons]
      have hs := linkAdd_settles inv p
      rcases hl q (by simp) with rfl | rfl
      · rw [linkAdd_settled hs]; exact ih (fun x hx => hl x (by simp [hx]))
      · rw [linkAdd_settled hs.swap]; exact ih (fun x hx => hl x (by simp [hx]))
  have e : b.data = a.data := by
    rw [linkReader_new hn ha, linkReader_new hn hb]
    simp only
    rw [h, h']
    simp only [List.append_assoc, List.cons_append, List.foldl_append, List.foldl_cons]
    rw [key again hq]
  rw [e]
  exact ⟨rfl, fun i => ⟨rfl, rfl⟩⟩

/-- C163: as long as no link has joined two groups, a link between two sentences that links read before connect, directly or not and in either direction, changes nothing,
wherever it stands after them: a file with every link in both directions has the groups of the file with one. -/
theorem C163_connected (hn : asciiLower name = fn.text) (ha : LinkReader.new src (rows, none) subset name = .ok a)
    (hb : LinkReader.new src' (rows', none) subset name = .ok b) {before again after : List (Int × Int)}
    (h : Spec.links subset fn rows = before ++ after) (h' : Spec.links subset fn rows' = before ++ again ++ after) (hm : Spec.NeverMerges before)
    (hq : ∀ q ∈ again, Spec.Occurs before q.1 ∧ Spec.Linked before q.1 q.2) :
    b.data.groups = a.data.groups ∧ ∀ i, b.data.getItem i = a.data.getItem i ∧ b.data.groupOf i = a.data.groupOf i := by
  have inv := linkInv_all before
  have comp := compInv_all hm
  have key : ∀ l : List (Int × Int), (∀ q ∈ l, Spec.Occurs before q.1 ∧ Spec.Linked before q.1 q.2) →
      l.foldl linkAdd (before.foldl linkAdd ⟨[], [], 0⟩) = before.foldl linkAdd ⟨[], [], 0⟩ := by
    intro l
    induction l with
    | nil => intro _; rfl
    | cons q l ih =>
      intro hl
      obtain ⟨h1, h2⟩ := hl q (by simp)
      obtain ⟨n, hn⟩ := Option.isSome_iff_exists.1 ((inv.occurs q.1).1 h1)
      rw [List.foldl_cons, linkAdd_settled (settled_of_link inv hn (by rw [← comp.linked h2]; exact hn))]
      exact ih (fun x hx => hl x (by simp [hx]))
  have e : b.data = a.data := by
    rw [linkReader_new hn ha, linkReader_new hn hb]
    simp only
    rw [h, h']
    simp only [List.append_assoc, List.foldl_append]
    rw [key again hq]
  rw [e]
  exact ⟨rfl, fun i => ⟨rfl, rfl⟩⟩

/-- C163: a last link between two sentences that both have a group changes no answer of `group` exactly if the groups of the two have the same members. -/
theorem C163_known_iff (hn : asciiLower name = fn.text) (ha : LinkReader.new src (rows, none) subset name = .ok a)
    (hb : LinkReader.new src' (rows', none) subset name = .ok b) {p : Int × Int} (h' : Spec.links subset fn rows' = Spec.links subset fn rows ++ [p])
    {g1 g2 : List Int} (h1 : a.data.groupOf p.1 = .ok g1) (h2 : a.data.groupOf p.2 = .ok g2) :
    (∀ i, Spec.SameGroup (b.data.groupOf i) (a.data.groupOf i)) ↔ ∀ i, i ∈ g1 ↔ i ∈ g2 := by
  have eb : b.data = linkAdd a.data p := by
    rw [linkReader_new hn ha, linkReader_new hn hb]
    simp only
    rw [h', List.foldl_append]
    rfl
  have inv : GroupInv (Spec.links subset fn rows) a.data := by
    rw [linkReader_new hn ha]
    exact linkInv_all _
  have inv' := linkAdd_inv inv p
  rw [← eb] at inv'
  obtain ⟨n, hn1, hg1⟩ := (groupOf_eq_ok inv).1 h1
  obtain ⟨m, hn2, hg2⟩ := (groupOf_eq_ok inv).1 h2
  have e' : b.data = linkEnter a.data n [p.2] := by rw [eb]; unfold linkAdd; rw [hn1]
  have hlink : ∀ i, Dict.get? b.data.link i = if i = p.2 then some n else Dict.get? a.data.link i := by
    intro i
    rw [e', linkEnter_link]
    simp
  have hgroup : ∀ k, Dict.get? b.data.group k = if n = k then some (setUnion g1 [p.2]) else Dict.get? a.data.group k := by
    intro k
    rw [e', linkEnter_group, hg1]
    rfl
  have p2 : p.2 ∈ g2 := by
    obtain ⟨g, hg, h⟩ := home_self inv hn2
    rw [hg2] at hg
    cases hg
    exact h
  have hb1 : b.data.groupOf p.1 = .ok (setUnion g1 [p.2]) := by
    refine (groupOf_eq_ok inv').2 ⟨n, ?_, ?_⟩
    · rw [hlink]; by_cases e : p.1 = p.2 <;> simp [e, hn1]
    · rw [hgroup, if_pos rfl]
  have hb2 : b.data.groupOf p.2 = .ok (setUnion g1 [p.2]) := by
    refine (groupOf_eq_ok inv').2 ⟨n, ?_, ?_⟩
    · rw [hlink, if_pos rfl]
    · rw [hgroup, if_pos rfl]
  constructor
  · intro h i
    have q1 := h p.1
    have q2 := h p.2
    rw [hb1, h1] at q1
    rw [hb2, h2] at q2
    exact (q1 i).symm.trans (q2 i)
  · intro h
    have hu : ∀ i, i ∈ setUnion g1 [p.2] ↔ i ∈ g1 := by
      intro i
      rw [setUnion_mem, List.mem_singleton]
      constructor
      · rintro (hi | rfl)
        · exact hi
        · exact (h _).2 p2
      · exact Or.inl
    intro i
    by_cases e : i = p.2
    · subst e
      rw [hb2, h2]
      intro j
      rw [hu, h]
    · cases hi : Dict.get? a.data.link i with
      | none =>
        have q1 : a.data.groupOf i = .error .invalidIDError := by simp [LinkData.groupOf, LinkData.getItem, Dict.getItem, hi]
        have q2 : b.data.groupOf i = .error .invalidIDError := by simp [LinkData.groupOf, LinkData.getItem, Dict.getItem, hlink, e, hi]
        rw [q1, q2]
        rfl
      | some k =>
        obtain ⟨g, hg, _⟩ := home_self inv hi
        have q1 : a.data.groupOf i = .ok g := (groupOf_eq_ok inv).2 ⟨k, hi, hg⟩
        by_cases ek : n = k
        · subst ek
          rw [hg1] at hg
          cases hg
          have q2 : b.data.groupOf i = .ok (setUnion g1 [p.2]) := (groupOf_eq_ok inv').2 ⟨n, by rw [hlink, if_neg e, hi], by rw [hgroup, if_pos rfl]⟩
          rw [q1, q2]
          exact hu
        · have q2 : b.data.groupOf i = .ok g := (groupOf_eq_ok inv').2 ⟨k, by rw [hlink, if_neg e, hi], by rw [hgroup, if_neg ek, hg]⟩
          rw [q1, q2]
          exact fun _ => Iff.rfl

end

/-- A file with each link in both directions. -/
example : Spec.links none .both [[u!"1", u!"2"], [u!"2", u!"1"], [u!"1", u!"3"]] = [] ++ (1, 2) :: [(2, 1)] ++ [(1, 3)] ∧
    Spec.links none .both [[u!"1", u!"2"], [u!"1", u!"3"]] = [] ++ (1, 2) :: [(1, 3)] := by
  constructor <;> decide +kernel

/-- In a file that joins two groups, a link given again does change the groups: after the links 1-2, 3-4 and 1-3, giving 3-4 again takes 4 to the group of 3. -/
example : (([(1, 2), (3, 4), (1, 3)] : List (Int × Int)).foldl linkAdd ⟨[], [], 0⟩).groups = [[2, 1, 3], [4, 3]] := by decide +kernel
example : (([(1, 2), (3, 4), (1, 3), (3, 4)] : List (Int × Int)).foldl linkAdd ⟨[], [], 0⟩).groups = [[2, 1, 3, 4], [4, 3]] := by decide +kernel

end Cjk
