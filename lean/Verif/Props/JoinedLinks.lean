import Verif.Props.Joined
import Verif.Props.TatoebaLinks
import Verif.Props.LinkOrder
import Verif.Props.TatoebaLinksIff
/-!
# C157: joined links files
-/

namespace Cjk
open Py

/-- The accepted links of two files have no sentence in common. -/
def Spec.NoneShared (a b : List (Int × Int)) : Prop := ∀ i, Spec.Occurs a i → ¬ Spec.Occurs b i

/-! ### Dictionaries one after the other -/

section
variable {K V : Type} [DecidableEq K]

theorem dict_get?_append (a b : Dict K V) (k : K) : Dict.get? (a ++ b) k = (Dict.get? a k).or (Dict.get? b k) := by
  induction a with
  | nil => simp [Dict.get?]
  | cons kv a ih =>
    obtain ⟨k', v⟩ := kv
    rw [List.cons_append, Dict.get?_cons, Dict.get?_cons, ih]
    split <;> rfl

theorem dict_set_append {a : Dict K V} (b : Dict K V) {k : K} (v : V) (h : k ∉ Dict.keys a) : Dict.set (a ++ b) k v = a ++ Dict.set b k v := by
  induction a with
  | nil => rfl
  | cons kv a ih =>
    obtain ⟨k', v'⟩ := kv
    simp only [Dict.keys, List.map_cons, List.mem_cons, not_or] at h
    rw [List.cons_append, Dict.set, if_neg (fun e => h.1 e.symm), ih h.2, List.cons_append]

theorem dict_set_vals {W : Type} (g : V → W) (b : Dict K V) (k : K) (v : V) :
    Dict.set (b.map (fun kv => (kv.1, g kv.2))) k (g v) = (Dict.set b k v).map (fun kv => (kv.1, g kv.2)) := by
  induction b with
  | nil => rfl
  | cons kv b ih =>
    obtain ⟨k', v'⟩ := kv
    rw [List.map_cons, Dict.set, Dict.set]
    split
    · rfl
    · rw [List.map_cons, ← ih]

theorem dict_get?_vals {W : Type} (g : V → W) (b : Dict K V) (k : K) : Dict.get? (b.map (fun kv => (kv.1, g kv.2))) k = (Dict.get? b k).map g := by
  induction b with
  | nil => rfl
  | cons kv b ih =>
    obtain ⟨k', v'⟩ := kv
    rw [List.map_cons, Dict.get?_cons, Dict.get?_cons, ih]
    split <;> rfl

end

theorem dict_set_shift {V : Type} (n : Nat) (b : Dict Nat V) (k : Nat) (v : V) :
    Dict.set (b.map (fun kv => (kv.1 + n, kv.2))) (k + n) v = (Dict.set b k v).map (fun kv => (kv.1 + n, kv.2)) := by
  induction b with
  | nil => rfl
  | cons kv b ih =>
    obtain ⟨k', v'⟩ := kv
    rw [List.map_cons, Dict.set, Dict.set]
    by_cases h : k' = k
    · rw [if_pos h, if_pos (by simp only; omega)]; rfl
    · rw [if_neg h, if_neg (by simp only; omega), List.map_cons, ← ih]

theorem dict_get?_shift {V : Type} (n : Nat) (b : Dict Nat V) (k : Nat) : Dict.get? (b.map (fun kv => (kv.1 + n, kv.2))) (k + n) = Dict.get? b k := by
  induction b with
  | nil => rfl
  | cons kv b ih =>
    obtain ⟨k', v'⟩ := kv
    rw [List.map_cons, Dict.get?_cons, Dict.get?_cons, ih]
    by_cases h : k' = k
    · rw [if_pos h, if_pos (by omega)]
    · rw [if_neg h, if_neg (by omega)]

/-! ### The data of two files side by side -/

/-- The groups of the second file get the numbers after those of the first. -/
def sideBySide (a b : LinkData) : LinkData :=
  ⟨a.link ++ b.link.map (fun kv => (kv.1, kv.2 + a.nodes)), a.group ++ b.group.map (fun kv => (kv.1 + a.nodes, kv.2)), a.nodes + b.nodes⟩

theorem sideBySide_enter (a b : LinkData) (hg : ∀ n ∈ Dict.keys a.group, n < a.nodes) (node : Nat) (new : List Int) (hn : ∀ i ∈ new, i ∉ Dict.keys a.link) :
    linkEnter (sideBySide a b) (node + a.nodes) new = sideBySide a (linkEnter b node new) := by
  have hnk : node + a.nodes ∉ Dict.keys a.group := fun h => by have := hg _ h; omega
  unfold linkEnter sideBySide
  simp only [LinkData.mk.injEq, and_true]
  constructor
  · clear hnk
    induction new generalizing b with
    | nil => rfl
    | cons i new ih =>
      have := ih ⟨Dict.set b.link i node, b.group, b.nodes⟩ (fun j hj => hn j (by simp [hj]))
      rw [List.foldl_cons, List.foldl_cons, dict_set_append _ _ (hn i (by simp)), dict_set_vals (fun x => x + a.nodes)]
      exact this
  · rw [dict_set_append _ _ hnk, dict_set_shift, dict_get?_append, (Dict.get?_eq_none_iff _ _).2 hnk, dict_get?_shift]
    rfl

theorem sideBySide_add (a b : LinkData) (hg : ∀ n ∈ Dict.keys a.group, n < a.nodes) (p : Int × Int) (h1 : p.1 ∉ Dict.keys a.link) (h2 : p.2 ∉ Dict.keys a.link) :
    linkAdd (sideBySide a b) p = sideBySide a (linkAdd b p) := by
  have hl : ∀ i, i ∉ Dict.keys a.link → Dict.get? (sideBySide a b).link i = (Dict.get? b.link i).map (fun n => n + a.nodes) := by
    intro i hi
    rw [sideBySide, dict_get?_append, (Dict.get?_eq_none_iff _ _).2 hi, dict_get?_vals (fun n => n + a.nodes), Option.none_or]
  unfold linkAdd
  rw [hl _ h1, hl _ h2]
  cases Dict.get? b.link p.1 with
  | some node => exact sideBySide_enter a b hg node [p.2] (by simpa using h2)
  | none =>
    cases Dict.get? b.link p.2 with
    | some node => exact sideBySide_enter a b hg node [p.1] (by simpa using h1)
    | none =>
      simp only [Option.map_none]
      have := sideBySide_enter a { b with nodes := b.nodes + 1 } hg b.nodes (if p.1 = p.2 then [p.1] else [p.2, p.1]) (by
        intro i hi
        split at hi
        · rw [List.mem_singleton] at hi; rw [hi]; exact h1
        · simp only [List.mem_cons, List.not_mem_nil, or_false] at hi
          rcases hi with rfl | rfl
          · exact h2
          · exact h1)
      rw [← this]
      show linkEnter { sideBySide a b with nodes := (sideBySide a b).nodes + 1 } (a.nodes + b.nodes) _ = _
      rw [Nat.add_comm a.nodes b.nodes]
      rfl

theorem foldl_sideBySide (a : LinkData) (hg : ∀ n ∈ Dict.keys a.group, n < a.nodes) (l : List (Int × Int)) (h : ∀ i, Spec.Occurs l i → i ∉ Dict.keys a.link) (b : LinkData) :
    l.foldl linkAdd (sideBySide a b) = sideBySide a (l.foldl linkAdd b) := by
  induction l generalizing b with
  | nil => rfl
  | cons p l ih =>
    rw [List.foldl_cons, List.foldl_cons, sideBySide_add a b hg p (h _ ⟨p, by simp, Or.inl rfl⟩) (h _ ⟨p, by simp, Or.inr rfl⟩)]
    exact ih (fun i ⟨q, hq, hi⟩ => h i ⟨q, by simp [hq], hi⟩) _

theorem sideBySide_nil (a : LinkData) : sideBySide a ⟨[], [], 0⟩ = a := by simp [sideBySide]

theorem foldl_apart (l1 l2 : List (Int × Int)) (h : Spec.NoneShared l1 l2) :
    (l1 ++ l2).foldl linkAdd ⟨[], [], 0⟩ = sideBySide (l1.foldl linkAdd ⟨[], [], 0⟩) (l2.foldl linkAdd ⟨[], [], 0⟩) := by
  have inv := linkInv_all l1
  have hg : ∀ n ∈ Dict.keys (l1.foldl linkAdd ⟨[], [], 0⟩).group, n < (l1.foldl linkAdd ⟨[], [], 0⟩).nodes := by
    intro n hn
    obtain ⟨g, hg⟩ := Option.isSome_iff_exists.1 ((Dict.get?_isSome_iff _ _).2 hn)
    exact (inv.members n g hg).1
  have := foldl_sideBySide _ hg l2 (fun i hi hk => h i ((inv.occurs i).2 ((Dict.get?_isSome_iff _ _).2 hk)) hi) ⟨[], [], 0⟩
  rw [sideBySide_nil] at this
  rw [List.foldl_append, this]

theorem sideBySide_getItem (a b : LinkData) (ha : ∀ i n, Dict.get? a.link i = some n → ∃ g, Dict.get? a.group n = some g) (hg : ∀ n ∈ Dict.keys a.group, n < a.nodes)
    (h : ∀ i, (Dict.get? b.link i).isSome → Dict.get? a.link i = none) (i : Int) : (sideBySide a b).getItem i = Spec.orElse (b.getItem i) (a.getItem i) := by
  unfold LinkData.getItem Dict.getItem sideBySide
  simp only [bind, Except.bind]
  rw [dict_get?_append, dict_get?_vals (fun n => n + a.nodes)]
  cases hb : Dict.get? b.link i with
  | none =>
    cases hi : Dict.get? a.link i with
    | none => rfl
    | some n =>
      obtain ⟨g, hn⟩ := ha i n hi
      simp only [Option.some_or, dict_get?_append, hn, Spec.orElse]
  | some n =>
    rw [h i (by rw [hb]; rfl)]
    have hnk : n + a.nodes ∉ Dict.keys a.group := fun h => by have := hg _ h; omega
    simp only [Option.none_or, Option.map_some, dict_get?_append, (Dict.get?_eq_none_iff _ _).2 hnk, dict_get?_shift]
    cases Dict.get? b.group n <;> rfl

section
variable {src1 src2 src : Str} {r1 r2 : List (List Str)} {subset : Option (List Int)} {name : Str} {fn : Spec.FilterName} {a b r : LinkReader}

/-- C157: the rows of two links files, joined, are loaded exactly if both files are. -/
theorem C157_links_load :
    (∃ r, LinkReader.new src (r1 ++ r2, none) subset name = .ok r) ↔
      (∃ r, LinkReader.new src1 (r1, none) subset name = .ok r) ∧ ∃ r, LinkReader.new src2 (r2, none) subset name = .ok r := by
  have key : ∀ (s : Str) (rows : List (List Str)), (∃ r, LinkReader.new s (rows, none) subset name = .ok r) ↔
      (∃ f, linkFilter subset name = .ok f) ∧ ∀ x ∈ rows, ∃ p, linkPair x = .ok p := by
    intro s rows
    unfold LinkReader.new
    cases hf : linkFilter subset name with
    | error e => simp
    | ok f =>
      have h0 := linkRows_ok_iff (subset := subset) (f := f) rows ⟨[], [], 0⟩
      simp only [Except.ok.injEq, exists_eq', true_and]
      rw [← h0, linkLoad]
      simp only
      cases linkRows subset f ⟨[], [], 0⟩ rows <;> simp
  rw [key, key, key]
  simp only [List.mem_append]
  constructor
  · intro h
    exact ⟨⟨h.1, fun x hx => h.2 x (Or.inl hx)⟩, h.1, fun x hx => h.2 x (Or.inr hx)⟩
  · intro h
    exact ⟨h.1.1, fun x hx => hx.elim (h.1.2 x) (h.2.2 x)⟩

/-- C157: if no sentence is in accepted links of both files, the groups of the joined file are those of the first and then those of the second, and every id has the group
that it has in the one or in the other. -/
theorem C157_links (hn : asciiLower name = fn.text) (h1 : LinkReader.new src1 (r1, none) subset name = .ok a) (h2 : LinkReader.new src2 (r2, none) subset name = .ok b)
    (h : LinkReader.new src (r1 ++ r2, none) subset name = .ok r) (hap : Spec.NoneShared (Spec.links subset fn r1) (Spec.links subset fn r2)) :
    r.data.groups = a.data.groups ++ b.data.groups ∧
    ∀ i, r.data.getItem i = Spec.orElse (b.data.getItem i) (a.data.getItem i) ∧ r.data.groupOf i = Spec.orElse (b.data.groupOf i) (a.data.groupOf i) := by
  have hl : Spec.links subset fn (r1 ++ r2) = Spec.links subset fn r1 ++ Spec.links subset fn r2 := by
    simp [Spec.links]
  rw [linkReader_new hn h, linkReader_new hn h1, linkReader_new hn h2]
  simp only
  rw [hl, foldl_apart _ _ hap]
  have inv1 := linkInv_all (Spec.links subset fn r1)
  have inv2 := linkInv_all (Spec.links subset fn r2)
  have hg : ∀ n ∈ Dict.keys ((Spec.links subset fn r1).foldl linkAdd ⟨[], [], 0⟩).group, n < ((Spec.links subset fn r1).foldl linkAdd ⟨[], [], 0⟩).nodes := by
    intro n hn
    obtain ⟨g, hg⟩ := Option.isSome_iff_exists.1 ((Dict.get?_isSome_iff _ _).2 hn)
    exact (inv1.members n g hg).1
  have hget := sideBySide_getItem ((Spec.links subset fn r1).foldl linkAdd ⟨[], [], 0⟩) ((Spec.links subset fn r2).foldl linkAdd ⟨[], [], 0⟩)
    (fun i n hi => by obtain ⟨g, hg, _⟩ := inv1.home i n hi; exact ⟨g, hg⟩) hg
    (fun i hi => by
      cases hc : Dict.get? ((Spec.links subset fn r1).foldl linkAdd ⟨[], [], 0⟩).link i with
      | none => rfl
      | some n => exact absurd ((inv2.occurs i).2 hi) (hap i ((inv1.occurs i).2 (by rw [hc]; rfl))))
  refine ⟨?_, fun i => ⟨hget i, ?_⟩⟩
  · simp [LinkData.groups, Dict.values, sideBySide, Function.comp_def]
  · unfold LinkData.groupOf
    rw [hget i]
    cases hb : LinkData.getItem ((Spec.links subset fn r2).foldl linkAdd ⟨[], [], 0⟩) i with
    | ok g => rfl
    | error e => cases e <;> rfl

/-- C157: in any case sentences that are in a group of the first file are in one group of the joined file. -/
theorem C157_links_grow (hn : asciiLower name = fn.text) (h1 : LinkReader.new src1 (r1, none) subset name = .ok a)
    (h : LinkReader.new src (r1 ++ r2, none) subset name = .ok r) (g : List Int) (hg : g ∈ a.data.groups) : ∃ g' ∈ r.data.groups, ∀ i ∈ g, i ∈ g' := by
  have hl : Spec.links subset fn (r1 ++ r2) = Spec.links subset fn r1 ++ Spec.links subset fn r2 := by
    simp [Spec.links]
  rw [linkReader_new hn h1] at hg
  rw [linkReader_new hn h]
  simp only at hg ⊢
  rw [hl, List.foldl_append]
  have inv1 := linkInv_all (Spec.links subset fn r1)
  simp only [LinkData.groups, Dict.values, List.mem_map] at hg
  obtain ⟨kv, hkv, rfl⟩ := hg
  have hk := (Dict.get?_eq_some_iff inv1.wfg _ _).2 hkv
  have key : ∀ (l : List (Int × Int)) (d : LinkData) (n : Nat) (g : List Int), Dict.get? d.group n = some g →
      ∃ g', Dict.get? (l.foldl linkAdd d).group n = some g' ∧ ∀ i ∈ g, i ∈ g' := by
    intro l
    induction l with
    | nil => intro d n g hg; exact ⟨g, hg, fun _ h => h⟩
    | cons p l ih =>
      intro d n g hg
      have hx : ∃ g', Dict.get? (linkAdd d p).group n = some g' ∧ ∀ i ∈ g, i ∈ g' := by
        cases g with
        | nil =>
          have : ∀ (nodes node : Nat) (new : List Int), ∃ g', Dict.get? (linkEnter { d with nodes := nodes } node new).group n = some g' := by
            intro nodes node new
            rw [linkEnter_group]
            by_cases e : node = n
            · rw [if_pos e]; exact ⟨_, rfl⟩
            · rw [if_neg e]; exact ⟨_, hg⟩
          unfold linkAdd
          cases Dict.get? d.link p.1 with
          | some node => obtain ⟨g', h⟩ := this d.nodes node [p.2]; exact ⟨g', h, by simp⟩
          | none =>
            cases Dict.get? d.link p.2 with
            | some node => obtain ⟨g', h⟩ := this d.nodes node [p.1]; exact ⟨g', h, by simp⟩
            | none => obtain ⟨g', h⟩ := this (d.nodes + 1) d.nodes (if p.1 = p.2 then [p.1] else [p.2, p.1]); exact ⟨g', h, by simp⟩
        | cons x g =>
          obtain ⟨g', h3, _⟩ := linkAdd_group_mono p hg (List.mem_cons_self)
          refine ⟨g', h3, fun i hi => ?_⟩
          obtain ⟨g'', h4, h5⟩ := linkAdd_group_mono p hg hi
          rw [h3] at h4
          cases h4
          exact h5
      obtain ⟨g', h3, h4⟩ := hx
      obtain ⟨g'', h5, h6⟩ := ih _ _ _ h3
      exact ⟨g'', h5, fun i hi => h6 i (h4 i hi)⟩
  obtain ⟨g', h3, h4⟩ := key (Spec.links subset fn r2) _ _ _ hk
  exact ⟨g', List.mem_map.2 ⟨(kv.1, g'), Dict.mem_of_get?_eq_some h3, rfl⟩, h4⟩

end

/-- Two files without common sentences. -/
example : Spec.NoneShared (Spec.links none .both [[u!"1", u!"2"], [u!"2", u!"3"]]) (Spec.links none .both [[u!"4", u!"5"]]) := by
  have e1 : Spec.links none .both [[u!"1", u!"2"], [u!"2", u!"3"]] = [(1, 2), (2, 3)] := by decide +kernel
  have e2 : Spec.links none .both [[u!"4", u!"5"]] = [(4, 5)] := by decide +kernel
  rw [e1, e2]
  intro i h1 h2
  simp [Spec.Occurs] at h1 h2
  omega

/-- With a common sentence, the order of the rows decides (C59): two groups of the first file are not joined by a link of the second. -/
example : ((([(1, 2), (3, 4)] : List (Int × Int)) ++ [(1, 3)]).foldl linkAdd ⟨[], [], 0⟩).groups = [[2, 1, 3], [4, 3]] := by decide +kernel

end Cjk
