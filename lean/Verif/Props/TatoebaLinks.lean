import Verif.Spec.Tatoeba
import Verif.Model.Tatoeba
/-!
# The links reader (C57, C58, C59)
-/

namespace Cjk
open Py

/-! ### From rows to accepted links -/

theorem linkPair_eq_ok {r : List Str} {p : Int × Int} : linkPair r = .ok p ↔ Spec.pairOf r = some p := by
  match r with
  | [] => simp [linkPair, Spec.pairOf]
  | [_] => simp [linkPair, Spec.pairOf]
  | [a, b] =>
    unfold linkPair Spec.pairOf
    cases ha : pyInt 10 a <;> cases hb : pyInt 10 b <;> simp [ha, hb, Except.toOption]
  | _ :: _ :: _ :: _ => simp [linkPair, Spec.pairOf]

theorem linkFilter_eq (subset : Option (List Int)) (name : Str) (fn : Spec.FilterName) (h : asciiLower name = fn.text) :
    ∃ f, linkFilter subset name = .ok f ∧ ∀ p, linkSkip subset f p = !(Spec.linkAccepted subset fn p) := by
  unfold linkFilter
  rw [h]
  cases fn
  all_goals
    refine ⟨_, rfl, ?_⟩
    intro p
    cases subset with
    | none => simp [linkSkip, Spec.linkAccepted]
    | some ids => simp [linkSkip, Spec.linkAccepted]

theorem linkRows_eq_ok {subset : Option (List Int)} {f : Bool × Bool} {fn : Spec.FilterName}
    (hf : ∀ p, linkSkip subset f p = !(Spec.linkAccepted subset fn p)) {rows : List (List Str)} :
    ∀ {d d' : LinkData}, linkRows subset f d rows = .ok d' ↔
      (∀ r ∈ rows, (Spec.pairOf r).isSome) ∧ d' = (Spec.links subset fn rows).foldl linkAdd d := by
  induction rows with
  | nil => intro d d'; simpa [linkRows, Spec.links] using eq_comm
  | cons r rows ih =>
    intro d d'
    simp only [linkRows]
    cases hp : linkPair r with
    | error e =>
      simp only [reduceCtorEq, false_iff, not_and]
      intro h
      have := h r (by simp)
      rw [Option.isSome_iff_exists] at this
      obtain ⟨p, h1⟩ := this
      rw [linkPair_eq_ok.2 h1] at hp
      cases hp
    | ok p =>
      have hs := linkPair_eq_ok.1 hp
      simp only
      rw [ih, hf p]
      have hl : Spec.links subset fn (r :: rows) =
          if Spec.linkAccepted subset fn p then p :: Spec.links subset fn rows else Spec.links subset fn rows := by
        simp [Spec.links, hs, List.filter_cons]
      rw [hl]
      simp only [List.mem_cons, forall_eq_or_imp, hs, Option.isSome_some, true_and]
      cases Spec.linkAccepted subset fn p <;> simp

theorem linkReader_new {src : Str} {rows : Rows} {subset : Option (List Int)} {name : Str} {fn : Spec.FilterName} {r : LinkReader}
    (hn : asciiLower name = fn.text) (h : LinkReader.new src rows subset name = .ok r) :
    r.data = (Spec.links subset fn rows.1).foldl linkAdd ⟨[], [], 0⟩ := by
  obtain ⟨f, h1, hf⟩ := linkFilter_eq subset name fn hn
  unfold LinkReader.new at h
  rw [h1] at h
  simp only [linkLoad] at h
  cases h2 : linkRows subset f ⟨[], [], 0⟩ rows.1 with
  | error e => rw [h2] at h; cases h
  | ok d =>
    rw [h2] at h
    simp only at h
    cases h3 : rows.2 with
    | some e => rw [h3] at h; cases h
    | none =>
      rw [h3] at h
      simp only [Except.ok.injEq] at h
      subst h
      exact ((linkRows_eq_ok hf).1 h2).2

/-- C57: a links file is read without an exception iff every row consists of two numbers (and the filter has one of its three
names); otherwise ValueError for the name and InvalidFileError for a row. -/
theorem C57_load_iff (src : Str) (rows : List (List Str)) (subset : Option (List Int)) (name : Str) :
    (∃ r, LinkReader.new src (rows, none) subset name = .ok r) ↔
      (∃ fn : Spec.FilterName, asciiLower name = fn.text) ∧ ∀ r ∈ rows, (Spec.pairOf r).isSome := by
  constructor
  · rintro ⟨r, h⟩
    have hfn : ∃ fn : Spec.FilterName, asciiLower name = fn.text := by
      unfold LinkReader.new at h
      cases hf : linkFilter subset name with
      | error e => rw [hf] at h; cases h
      | ok f =>
        unfold linkFilter at hf
        by_cases h1 : asciiLower name = u!"sent_id"
        · exact ⟨.sentId, h1⟩
        · by_cases h2 : asciiLower name = u!"trans_id"
          · exact ⟨.transId, h2⟩
          · by_cases h3 : asciiLower name = u!"both"
            · exact ⟨.both, h3⟩
            · simp [h1, h2, h3] at hf
    refine ⟨hfn, ?_⟩
    obtain ⟨fn, hfn⟩ := hfn
    obtain ⟨f, h1, hf⟩ := linkFilter_eq subset name fn hfn
    unfold LinkReader.new at h
    rw [h1] at h
    simp only [linkLoad] at h
    cases h2 : linkRows subset f ⟨[], [], 0⟩ rows with
    | error e => rw [h2] at h; cases h
    | ok d => exact ((linkRows_eq_ok hf).1 h2).1
  · rintro ⟨⟨fn, hfn⟩, h⟩
    obtain ⟨f, h1, hf⟩ := linkFilter_eq subset name fn hfn
    have h2 := (linkRows_eq_ok hf (d := ⟨[], [], 0⟩)).2 ⟨h, rfl⟩
    exact ⟨_, by simp only [LinkReader.new, h1, linkLoad, h2]; rfl⟩

/-! ### The invariant -/

theorem Linked.mono {ls ls' : List (Int × Int)} (h : ∀ p ∈ ls, p ∈ ls') {i j : Int} (hl : Spec.Linked ls i j) : Spec.Linked ls' i j := by
  induction hl with
  | step hp => exact .step (h _ hp)
  | refl => exact .refl
  | symm _ ih => exact ih.symm
  | trans _ _ ih1 ih2 => exact ih1.trans ih2

/-- What holds of the dictionaries after reading the links `ls`. -/
structure GroupInv (ls : List (Int × Int)) (d : LinkData) : Prop where
  occurs : ∀ i, Spec.Occurs ls i ↔ (Dict.get? d.link i).isSome
  home : ∀ i n, Dict.get? d.link i = some n → ∃ g, Dict.get? d.group n = some g ∧
    ∃ p ∈ ls, (i = p.1 ∨ i = p.2) ∧ p.1 ∈ g ∧ p.2 ∈ g
  members : ∀ n g, Dict.get? d.group n = some g → n < d.nodes ∧ g ≠ [] ∧ g.Nodup ∧ (∀ j ∈ g, Spec.Occurs ls j) ∧
    ∀ j ∈ g, ∀ k ∈ g, Spec.Linked ls j k
  wfl : Dict.WF d.link
  wfg : Dict.WF d.group

theorem setUnion_mem (a b : List Int) (x : Int) : x ∈ setUnion a b ↔ x ∈ a ∨ x ∈ b := by
  unfold setUnion
  simp only [List.mem_append, List.mem_filter, decide_eq_true_eq]
  by_cases h : x ∈ a <;> simp [h]

theorem setUnion_nodup {a b : List Int} (ha : a.Nodup) (hb : b.Nodup) : (setUnion a b).Nodup := by
  unfold setUnion
  rw [List.nodup_append]
  refine ⟨ha, hb.sublist List.filter_sublist, ?_⟩
  intro x hx y hy he
  subst he
  simp only [List.mem_filter, decide_eq_true_eq] at hy
  exact hy.2 hx

theorem foldl_set_get? (new : List Int) (node : Nat) : ∀ (l : Dict Int Nat) (i : Int),
    Dict.get? (new.foldl (fun l k => Dict.set l k node) l) i = if i ∈ new then some node else Dict.get? l i := by
  induction new with
  | nil => intro l i; simp
  | cons k new ih =>
    intro l i
    rw [List.foldl_cons, ih, Dict.get?_set]
    by_cases h : i ∈ new
    · simp [h]
    · by_cases h2 : k = i
      · simp [h2]
      · simp [h, h2, Ne.symm h2]

theorem foldl_set_WF (new : List Int) (node : Nat) : ∀ (l : Dict Int Nat), Dict.WF l →
    Dict.WF (new.foldl (fun l k => Dict.set l k node) l) := by
  induction new with
  | nil => intro l h; exact h
  | cons k new ih => intro l h; exact ih _ (Dict.WF_set h _ _)

theorem linkEnter_link (d : LinkData) (node : Nat) (new : List Int) (i : Int) :
    Dict.get? (linkEnter d node new).link i = if i ∈ new then some node else Dict.get? d.link i :=
  foldl_set_get? new node d.link i

theorem linkEnter_group (d : LinkData) (node : Nat) (new : List Int) (n : Nat) :
    Dict.get? (linkEnter d node new).group n =
      if node = n then some (setUnion ((Dict.get? d.group node).getD []) new) else Dict.get? d.group n := by
  unfold linkEnter
  rw [Dict.get?_set]

/-- Entering the ids `new`, both ends of the new link included in the enlarged group, keeps the invariant. -/
theorem linkEnter_inv {ls : List (Int × Int)} {d : LinkData} (inv : GroupInv ls d) (p : Int × Int) (node : Nat) (new : List Int)
    (nodes : Nat) (hnodes : d.nodes ≤ nodes) (hnode : node < nodes) (hnn : new.Nodup) (hne : new ≠ [])
    (hnew : ∀ i ∈ new, i = p.1 ∨ i = p.2)
    (hocc : ∀ i, (i = p.1 ∨ i = p.2) → i ∈ new ∨ Dict.get? d.link i = some node)
    (hstart : (∃ i, (i = p.1 ∨ i = p.2) ∧ Dict.get? d.link i = some node) ∨ d.nodes ≤ node) :
    GroupInv (ls ++ [p]) (linkEnter { d with nodes := nodes } node new) := by
  obtain ⟨io, ih, im, iw1, iw2⟩ := inv
  have mono : ∀ {i j}, Spec.Linked ls i j → Spec.Linked (ls ++ [p]) i j := fun h => Linked.mono (by intro q hq; simp [hq]) h
  have occ' : ∀ i, Spec.Occurs (ls ++ [p]) i ↔ Spec.Occurs ls i ∨ (i = p.1 ∨ i = p.2) := by
    intro i
    simp only [Spec.Occurs, List.mem_append, List.mem_singleton]
    constructor
    · rintro ⟨q, hq | rfl, h⟩
      · exact Or.inl ⟨q, hq, h⟩
      · exact Or.inr h
    · rintro (⟨q, hq, h⟩ | h)
      · exact ⟨q, Or.inl hq, h⟩
      · exact ⟨p, Or.inr rfl, h⟩
  -- both ends are in the enlarged group
  have hold : ∀ i, Dict.get? d.link i = some node → i ∈ (Dict.get? d.group node).getD [] := by
    intro i hi
    obtain ⟨g, hg, q, hq, hiq, h1, h2⟩ := ih i node hi
    rw [hg]
    rcases hiq with rfl | rfl
    · exact h1
    · exact h2
  have hends : ∀ i, (i = p.1 ∨ i = p.2) → i ∈ setUnion ((Dict.get? d.group node).getD []) new := by
    intro i hi
    rw [setUnion_mem]
    rcases hocc i hi with h | h
    · exact Or.inr h
    · exact Or.inl (hold i h)
  have lp : Spec.Linked (ls ++ [p]) p.1 p.2 := .step (by simp)
  refine ⟨?_, ?_, ?_, ?_, ?_⟩
  · intro i
    rw [occ', linkEnter_link]
    by_cases hi : i ∈ new
    · rw [if_pos hi]; simp [hnew i hi]
    · rw [if_neg hi, io i]
      constructor
      · rintro (h | h)
        · exact h
        · rcases hocc i h with h | h
          · exact absurd h hi
          · rw [h]; rfl
      · exact Or.inl
  · intro i n hi
    rw [linkEnter_link] at hi
    by_cases hin : i ∈ new
    · rw [if_pos hin] at hi
      simp only [Option.some.injEq] at hi
      subst hi
      refine ⟨setUnion ((Dict.get? d.group node).getD []) new, by rw [linkEnter_group, if_pos rfl], p, by simp, hnew i hin, ?_, ?_⟩
      · exact hends _ (Or.inl rfl)
      · exact hends _ (Or.inr rfl)
    · rw [if_neg hin] at hi
      obtain ⟨g, hg, q, hq, hiq, h1, h2⟩ := ih i n hi
      by_cases hn : node = n
      · subst hn
        refine ⟨_, by rw [linkEnter_group, if_pos rfl], q, by simp [hq], hiq, ?_, ?_⟩
        · rw [setUnion_mem]; left; simp [hg, h1]
        · rw [setUnion_mem]; left; simp [hg, h2]
      · exact ⟨g, by rw [linkEnter_group, if_neg hn]; exact hg, q, by simp [hq], hiq, h1, h2⟩
  · intro n g hg
    rw [linkEnter_group] at hg
    by_cases hn : node = n
    · subst hn
      rw [if_pos rfl] at hg
      simp only [Option.some.injEq] at hg
      subst hg
      have hnd : ((Dict.get? d.group node).getD []).Nodup := by
        cases h : Dict.get? d.group node with
        | none => simp
        | some g => exact (im _ _ h).2.2.1
      refine ⟨hnode, ?_, setUnion_nodup hnd hnn, ?_, ?_⟩
      · obtain ⟨x, new', rfl⟩ := List.exists_cons_of_ne_nil hne
        have : x ∈ setUnion ((Dict.get? d.group node).getD []) (x :: new') := by rw [setUnion_mem]; simp
        exact List.ne_nil_of_mem this
      · intro j hj
        rw [setUnion_mem] at hj
        rw [occ']
        rcases hj with hj | hj
        · cases h : Dict.get? d.group node with
          | none => rw [h] at hj; simp at hj
          | some g => rw [h] at hj; exact Or.inl ((im _ _ h).2.2.2.1 j hj)
        · exact Or.inr (hnew j hj)
      · -- every member is connected to p.1
        have conn : ∀ j ∈ setUnion ((Dict.get? d.group node).getD []) new, Spec.Linked (ls ++ [p]) j p.1 := by
          intro j hj
          rw [setUnion_mem] at hj
          have fromNew : (j = p.1 ∨ j = p.2) → Spec.Linked (ls ++ [p]) j p.1 := by
            rintro (rfl | rfl)
            · exact .refl
            · exact lp.symm
          rcases hj with hj | hj
          · cases h : Dict.get? d.group node with
            | none => rw [h] at hj; simp at hj
            | some g =>
              rw [h] at hj
              rcases hstart with ⟨i, hi, hl⟩ | hfresh
              · have hig := hold i hl
                rw [h] at hig
                have h1 := mono ((im _ _ h).2.2.2.2 j hj i hig)
                rcases hi with rfl | rfl
                · exact h1
                · exact h1.trans lp.symm
              · have := (im _ _ h).1
                omega
          · exact fromNew (hnew j hj)
        intro j hj k hk
        exact (conn j hj).trans (conn k hk).symm
    · rw [if_neg hn] at hg
      obtain ⟨h1, h2, h3, h4, h5⟩ := im n g hg
      refine ⟨?_, h2, h3, fun j hj => (occ' j).2 (Or.inl (h4 j hj)), fun j hj k hk => mono (h5 j hj k hk)⟩
      show n < nodes
      omega
  · exact foldl_set_WF _ _ _ iw1
  · exact Dict.WF_set iw2 _ _

theorem linkAdd_inv {ls : List (Int × Int)} {d : LinkData} (inv : GroupInv ls d) (p : Int × Int) :
    GroupInv (ls ++ [p]) (linkAdd d p) := by
  unfold linkAdd
  cases h1 : Dict.get? d.link p.1 with
  | some node =>
    obtain ⟨g, hg, _⟩ := inv.home _ _ h1
    refine linkEnter_inv inv p node [p.2] d.nodes (Nat.le_refl _) (inv.members _ _ hg).1 (by simp) (by simp) (by simp) ?_
      (Or.inl ⟨p.1, Or.inl rfl, h1⟩)
    rintro i (rfl | rfl)
    · exact Or.inr h1
    · exact Or.inl (by simp)
  | none =>
    cases h2 : Dict.get? d.link p.2 with
    | some node =>
      obtain ⟨g, hg, _⟩ := inv.home _ _ h2
      refine linkEnter_inv inv p node [p.1] d.nodes (Nat.le_refl _) (inv.members _ _ hg).1 (by simp) (by simp) (by simp) ?_
        (Or.inl ⟨p.2, Or.inr rfl, h2⟩)
      rintro i (rfl | rfl)
      · exact Or.inl (by simp)
      · exact Or.inr h2
    | none =>
      refine linkEnter_inv inv p d.nodes _ (d.nodes + 1) (Nat.le_succ _) (Nat.lt_succ_self _) ?_ ?_ ?_ ?_ (Or.inr (Nat.le_refl _))
      · split
        · simp
        · rename_i hne
          simp [Ne.symm hne]
      · split <;> simp
      · intro i hi
        split at hi
        · simp at hi; exact Or.inl hi
        · simp at hi; exact hi.symm
      · intro i hi
        left
        split
        · rename_i he
          rcases hi with rfl | rfl <;> simp [he]
        · rcases hi with rfl | rfl <;> simp

theorem linkInv_foldl (ls : List (Int × Int)) : ∀ {before : List (Int × Int)} {d : LinkData}, GroupInv before d →
    GroupInv (before ++ ls) (ls.foldl linkAdd d) := by
  induction ls with
  | nil => intro before d h; simpa using h
  | cons p ls ih =>
    intro before d h
    have := ih (linkAdd_inv h p)
    simpa using this

theorem linkInv_empty : GroupInv [] ⟨[], [], 0⟩ :=
  ⟨by simp [Spec.Occurs], by simp, by simp, Dict.WF_nil, Dict.WF_nil⟩

theorem linkInv_all (ls : List (Int × Int)) : GroupInv ls (ls.foldl linkAdd ⟨[], [], 0⟩) := by
  simpa using linkInv_foldl ls linkInv_empty

theorem groupOf_eq_ok {ls : List (Int × Int)} {d : LinkData} (inv : GroupInv ls d) {i : Int} {g : List Int} :
    d.groupOf i = .ok g ↔ ∃ n, Dict.get? d.link i = some n ∧ Dict.get? d.group n = some g := by
  unfold LinkData.groupOf LinkData.getItem Dict.getItem
  cases h1 : Dict.get? d.link i with
  | none => simp
  | some n =>
    obtain ⟨g', hg, _⟩ := inv.home i n h1
    simp [hg]

/-! ### C57, C58 -/

section
variable {src : Str} {rows : Rows} {subset : Option (List Int)} {name : Str} {fn : Spec.FilterName} {r : LinkReader}

/-- C57: every id of an accepted link has a group; the group contains the id, together with both ends of an accepted link of this id,
only ids of accepted links, and none twice. -/
theorem C57_own_group (hn : asciiLower name = fn.text) (h : LinkReader.new src rows subset name = .ok r) (i : Int)
    (hi : Spec.Occurs (Spec.links subset fn rows.1) i) :
    ∃ g, r.data.groupOf i = .ok g ∧ i ∈ g ∧ g.Nodup ∧ (∀ j ∈ g, Spec.Occurs (Spec.links subset fn rows.1) j) ∧
      ∃ p ∈ Spec.links subset fn rows.1, (i = p.1 ∨ i = p.2) ∧ p.1 ∈ g ∧ p.2 ∈ g := by
  have inv := linkInv_all (Spec.links subset fn rows.1)
  rw [linkReader_new hn h]
  have hs := (inv.occurs i).1 hi
  rw [Option.isSome_iff_exists] at hs
  obtain ⟨n, hn⟩ := hs
  obtain ⟨g, hg, p, hp, hip, h1, h2⟩ := inv.home i n hn
  obtain ⟨_, _, h5, h6, _⟩ := inv.members n g hg
  refine ⟨g, (groupOf_eq_ok inv).2 ⟨n, hn, hg⟩, ?_, h5, h6, p, hp, hip, h1, h2⟩
  rcases hip with rfl | rfl
  · exact h1
  · exact h2

/-- C57: `group` raises InvalidIDError for every other id. -/
theorem C57_invalid_id (hn : asciiLower name = fn.text) (h : LinkReader.new src rows subset name = .ok r) (i : Int)
    (hi : ¬ Spec.Occurs (Spec.links subset fn rows.1) i) : r.data.groupOf i = .error .invalidIDError := by
  have inv := linkInv_all (Spec.links subset fn rows.1)
  rw [linkReader_new hn h]
  have hs : Dict.get? ((Spec.links subset fn rows.1).foldl linkAdd ⟨[], [], 0⟩).link i = none := by
    cases hc : Dict.get? ((Spec.links subset fn rows.1).foldl linkAdd ⟨[], [], 0⟩).link i with
    | none => rfl
    | some n => exact absurd ((inv.occurs i).2 (by rw [hc]; rfl)) hi
  simp [LinkData.groupOf, LinkData.getItem, Dict.getItem, hs]

/-- C58: any two members of a group, be it the group of an id or one of `groups()`, are connected by accepted links. -/
theorem C58_connected (hn : asciiLower name = fn.text) (h : LinkReader.new src rows subset name = .ok r) (g : List Int)
    (hg : g ∈ r.data.groups ∨ ∃ i, r.data.groupOf i = .ok g) (j k : Int) (hj : j ∈ g) (hk : k ∈ g) :
    Spec.Linked (Spec.links subset fn rows.1) j k := by
  have inv := linkInv_all (Spec.links subset fn rows.1)
  rw [linkReader_new hn h] at hg
  obtain ⟨n, hg⟩ : ∃ n, Dict.get? ((Spec.links subset fn rows.1).foldl linkAdd ⟨[], [], 0⟩).group n = some g := by
    rcases hg with hg | ⟨i, hg⟩
    · simp only [LinkData.groups, Dict.values, List.mem_map] at hg
      obtain ⟨kv, hkv, rfl⟩ := hg
      exact ⟨kv.1, (Dict.get?_eq_some_iff inv.wfg _ _).2 hkv⟩
    · obtain ⟨n, _, hg⟩ := (groupOf_eq_ok inv).1 hg
      exact ⟨n, hg⟩
  exact (inv.members n g hg).2.2.2.2 j hj k hk

end

/-! ### C59 -/

/-- In addition, when no link merges two groups. -/
structure CompInv (ls : List (Int × Int)) (d : LinkData) : Prop where
  pairs : ∀ p ∈ ls, Dict.get? d.link p.1 = Dict.get? d.link p.2
  fresh : ∀ n g, Dict.get? d.group n = some g → ∀ i ∈ g, Dict.get? d.link i = some n

theorem CompInv.linked {ls : List (Int × Int)} {d : LinkData} (h : CompInv ls d) {i j : Int} (hl : Spec.Linked ls i j) :
    Dict.get? d.link i = Dict.get? d.link j := by
  induction hl with
  | step hp => exact h.pairs _ hp
  | refl => rfl
  | symm _ ih => exact ih.symm
  | trans _ _ ih1 ih2 => exact ih1.trans ih2

/-- Entering ids that have no group yet, or the same one. -/
theorem linkEnter_comp {ls : List (Int × Int)} {d : LinkData} (inv : GroupInv ls d) (comp : CompInv ls d) (p : Int × Int) (node : Nat)
    (new : List Int) (nodes : Nat)
    (hnew : ∀ i ∈ new, (Dict.get? d.link i = none ∨ Dict.get? d.link i = some node))
    (hocc : ∀ i, (i = p.1 ∨ i = p.2) → i ∈ new ∨ Dict.get? d.link i = some node) :
    CompInv (ls ++ [p]) (linkEnter { d with nodes := nodes } node new) := by
  have hends : ∀ i, (i = p.1 ∨ i = p.2) → Dict.get? (linkEnter { d with nodes := nodes } node new).link i = some node := by
    intro i hi
    rw [linkEnter_link]
    rcases hocc i hi with h | h
    · rw [if_pos h]
    · split
      · rfl
      · exact h
  have hsame : ∀ i, Dict.get? d.link i ≠ none →
      Dict.get? (linkEnter { d with nodes := nodes } node new).link i = Dict.get? d.link i := by
    intro i hi
    rw [linkEnter_link]
    split
    · rename_i h
      rcases hnew i h with h2 | h2
      · exact absurd h2 hi
      · exact h2.symm
    · rfl
  constructor
  · intro q hq
    rcases List.mem_append.1 hq with hq | hq
    · have o1 : Dict.get? d.link q.1 ≠ none := by
        have := (inv.occurs q.1).1 ⟨q, hq, Or.inl rfl⟩
        intro hc; rw [hc] at this; cases this
      have o2 : Dict.get? d.link q.2 ≠ none := by rw [← comp.pairs q hq]; exact o1
      rw [hsame _ o1, hsame _ o2, comp.pairs q hq]
    · rw [List.mem_singleton] at hq
      subst hq
      rw [hends _ (Or.inl rfl), hends _ (Or.inr rfl)]
  · intro n g hg i hi
    rw [linkEnter_group] at hg
    by_cases hn : node = n
    · subst hn
      rw [if_pos rfl] at hg
      simp only [Option.some.injEq] at hg
      subst hg
      rw [linkEnter_link]
      by_cases hin : i ∈ new
      · rw [if_pos hin]
      · rw [if_neg hin]
        rw [setUnion_mem] at hi
        rcases hi with hi | hi
        · cases hc : Dict.get? d.group node with
          | none => rw [hc] at hi; simp at hi
          | some g => rw [hc] at hi; exact comp.fresh node g hc i hi
        · exact absurd hi hin
    · rw [if_neg hn] at hg
      have := comp.fresh n g hg i hi
      rw [hsame i (by rw [this]; simp), this]

theorem linkAdd_comp {ls : List (Int × Int)} {d : LinkData} (inv : GroupInv ls d) (comp : CompInv ls d) (p : Int × Int)
    (hp : Spec.Occurs ls p.1 → Spec.Occurs ls p.2 → Spec.Linked ls p.1 p.2) : CompInv (ls ++ [p]) (linkAdd d p) := by
  unfold linkAdd
  cases h1 : Dict.get? d.link p.1 with
  | some node =>
    refine linkEnter_comp inv comp p node [p.2] d.nodes ?_ ?_
    · intro i hi
      rw [List.mem_singleton] at hi
      subst hi
      cases h2 : Dict.get? d.link p.2 with
      | none => exact Or.inl rfl
      | some n =>
        right
        rw [← h2, ← comp.linked (hp ((inv.occurs _).2 (by rw [h1]; rfl)) ((inv.occurs _).2 (by rw [h2]; rfl))), h1]
    · rintro i (rfl | rfl)
      · exact Or.inr h1
      · exact Or.inl (by simp)
  | none =>
    cases h2 : Dict.get? d.link p.2 with
    | some node =>
      refine linkEnter_comp inv comp p node [p.1] d.nodes ?_ ?_
      · intro i hi
        rw [List.mem_singleton] at hi
        subst hi
        exact Or.inl h1
      · rintro i (rfl | rfl)
        · exact Or.inl (by simp)
        · exact Or.inr h2
    | none =>
      refine linkEnter_comp inv comp p d.nodes _ (d.nodes + 1) ?_ ?_
      · intro i hi
        left
        split at hi
        · simp at hi; rw [hi]; exact h1
        · simp at hi
          rcases hi with rfl | rfl
          · exact h2
          · exact h1
      · intro i hi
        left
        split
        · rename_i he
          rcases hi with rfl | rfl <;> simp [he]
        · rcases hi with rfl | rfl <;> simp

theorem compInv_foldl (ls : List (Int × Int)) : ∀ {before : List (Int × Int)} {d : LinkData}, GroupInv before d → CompInv before d →
    Spec.NeverMerges (before ++ ls) → CompInv (before ++ ls) (ls.foldl linkAdd d) := by
  induction ls with
  | nil => intro before d _ h _; simpa using h
  | cons p ls ih =>
    intro before d inv comp hm
    have := ih (linkAdd_inv inv p) (linkAdd_comp inv comp p (hm before p ls rfl)) (by simpa using hm)
    simpa using this

theorem compInv_all {ls : List (Int × Int)} (h : Spec.NeverMerges ls) : CompInv ls (ls.foldl linkAdd ⟨[], [], 0⟩) := by
  have := compInv_foldl ls linkInv_empty ⟨by simp, by simp⟩ (by simpa using h)
  simpa using this

section
variable {src : Str} {rows : Rows} {subset : Option (List Int)} {name : Str} {fn : Spec.FilterName} {r : LinkReader}

/-- C59 (partial): if no accepted link joins two ids that both occurred before and were not connected before, the group of an id is its
connected component, and the groups partition the linked ids.  The full statement has no such hypothesis; without it, it is
false (see below). -/
theorem C59_components_partial (hn : asciiLower name = fn.text) (h : LinkReader.new src rows subset name = .ok r)
    (hm : Spec.NeverMerges (Spec.links subset fn rows.1)) :
    (∀ i g, r.data.groupOf i = .ok g → ∀ j, j ∈ g ↔ Spec.Linked (Spec.links subset fn rows.1) i j) ∧
    (∀ i, Spec.Occurs (Spec.links subset fn rows.1) i → ∃ g ∈ r.data.groups, i ∈ g) ∧
    (∀ g ∈ r.data.groups, g ≠ [] ∧ ∀ i ∈ g, r.data.groupOf i = .ok g) ∧
    r.data.groups.Pairwise (fun g g' => ∀ i ∈ g, i ∉ g') := by
  have inv := linkInv_all (Spec.links subset fn rows.1)
  have comp := compInv_all hm
  rw [linkReader_new hn h]
  have memGroups : ∀ g, g ∈ ((Spec.links subset fn rows.1).foldl linkAdd ⟨[], [], 0⟩).groups ↔
      ∃ n, Dict.get? ((Spec.links subset fn rows.1).foldl linkAdd ⟨[], [], 0⟩).group n = some g := by
    intro g
    simp only [LinkData.groups, Dict.values, List.mem_map]
    constructor
    · rintro ⟨kv, hkv, rfl⟩
      exact ⟨kv.1, (Dict.get?_eq_some_iff inv.wfg _ _).2 hkv⟩
    · rintro ⟨n, hg⟩
      exact ⟨(n, g), Dict.mem_of_get?_eq_some hg, rfl⟩
  have mem_of_link : ∀ i n g, Dict.get? ((Spec.links subset fn rows.1).foldl linkAdd ⟨[], [], 0⟩).link i = some n →
      Dict.get? ((Spec.links subset fn rows.1).foldl linkAdd ⟨[], [], 0⟩).group n = some g → i ∈ g := by
    intro i n g h1 h2
    obtain ⟨g', hg', p, _, hip, e1, e2⟩ := inv.home i n h1
    rw [h2] at hg'
    simp only [Option.some.injEq] at hg'
    subst hg'
    rcases hip with rfl | rfl
    · exact e1
    · exact e2
  refine ⟨?_, ?_, ?_, ?_⟩
  · intro i g hg j
    obtain ⟨n, h1, h2⟩ := (groupOf_eq_ok inv).1 hg
    constructor
    · intro hj
      exact (inv.members n g h2).2.2.2.2 i (mem_of_link i n g h1 h2) j hj
    · intro hl
      exact mem_of_link j n g (by rw [← comp.linked hl]; exact h1) h2
  · intro i hi
    have hs := (inv.occurs i).1 hi
    rw [Option.isSome_iff_exists] at hs
    obtain ⟨n, h1⟩ := hs
    obtain ⟨g, hg, _⟩ := inv.home i n h1
    exact ⟨g, (memGroups g).2 ⟨n, hg⟩, mem_of_link i n g h1 hg⟩
  · intro g hg
    obtain ⟨n, hg⟩ := (memGroups g).1 hg
    refine ⟨(inv.members n g hg).2.1, ?_⟩
    intro i hi
    exact (groupOf_eq_ok inv).2 ⟨n, comp.fresh n g hg i hi, hg⟩
  · have hw := inv.wfg
    unfold Dict.WF Dict.keys List.Nodup at hw
    rw [List.pairwise_map] at hw
    unfold LinkData.groups Dict.values
    rw [List.pairwise_map]
    refine hw.imp_of_mem ?_
    intro a b ha hb hne i hia hib
    have e1 := comp.fresh a.1 a.2 ((Dict.get?_eq_some_iff inv.wfg _ _).2 ha) i hia
    have e2 := comp.fresh b.1 b.2 ((Dict.get?_eq_some_iff inv.wfg _ _).2 hb) i hib
    rw [e1] at e2
    exact hne (Option.some.inj e2)

end

/-- C59 as stated is false: when a link joins two groups that exist already, only one id moves. -/
theorem C59_components_refuted :
    ∃ r, LinkReader.new u!"links.csv" ([[u!"1", u!"2"], [u!"3", u!"4"], [u!"1", u!"3"]], none) none u!"both" = .ok r ∧
      r.data.groupOf 1 = .ok [2, 1, 3] ∧ r.data.groupOf 4 = .ok [4, 3] ∧
      Spec.Linked (Spec.links none .both [[u!"1", u!"2"], [u!"3", u!"4"], [u!"1", u!"3"]]) 1 4 := by
  refine ⟨_, rfl, by decide +kernel, by decide +kernel, ?_⟩
  have e : Spec.links none .both [[u!"1", u!"2"], [u!"3", u!"4"], [u!"1", u!"3"]] = [(1, 2), (3, 4), (1, 3)] := by decide +kernel
  rw [e]
  exact .trans (b := 3) (.step (by simp)) (.step (by simp))

/-- The hypotheses of the theorems hold of a small file with a filter, in which a link connects ids of one group once more. -/
theorem demoLinks_eq : Spec.links (some [1, 2, 3, 4, 5]) .sentId
    [[u!"1", u!"2"], [u!"2", u!"3"], [u!"9", u!"1"], [u!"3", u!"1"], [u!"4", u!"5"]] = [(1, 2), (2, 3), (3, 1), (4, 5)] := by
  decide +kernel

example : ∃ r, LinkReader.new u!"links.csv"
    ([[u!"1", u!"2"], [u!"2", u!"3"], [u!"9", u!"1"], [u!"3", u!"1"], [u!"4", u!"5"]], none) (some [1, 2, 3, 4, 5]) u!"Sent_ID" = .ok r ∧
      asciiLower u!"Sent_ID" = Spec.FilterName.sentId.text ∧ r.data.groupOf 3 = .ok [2, 1, 3] := by
  refine ⟨_, rfl, by decide +kernel, by decide +kernel⟩

example : Spec.NeverMerges [(1, 2), (2, 3), (3, 1), (4, 5)] := by
  intro before p after h o1 o2
  match before, h with
  | [], h => obtain ⟨q, hq, _⟩ := o1; cases hq
  | [a], h =>
    simp only [List.cons_append, List.nil_append, List.cons.injEq] at h
    obtain ⟨rfl, rfl, _⟩ := h
    obtain ⟨q, hq, hh⟩ := o2
    simp only [List.mem_singleton] at hq
    subst hq
    omega
  | [a, b], h =>
    simp only [List.cons_append, List.nil_append, List.cons.injEq] at h
    obtain ⟨rfl, rfl, rfl, _⟩ := h
    exact .symm (.trans (b := 2) (.step (by simp)) (.step (by simp)))
  | [a, b, c], h =>
    simp only [List.cons_append, List.nil_append, List.cons.injEq] at h
    obtain ⟨rfl, rfl, rfl, rfl, _⟩ := h
    obtain ⟨q, hq, hh⟩ := o1
    simp only [List.mem_cons, List.not_mem_nil, or_false] at hq
    rcases hq with rfl | rfl | rfl <;> omega
  | a :: b :: c :: e :: before, h => simp at h

end Cjk
