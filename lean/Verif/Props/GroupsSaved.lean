import Verif.Props.TatoebaLinksIff
import Verif.Props.CsvWritten
import Verif.Props.Export
import Mathlib.Data.List.Forall2
/-!
# C186: groups of sentences can be written out as links and read again
-/

namespace Cjk
open Py

/-! ### Specification -/

/-- One link from the first member of a group to each of its members. -/
def Spec.starLinks (gs : List (List Int)) : List (Int × Int) := gs.flatMap (fun g => g.map (fun i => (g.headD 0, i)))

/-- The text of a file with these links, as `csv.writer` writes it. -/
def Spec.linksText (ls : List (Int × Int)) : Str := Spec.writerText (ls.map (fun p => [showInt p.1, showInt p.2]))

/-- Two readers give the same answers; groups are sets. -/
def Spec.SameGroups (a b : LinkData) : Prop :=
  List.Forall₂ List.Perm a.groups b.groups ∧
  ∀ i, (∃ g h, a.groupOf i = .ok g ∧ b.groupOf i = .ok h ∧ g.Perm h) ∨
    (a.groupOf i = .error .invalidIDError ∧ b.groupOf i = .error .invalidIDError)

/-- `gs` lists the groups of the reader, with the members of each in some order. -/
def Spec.Lists (gs : List (List Int)) (d : LinkData) : Prop := List.Forall₂ List.Perm gs d.groups

/-! ### Reading the links of a star -/

theorem dictSet_last {V : Type} {d : Dict Nat V} {n : Nat} {v w : V} (h : n ∉ Dict.keys d) : Dict.set (d ++ [(n, v)]) n w = d ++ [(n, w)] := by
  induction d with
  | nil => simp [Dict.set]
  | cons x d ih =>
    obtain ⟨k, u⟩ := x
    simp only [Dict.keys_cons, List.mem_cons, not_or] at h
    simp only [List.cons_append, Dict.set, if_neg (Ne.symm h.1), ih h.2]

theorem dictGet_append {V : Type} (d e : Dict Nat V) (n : Nat) : Dict.get? (d ++ e) n = (Dict.get? d n).or (Dict.get? e n) := by
  induction d with
  | nil => simp
  | cons x d ih =>
    obtain ⟨k, u⟩ := x
    simp only [List.cons_append, Dict.get?_cons]
    split <;> simp [ih]

/-- The dictionaries hold exactly the groups `gs`. -/
structure StarInv (gs : List (List Int)) (d : LinkData) : Prop where
  nodes : d.nodes = gs.length
  groups : d.groups = gs
  keys : Dict.keys d.group = List.range gs.length
  get : ∀ n, Dict.get? d.group n = gs[n]?
  inside : ∀ (n : Nat) g, gs[n]? = some g → ∀ i ∈ g, Dict.get? d.link i = some n
  outside : ∀ i, (∀ g ∈ gs, i ∉ g) → Dict.get? d.link i = none

theorem star_rest (x : Int) (rest : List Int) : ∀ (ys : List Int) (G : Dict Nat (List Int)) (n : Nat) (d : LinkData), n ∉ Dict.keys G →
    d.group = G ++ [(n, ys)] → Dict.get? d.link x = some n → (ys ++ rest).Nodup →
    ∃ d', rest.foldl (fun d i => linkAdd d (x, i)) d = d' ∧ d'.nodes = d.nodes ∧ d'.group = G ++ [(n, ys ++ rest)] ∧
      ∀ i, Dict.get? d'.link i = if i ∈ rest then some n else Dict.get? d.link i := by
  induction rest with
  | nil => intro ys G n d _ hg _ _; exact ⟨d, rfl, rfl, by simp [hg], by simp⟩
  | cons y rest ih =>
    intro ys G n d hn hg hx hnd
    have hadd : linkAdd d (x, y) = linkEnter d n [y] := by unfold linkAdd; simp only [hx]
    have hy : y ∉ ys := by
      intro h
      exact (List.nodup_append.1 hnd).2.2 y h y (by simp) rfl
    have hgg : Dict.get? d.group n = some ys := by
      rw [hg, dictGet_append, (Dict.get?_eq_none_iff _ _).2 hn]
      simp [Dict.get?]
    have hgroup : (linkEnter d n [y]).group = G ++ [(n, ys ++ [y])] := by
      show Dict.set d.group n (setUnion ((Dict.get? d.group n).getD []) [y]) = _
      rw [hgg]
      have : setUnion ys [y] = ys ++ [y] := by simp [setUnion, hy]
      rw [Option.getD_some, this, hg, dictSet_last hn]
    have hlink := linkEnter_link d n [y]
    obtain ⟨d', e1, e2, e3, e4⟩ := ih (ys ++ [y]) G n (linkEnter d n [y]) hn hgroup (by rw [hlink]; split <;> simp [hx]) (by simpa using hnd)
    refine ⟨d', by rw [List.foldl_cons, hadd]; exact e1, e2, by rw [e3]; simp, ?_⟩
    intro i
    rw [e4, hlink]
    by_cases h1 : i ∈ rest
    · simp [h1]
    · by_cases h2 : i = y
      · simp [h2]
      · simp [h1, h2]

theorem star_group {gs : List (List Int)} {d : LinkData} (h : StarInv gs d) (g : List Int) (hne : g ≠ []) (hnd : g.Nodup) (hdis : ∀ g' ∈ gs, ∀ i ∈ g, i ∉ g') :
    StarInv (gs ++ [g]) ((g.map (fun i => (g.headD 0, i))).foldl linkAdd d) := by
  obtain ⟨x, rest, rfl⟩ := List.exists_cons_of_ne_nil hne
  have hx : Dict.get? d.link x = none := h.outside x (fun g' hg' => hdis g' hg' x (by simp))
  have hn : gs.length ∉ Dict.keys d.group := by rw [h.keys]; simp
  have hadd : linkAdd d (x, x) = linkEnter { d with nodes := d.nodes + 1 } d.nodes [x] := by unfold linkAdd; simp [hx]
  have hg0 : Dict.get? d.group d.nodes = none := by rw [h.get, h.nodes]; simp
  have hgroup : (linkAdd d (x, x)).group = d.group ++ [(gs.length, [x])] := by
    rw [hadd]
    show Dict.set d.group d.nodes (setUnion ((Dict.get? d.group d.nodes).getD []) [x]) = _
    rw [hg0, Dict.set_of_not_mem _ _ _ (by rw [h.nodes]; exact hn), h.nodes]
    simp [setUnion]
  have hlink : ∀ i, Dict.get? (linkAdd d (x, x)).link i = if i = x then some gs.length else Dict.get? d.link i := by
    intro i
    rw [hadd, linkEnter_link, h.nodes]
    simp
  have hnodes : (linkAdd d (x, x)).nodes = gs.length + 1 := by rw [hadd]; show d.nodes + 1 = _; rw [h.nodes]
  obtain ⟨d', e1, e2, e3, e4⟩ := star_rest x rest [x] d.group gs.length (linkAdd d (x, x)) hn hgroup (by rw [hlink]; simp) (by simpa using hnd)
  have hd' : ((x :: rest).map (fun i => ((x :: rest).headD 0, i))).foldl linkAdd d = d' := by
    rw [← e1]
    simp only [List.headD_cons, List.map_cons, List.foldl_cons, List.foldl_map]
  rw [hd']
  have hlk : ∀ i, Dict.get? d'.link i = if i ∈ x :: rest then some gs.length else Dict.get? d.link i := by
    intro i
    rw [e4, hlink]
    by_cases h1 : i ∈ rest
    · simp [h1]
    · simp [h1]
  refine ⟨by rw [e2, hnodes]; simp, ?_, ?_, ?_, ?_, ?_⟩
  · have := h.groups
    simp only [LinkData.groups, Dict.values] at this ⊢
    rw [e3, List.map_append, this]
    simp
  · rw [e3]
    have := h.keys
    simp only [Dict.keys] at this ⊢
    rw [List.map_append, this]
    simp [List.range_succ]
  · intro n
    rw [e3, dictGet_append, h.get]
    by_cases hn' : n < gs.length
    · rw [List.getElem?_append_left hn']
      simp [hn']
    · rw [List.getElem?_append_right (by omega)]
      by_cases he : n = gs.length
      · subst he
        simp [Dict.get?]
      · have h1 : n - gs.length ≠ 0 := by omega
        obtain ⟨m, hm⟩ := Nat.exists_eq_succ_of_ne_zero h1
        have : gs[n]? = none := by simp; omega
        rw [this, hm]
        simp [Dict.get?, Ne.symm he]
  · intro n g hg i hi
    rw [hlk]
    by_cases hn' : n < gs.length
    · rw [List.getElem?_append_left hn'] at hg
      rw [if_neg (fun hm => hdis g (List.mem_of_getElem? hg) i hm hi)]
      exact h.inside n g hg i hi
    · rw [List.getElem?_append_right (by omega)] at hg
      by_cases he : n = gs.length
      · subst he
        simp only [Nat.sub_self, List.getElem?_cons_zero, Option.some.injEq] at hg
        rw [hg, if_pos hi]
      · have h1 : n - gs.length ≠ 0 := by omega
        obtain ⟨m, hm⟩ := Nat.exists_eq_succ_of_ne_zero h1
        rw [hm] at hg
        simp at hg
  · intro i hi
    rw [hlk, if_neg (hi _ (by simp))]
    exact h.outside i (fun g hg => hi g (by simp [hg]))

theorem star_all (todo : List (List Int)) : ∀ (gs : List (List Int)) (d : LinkData), StarInv gs d → (∀ g ∈ todo, g ≠ [] ∧ g.Nodup) →
    (gs ++ todo).Pairwise (fun g g' => ∀ i ∈ g, i ∉ g') → StarInv (gs ++ todo) ((Spec.starLinks todo).foldl linkAdd d) := by
  induction todo with
  | nil => intro gs d h _ _; simpa [Spec.starLinks] using h
  | cons g todo ih =>
    intro gs d h hg hp
    have h1 := star_group h g (hg g (by simp)).1 (hg g (by simp)).2 (by
      intro g' hg' i hi hi'
      exact (List.pairwise_append.1 hp).2.2 g' hg' g (by simp) i hi' hi)
    have := ih (gs ++ [g]) _ h1 (fun g' hg' => hg g' (by simp [hg'])) (by simpa using hp)
    simp only [Spec.starLinks, List.flatMap_cons, List.foldl_append] at this ⊢
    simpa using this

theorem starInv_empty : StarInv [] ⟨[], [], 0⟩ := ⟨rfl, rfl, rfl, by intro n; simp, by intro n g h; simp at h, by intro i _; simp⟩

theorem StarInv.groupOf {gs : List (List Int)} {d : LinkData} (h : StarInv gs d) :
    (∀ g ∈ gs, ∀ i ∈ g, d.groupOf i = .ok g) ∧ ∀ i, (∀ g ∈ gs, i ∉ g) → d.groupOf i = .error .invalidIDError := by
  refine ⟨?_, ?_⟩
  · intro g hg i hi
    obtain ⟨n, hn⟩ := List.getElem?_of_mem hg
    have h1 := h.inside n g hn i hi
    have h2 := h.get n
    rw [hn] at h2
    simp [LinkData.groupOf, LinkData.getItem, Dict.getItem, h1, h2]
  · intro i hi
    simp [LinkData.groupOf, LinkData.getItem, Dict.getItem, h.outside i hi]

/-! ### Reading a file of links -/

theorem linksFile (lim : Nat) (ls : List (Int × Int)) (hlim : ∀ p ∈ ls, (showInt p.1).length ≤ lim ∧ (showInt p.2).length ≤ lim) :
    loadFile lim (fileLines (Spec.linksText ls)) = (ls.map (fun p => [showInt p.1, showInt p.2]), none) := by
  have hnum : ∀ i : Int, ∀ c ∈ showInt i, c ≠ c!"\r" ∧ c ≠ 0 := by
    intro i c hc
    rcases showInt_plain i c hc with h | rfl
    · unfold AsciiDigit at h
      exact ⟨fun e => by rw [e] at h; revert h; decide, fun e => by rw [e] at h; revert h; decide⟩
    · decide
  refine (C125_writer_iff lim _ ?_).2 ?_
  · intro row hrow f hf
    obtain ⟨p, hp, rfl⟩ := List.mem_map.1 hrow
    simp only [List.mem_cons, List.not_mem_nil, or_false] at hf
    rcases hf with rfl | rfl
    · exact ⟨fun h0 => (hnum _ 0 h0).2 rfl, (hlim p hp).1⟩
    · exact ⟨fun h0 => (hnum _ 0 h0).2 rfl, (hlim p hp).2⟩
  · intro row hrow f hf
    obtain ⟨p, hp, rfl⟩ := List.mem_map.1 hrow
    simp only [List.mem_cons, List.not_mem_nil, or_false] at hf
    rcases hf with rfl | rfl
    · exact fun h0 => (hnum _ _ h0).1 rfl
    · exact fun h0 => (hnum _ _ h0).1 rfl

theorem linkRows_plain (ls : List (Int × Int)) : ∀ d, linkRows none (false, false) d (ls.map (fun p => [showInt p.1, showInt p.2])) = .ok (ls.foldl linkAdd d) := by
  induction ls with
  | nil => intro d; rfl
  | cons p ls ih =>
    intro d
    have : linkPair [showInt p.1, showInt p.2] = .ok p := by
      unfold linkPair
      simp only [pyInt_showInt]
    rw [List.map_cons, linkRows, this]
    simp only [linkSkip, Bool.false_and, Bool.or_false, if_false, Bool.false_eq_true]
    exact ih _

/-- The reader of such a file. -/
theorem reader_plain (src : Str) (lim : Nat) (ls : List (Int × Int)) (hlim : ∀ p ∈ ls, (showInt p.1).length ≤ lim ∧ (showInt p.2).length ≤ lim)
    (name : Str) (fn : Spec.FilterName) (hn : asciiLower name = fn.text) :
    LinkReader.new src (loadFile lim (fileLines (Spec.linksText ls))) none name =
      .ok ⟨none, (false, false), src, ls.foldl linkAdd ⟨[], [], 0⟩⟩ := by
  rw [linksFile lim ls hlim]
  have hf : linkFilter none name = .ok (false, false) := by
    unfold linkFilter
    cases fn <;> simp only [Spec.FilterName.text] at hn <;> simp only [hn] <;> rfl
  unfold LinkReader.new
  rw [hf]
  simp only [linkLoad, linkRows_plain]

/-- C186: every family of disjoint groups is what is read from some file of links. -/
theorem C186_any_groups (gs : List (List Int)) (hgs : ∀ g ∈ gs, g ≠ [] ∧ g.Nodup) (hdis : gs.Pairwise (fun g g' => ∀ i ∈ g, i ∉ g'))
    (src : Str) (lim : Nat) (hlim : ∀ p ∈ Spec.starLinks gs, (showInt p.1).length ≤ lim ∧ (showInt p.2).length ≤ lim)
    (name : Str) (fn : Spec.FilterName) (hn : asciiLower name = fn.text) :
    ∃ r, LinkReader.new src (loadFile lim (fileLines (Spec.linksText (Spec.starLinks gs)))) none name = .ok r ∧ r.data.groups = gs ∧
      (∀ g ∈ gs, ∀ i ∈ g, r.data.groupOf i = .ok g) ∧ ∀ i, (∀ g ∈ gs, i ∉ g) → r.data.groupOf i = .error .invalidIDError := by
  have h := star_all gs [] ⟨[], [], 0⟩ starInv_empty hgs (by simpa using hdis)
  rw [List.nil_append] at h
  exact ⟨_, reader_plain src lim _ hlim name fn hn, h.groups, h.groupOf.1, h.groupOf.2⟩

/-! ### Exactly which groups survive -/

/-- The groups are numbered, and every linked id belongs to one of them. -/
structure Numbered (d : LinkData) : Prop where
  keys : Dict.keys d.group = List.range d.nodes
  below : ∀ i n, Dict.get? d.link i = some n → n < d.nodes

/-- An id has a group. -/
def HasGroup (d : LinkData) (i : Int) : Prop := ∃ n, Dict.get? d.link i = some n

theorem Numbered.enter {d : LinkData} (h : Numbered d) {n : Nat} (hn : n < d.nodes) (new : List Int) : Numbered (linkEnter d n new) := by
  refine ⟨?_, ?_⟩
  · show Dict.keys (Dict.set d.group n _) = _
    rw [Dict.keys_set, if_pos (by rw [h.keys]; simpa using hn)]
    exact h.keys
  · intro i m hm
    rw [linkEnter_link] at hm
    split at hm
    · cases hm; exact hn
    · exact h.below i m hm

theorem Numbered.add {d : LinkData} (h : Numbered d) (p : Int × Int) : Numbered (linkAdd d p) := by
  unfold linkAdd
  split
  · rename_i n hn
    exact h.enter (h.below _ _ hn) _
  · split
    · rename_i n hn
      exact h.enter (h.below _ _ hn) _
    · refine ⟨?_, ?_⟩
      · show Dict.keys (Dict.set d.group d.nodes _) = List.range (d.nodes + 1)
        rw [Dict.keys_set, if_neg (by rw [h.keys]; simp), h.keys, List.range_succ]
      · intro i m hm
        rw [linkEnter_link] at hm
        show m < d.nodes + 1
        generalize (if p.1 = p.2 then [p.1] else [p.2, p.1]) = new at hm
        split at hm
        · cases hm; omega
        · have := h.below i m hm; omega

theorem numbered_all (ls : List (Int × Int)) : ∀ d, Numbered d → Numbered (ls.foldl linkAdd d) := by
  induction ls with
  | nil => intro d h; exact h
  | cons p ls ih => intro d h; exact ih _ (h.add p)

theorem hasGroup_enter {d : LinkData} {n : Nat} {new : List Int} {i : Int} : HasGroup (linkEnter d n new) i ↔ i ∈ new ∨ HasGroup d i := by
  unfold HasGroup
  rw [linkEnter_link]
  by_cases h : i ∈ new
  · simp [h]
  · simp [h]

theorem hasGroup_add (d : LinkData) (p : Int × Int) :
    HasGroup (linkAdd d p) p.1 ∧ HasGroup (linkAdd d p) p.2 ∧ (∀ i, HasGroup d i → HasGroup (linkAdd d p) i) ∧
      (linkAdd d p).nodes ≤ d.nodes + 1 ∧ (HasGroup d p.1 → (linkAdd d p).nodes = d.nodes) := by
  unfold linkAdd
  split
  · rename_i n hn
    refine ⟨hasGroup_enter.2 (.inr ⟨n, hn⟩), hasGroup_enter.2 (.inl (by simp)), fun i hi => hasGroup_enter.2 (.inr hi), ?_, fun _ => rfl⟩
    show d.nodes ≤ d.nodes + 1
    omega
  · rename_i h1
    have hno : ¬ HasGroup d p.1 := by rintro ⟨n, hn⟩; rw [h1] at hn; cases hn
    split
    · rename_i n hn
      refine ⟨hasGroup_enter.2 (.inl (by simp)), hasGroup_enter.2 (.inr ⟨n, hn⟩), fun i hi => hasGroup_enter.2 (.inr hi), ?_, fun h => absurd h hno⟩
      show d.nodes ≤ d.nodes + 1
      omega
    · refine ⟨hasGroup_enter.2 (.inl (by split <;> simp)), hasGroup_enter.2 (.inl ?_), fun i hi => hasGroup_enter.2 (.inr hi), Nat.le_refl _, fun h => absurd h hno⟩
      split
      · rename_i e; simp [e]
      · simp

theorem star_linked (x : Int) (rest : List Int) : ∀ d, HasGroup d x →
    (rest.foldl (fun d i => linkAdd d (x, i)) d).nodes = d.nodes ∧ ∀ i, i ∈ rest ∨ HasGroup d i → HasGroup (rest.foldl (fun d i => linkAdd d (x, i)) d) i := by
  induction rest with
  | nil => intro d _; exact ⟨rfl, fun i hi => hi.elim (fun h => by cases h) id⟩
  | cons y rest ih =>
    intro d hx
    obtain ⟨h1, h2, h3, _, h5⟩ := hasGroup_add d (x, y)
    obtain ⟨k1, k2⟩ := ih (linkAdd d (x, y)) h1
    refine ⟨by rw [List.foldl_cons, k1, h5 hx], ?_⟩
    intro i hi
    rw [List.foldl_cons]
    apply k2
    rcases hi with hi | hi
    · rcases List.mem_cons.1 hi with rfl | hi
      · exact .inr h2
      · exact .inl hi
    · exact .inr (h3 i hi)

theorem star_count (g : List Int) (d : LinkData) :
    (∀ i, i ∈ g ∨ HasGroup d i → HasGroup ((g.map (fun i => (g.headD 0, i))).foldl linkAdd d) i) ∧
      ((g.map (fun i => (g.headD 0, i))).foldl linkAdd d).nodes ≤ d.nodes + 1 ∧
      (∀ x rest, g = x :: rest → HasGroup d x → ((g.map (fun i => (g.headD 0, i))).foldl linkAdd d).nodes = d.nodes) := by
  cases g with
  | nil => exact ⟨fun i hi => hi.elim (fun h => by cases h) id, by simp, fun x rest h => by cases h⟩
  | cons x rest =>
    obtain ⟨h1, h2, h3, h4, h5⟩ := hasGroup_add d (x, x)
    obtain ⟨k1, k2⟩ := star_linked x rest (linkAdd d (x, x)) h1
    have e : ((x :: rest).map (fun i => ((x :: rest).headD 0, i))).foldl linkAdd d = rest.foldl (fun d i => linkAdd d (x, i)) (linkAdd d (x, x)) := by
      simp only [List.headD_cons, List.map_cons, List.foldl_cons, List.foldl_map]
    rw [e]
    refine ⟨?_, by rw [k1]; exact h4, ?_⟩
    · intro i hi
      apply k2
      rcases hi with hi | hi
      · rcases List.mem_cons.1 hi with rfl | hi
        · exact .inr h1
        · exact .inl hi
      · exact .inr (h3 i hi)
    · intro y rest' he hy
      cases he
      rw [k1, h5 hy]

theorem stars_count (gs : List (List Int)) : ∀ d, (∀ i, (∃ g ∈ gs, i ∈ g) ∨ HasGroup d i → HasGroup ((Spec.starLinks gs).foldl linkAdd d) i) ∧
    ((Spec.starLinks gs).foldl linkAdd d).nodes ≤ d.nodes + gs.length := by
  induction gs with
  | nil => intro d; exact ⟨fun i hi => hi.elim (fun ⟨g, hg, _⟩ => by cases hg) id, by simp [Spec.starLinks]⟩
  | cons g gs ih =>
    intro d
    obtain ⟨h1, h2, _⟩ := star_count g d
    obtain ⟨k1, k2⟩ := ih ((g.map (fun i => (g.headD 0, i))).foldl linkAdd d)
    simp only [Spec.starLinks, List.flatMap_cons, List.foldl_append] at k1 k2 ⊢
    refine ⟨?_, by rw [List.length_cons]; omega⟩
    intro i hi
    apply k1
    rcases hi with ⟨g', hg', hi⟩ | hi
    · rcases List.mem_cons.1 hg' with rfl | hg'
      · exact .inr (h1 i (.inl hi))
      · exact .inl ⟨g', hg', hi⟩
    · exact .inr (h1 i (.inr hi))

theorem starLinks_append (a b : List (List Int)) : Spec.starLinks (a ++ b) = Spec.starLinks a ++ Spec.starLinks b := by
  simp [Spec.starLinks, List.flatMap_append]

/-- A group that begins with a member of an earlier one is not read as a group of its own. -/
theorem star_loses (pre post : List (List Int)) (x : Int) (rest : List Int) (hx : ∃ g ∈ pre, x ∈ g) :
    ((Spec.starLinks (pre ++ (x :: rest) :: post)).foldl linkAdd ⟨[], [], 0⟩).groups.length < (pre ++ (x :: rest) :: post).length := by
  have hnum := numbered_all (Spec.starLinks (pre ++ (x :: rest) :: post)) ⟨[], [], 0⟩ ⟨rfl, by intro i n h; simp at h⟩
  have hlen : ((Spec.starLinks (pre ++ (x :: rest) :: post)).foldl linkAdd ⟨[], [], 0⟩).groups.length =
      ((Spec.starLinks (pre ++ (x :: rest) :: post)).foldl linkAdd ⟨[], [], 0⟩).nodes := by
    have := congrArg List.length hnum.keys
    simpa [LinkData.groups, Dict.values, Dict.keys] using this
  rw [hlen]
  obtain ⟨a1, a2⟩ := stars_count pre ⟨[], [], 0⟩
  have hh : HasGroup ((Spec.starLinks pre).foldl linkAdd ⟨[], [], 0⟩) x := a1 x (.inl hx)
  have b := (star_count (x :: rest) ((Spec.starLinks pre).foldl linkAdd ⟨[], [], 0⟩)).2.2 x rest rfl hh
  obtain ⟨_, c2⟩ := stars_count post (((x :: rest).map (fun i => ((x :: rest).headD 0, i))).foldl linkAdd ((Spec.starLinks pre).foldl linkAdd ⟨[], [], 0⟩))
  have e : (Spec.starLinks (pre ++ (x :: rest) :: post)).foldl linkAdd ⟨[], [], 0⟩ =
      (Spec.starLinks post).foldl linkAdd (((x :: rest).map (fun i => ((x :: rest).headD 0, i))).foldl linkAdd ((Spec.starLinks pre).foldl linkAdd ⟨[], [], 0⟩)) := by
    rw [starLinks_append, List.foldl_append]
    have : Spec.starLinks ((x :: rest) :: post) = (x :: rest).map (fun i => ((x :: rest).headD 0, i)) ++ Spec.starLinks post := by
      simp [Spec.starLinks]
    rw [this, List.foldl_append]
  rw [e]
  simp only [List.length_append, List.length_cons] at *
  omega

theorem overlap_split (gs : List (List Int)) : gs.Pairwise (fun g g' => ∀ i ∈ g, i ∉ g') ∨
    ∃ pre g' post i, gs = pre ++ g' :: post ∧ (∃ g ∈ pre, i ∈ g) ∧ i ∈ g' := by
  induction gs with
  | nil => exact .inl List.Pairwise.nil
  | cons g gs ih =>
    rcases ih with h | ⟨pre, g', post, i, rfl, ⟨g1, hg1, hi1⟩, hi⟩
    · by_cases hc : ∀ g' ∈ gs, ∀ i ∈ g, i ∉ g'
      · exact .inl (List.pairwise_cons.2 ⟨hc, h⟩)
      · right
        simp only [Classical.not_forall, Classical.not_not] at hc
        obtain ⟨g', hg', i, hi, hi'⟩ := hc
        obtain ⟨pre, post, rfl⟩ := List.append_of_mem hg'
        exact ⟨g :: pre, g', post, i, rfl, ⟨g, by simp, hi⟩, hi'⟩
    · exact .inr ⟨g :: pre, g', post, i, rfl, ⟨g1, by simp [hg1], hi1⟩, hi⟩

theorem forall₂_perm_refl (gs : List (List Int)) : List.Forall₂ List.Perm gs gs := by
  induction gs with
  | nil => exact .nil
  | cons g gs ih => exact .cons (List.Perm.refl _) ih

theorem forall₂_mem_left {gs hs : List (List Int)} (h : List.Forall₂ List.Perm gs hs) : ∀ g ∈ gs, ∃ g' ∈ hs, g.Perm g' := by
  induction h with
  | nil => intro g hg; cases hg
  | cons h1 _ ih =>
    intro g hg
    rcases List.mem_cons.1 hg with rfl | hg
    · exact ⟨_, by simp, h1⟩
    · obtain ⟨g', hg', hp⟩ := ih g hg
      exact ⟨g', by simp [hg'], hp⟩

theorem forall₂_disjoint {gs hs : List (List Int)} (h : List.Forall₂ List.Perm gs hs) :
    hs.Pairwise (fun g g' => ∀ i ∈ g, i ∉ g') → gs.Pairwise (fun g g' => ∀ i ∈ g, i ∉ g') := by
  induction h with
  | nil => intro _; exact List.Pairwise.nil
  | cons h1 h2 ih =>
    intro hp
    obtain ⟨p1, p2⟩ := List.pairwise_cons.1 hp
    refine List.pairwise_cons.2 ⟨?_, ih p2⟩
    intro g' hg' i hi hi'
    obtain ⟨g'', hg'', hpm⟩ := forall₂_mem_left h2 g' hg'
    exact p1 g'' hg'' i (h1.mem_iff.1 hi) (hpm.mem_iff.1 hi')

section
variable {src : Str} {rows : Rows} {subset : Option (List Int)} {name : Str} {fn : Spec.FilterName} {r : LinkReader}

/-- C186: the groups of a reader, written out as links in any order of their members and read again, give the same answers, exactly if they are
disjoint, that is, if no link of the file joined two groups. -/
theorem C186_iff (hn : asciiLower name = fn.text) (h : LinkReader.new src rows subset name = .ok r) (src' name' : Str) (fn' : Spec.FilterName)
    (hn' : asciiLower name' = fn'.text) (lim : Nat) (hlim : ∀ g ∈ r.data.groups, ∀ i ∈ g, (showInt i).length ≤ lim) :
    ((∀ gs, Spec.Lists gs r.data → ∃ r', LinkReader.new src' (loadFile lim (fileLines (Spec.linksText (Spec.starLinks gs)))) none name' = .ok r' ∧
      Spec.SameGroups r'.data r.data) ↔ r.data.groups.Pairwise (fun g g' => ∀ i ∈ g, i ∉ g')) ∧
    (r.data.groups.Pairwise (fun g g' => ∀ i ∈ g, i ∉ g') ↔ Spec.NeverMerges (Spec.links subset fn rows.1)) := by
  have inv := linkInv_all (Spec.links subset fn rows.1)
  rw [← linkReader_new hn h] at inv
  have hmem : ∀ g ∈ r.data.groups, g ≠ [] ∧ g.Nodup := by
    intro g hg
    simp only [LinkData.groups, Dict.values, List.mem_map] at hg
    obtain ⟨kv, hkv, rfl⟩ := hg
    obtain ⟨_, h2, h3, _⟩ := inv.members kv.1 kv.2 ((Dict.get?_eq_some_iff inv.wfg _ _).2 hkv)
    exact ⟨h2, h3⟩
  have hlim' : ∀ gs, Spec.Lists gs r.data → ∀ p ∈ Spec.starLinks gs, (showInt p.1).length ≤ lim ∧ (showInt p.2).length ≤ lim := by
    intro gs hgs p hp
    obtain ⟨g, hg, hp⟩ := List.mem_flatMap.1 hp
    obtain ⟨i, hi, rfl⟩ := List.mem_map.1 hp
    obtain ⟨g', hg', hpm⟩ := forall₂_mem_left hgs g hg
    refine ⟨hlim g' hg' _ (hpm.mem_iff.1 ?_), hlim g' hg' i (hpm.mem_iff.1 hi)⟩
    cases g with
    | nil => cases hi
    | cons x g => simp
  refine ⟨⟨?_, ?_⟩, C59_disjoint_iff hn h⟩
  · intro hall
    rcases overlap_split r.data.groups with hd | ⟨pre, g', post, i, he, hpre, hi⟩
    · exact hd
    · exfalso
      have hl : Spec.Lists (pre ++ (i :: g'.erase i) :: post) r.data := by
        unfold Spec.Lists
        rw [he]
        have aux : ∀ pre : List (List Int), List.Forall₂ List.Perm (pre ++ (i :: g'.erase i) :: post) (pre ++ g' :: post) := by
          intro pre
          induction pre with
          | nil => exact .cons (List.perm_cons_erase hi).symm (forall₂_perm_refl _)
          | cons g pre ih => exact .cons (List.Perm.refl _) ih
        exact aux pre
      obtain ⟨r', h1, h2⟩ := hall _ hl
      rw [reader_plain src' lim _ (hlim' _ hl) name' fn' hn'] at h1
      have h1 := Except.ok.inj h1
      have hlt := star_loses pre post i (g'.erase i) hpre
      have e1 := h2.1.length_eq
      rw [← h1] at e1
      simp only at e1
      rw [e1, he] at hlt
      simp at hlt
  · intro hd gs hgs
    obtain ⟨r', h1, h2, h3, h4⟩ := C186_any_groups gs (by
      intro g hg
      obtain ⟨g', hg', hpm⟩ := forall₂_mem_left hgs g hg
      obtain ⟨k1, k2⟩ := hmem g' hg'
      refine ⟨?_, hpm.nodup_iff.2 k2⟩
      rintro rfl
      exact k1 hpm.nil_eq.symm) (forall₂_disjoint hgs hd) src' lim (hlim' gs hgs) name' fn' hn'
    refine ⟨r', h1, by rw [h2]; exact hgs, ?_⟩
    have hnm := (C59_disjoint_iff hn h).1 hd
    obtain ⟨_, c2, c3, _⟩ := C59_components_partial hn h hnm
    intro i
    by_cases hi : ∃ g ∈ gs, i ∈ g
    · obtain ⟨g, hg, hi⟩ := hi
      obtain ⟨g', hg', hpm⟩ := forall₂_mem_left hgs g hg
      exact .inl ⟨g, g', h3 g hg i hi, (c3 g' hg').2 i (hpm.mem_iff.1 hi), hpm⟩
    · right
      refine ⟨h4 i (fun g hg hm => hi ⟨g, hg, hm⟩), C57_invalid_id hn h i ?_⟩
      intro ho
      obtain ⟨g', hg', hm⟩ := c2 i ho
      have hrev : List.Forall₂ List.Perm r.data.groups gs := by
        have : ∀ {a b : List (List Int)}, List.Forall₂ List.Perm a b → List.Forall₂ List.Perm b a := by
          intro a b hab
          induction hab with
          | nil => exact .nil
          | cons h1 _ ih => exact .cons h1.symm ih
        exact this hgs
      obtain ⟨g, hg, hpm⟩ := forall₂_mem_left hrev g' hg'
      exact hi ⟨g, hg, hpm.mem_iff.1 hm⟩
end

/-- C186: it fails for a file in which a link joins two groups: written out in one of the possible orders, the two groups become one. -/
theorem C186_refuted : ∃ r, LinkReader.new u!"links.csv" ([[u!"1", u!"2"], [u!"3", u!"4"], [u!"1", u!"3"]], none) none u!"both" = .ok r ∧
    Spec.Lists [[1, 2, 3], [3, 4]] r.data ∧
    ∃ r', LinkReader.new u!"saved.csv" (loadFile 131072 (fileLines (Spec.linksText (Spec.starLinks [[1, 2, 3], [3, 4]])))) none u!"both" = .ok r' ∧
      r.data.groupOf 4 = .ok [4, 3] ∧ r'.data.groupOf 4 = .ok [1, 2, 3, 4] ∧ ¬ Spec.SameGroups r'.data r.data := by
  refine ⟨_, rfl, ?_, _, reader_plain _ _ _ (by decide +kernel) _ .both (by decide +kernel), by decide +kernel, by decide +kernel, ?_⟩
  · show List.Forall₂ List.Perm _ [[2, 1, 3], [4, 3]]
    exact .cons (by decide) (.cons (by decide) .nil)
  · intro hs
    have := hs.1.length_eq
    revert this
    decide +kernel

/-! ### The hypotheses hold of small families -/

example : ∀ g ∈ [[1, 2, 7], [4], [-3, 12]], g ≠ [] ∧ g.Nodup := by decide

example : [[1, 2, 7], [4], [-3, 12]].Pairwise (fun g g' : List Int => ∀ i ∈ g, i ∉ g') := by decide

example : ∀ p ∈ Spec.starLinks [[1, 2, 7], [4], [-3, 12]], (showInt p.1).length ≤ 131072 ∧ (showInt p.2).length ≤ 131072 := by decide +kernel

example : asciiLower u!"Both" = Spec.FilterName.both.text := by decide

end Cjk
