import Verif.Spec.SplitByCodes
import Verif.Props.DictLines
import Verif.Py.Split
import Verif.Py.Exc
/-!
# C35, C36: dictionary codes
-/

namespace Cjk
open Py

/-! ### C35 -/

theorem codeChr_iff (c : Chr) : codeChr c = true ↔ Spec.codeSymbol c := by
  unfold codeChr Spec.codeSymbol
  simp only [Bool.or_eq_true, Bool.and_eq_true, decide_eq_true_eq, beq_iff_eq, or_assoc]

/-- The pattern matches exactly at `(g)`. -/
theorem codePattern_match (g t : Str) (hg : g ≠ []) (hg' : ∀ x ∈ g, codeChr x = true) :
    codePattern.first ((u!"(" ++ g ++ u!")") ++ t) [] = some (t, Dict.set [] u!"1" g) := by
  unfold codePattern
  simp only [List.append_assoc]
  refine Re.first_seq (Re.first_lit _ _ _) (Re.first_seq (Re.first_group' (Re.first_plus g _ _ hg hg' ?_)) (Re.first_lit _ _ _))
  intro x hx; cases hx; rfl

theorem codePattern_some {s t : Str} {c : Caps} (h : codePattern.first s [] = some (t, c)) :
    ∃ g, s = (u!"(" ++ g ++ u!")") ++ t ∧ g ≠ [] ∧ ∀ x ∈ g, codeChr x = true := by
  have hm := Re.first_mem h
  unfold codePattern at hm
  simp only [Re.cat, Re.run, Re.run_lit, List.mem_flatMap] at hm
  obtain ⟨r1, h1, r2, h2, h3⟩ := hm
  split at h1
  · rename_i hp
    obtain ⟨s', rfl⟩ := List.isPrefixOf_iff_prefix.1 hp
    simp only [List.mem_singleton] at h1
    subst h1
    simp only [List.drop_append, Re.plus, Re.run, List.mem_map, List.mem_flatMap] at h2
    obtain ⟨r3, ⟨r4, h4, u, h5, rfl⟩, rfl⟩ := h2
    have hdrop : List.drop (u!"(").length u!"(" ++ List.drop ((u!"(").length - (u!"(").length) s' = s' := rfl
    rw [hdrop] at h4
    cases s' with
    | nil => simp at h4
    | cons y s' =>
      simp only at h4
      split at h4
      · rename_i hy
        simp only [List.mem_singleton] at h4
        subst h4
        obtain ⟨v, rfl, hv⟩ := (Re.manySplits_mem _ _).1 h5
        simp only at h3
        split at h3
        · rename_i hp2
          obtain ⟨t', rfl⟩ := List.isPrefixOf_iff_prefix.1 hp2
          simp only [List.mem_singleton, Prod.mk.injEq] at h3
          refine ⟨y :: v, ?_, by simp, ?_⟩
          · rw [h3.1]; simp
          · intro x hx
            rcases List.mem_cons.1 hx with rfl | hx
            · exact hy
            · exact hv x hx
        · simp at h3
      · simp at h4
  · simp at h1

/-- A run of `p`-characters ended by a character that is not one is determined by the string. -/
theorem run_prefix_unique (p : Chr → Bool) {c : Chr} (hc : p c = false) {a b x y : Str}
    (ha : ∀ z ∈ a, p z = true) (hb : ∀ z ∈ b, p z = true) (h : a ++ c :: x = b ++ c :: y) : a = b ∧ x = y := by
  induction a generalizing b with
  | nil =>
    cases b with
    | nil => simpa using h
    | cons z b =>
      simp only [List.nil_append, List.cons_append, List.cons.injEq] at h
      have := hb z (by simp)
      rw [← h.1, hc] at this; cases this
  | cons w a ih =>
    cases b with
    | nil =>
      simp only [List.nil_append, List.cons_append, List.cons.injEq] at h
      have := ha w (by simp)
      rw [h.1, hc] at this; cases this
    | cons z b =>
      simp only [List.cons_append, List.cons.injEq] at h
      obtain ⟨h1, h2⟩ := ih (fun v hv => ha v (by simp [hv])) (fun v hv => hb v (by simp [hv])) h.2
      exact ⟨by rw [h.1, h1], h2⟩

/-- A character that does not occur in a prefix occurs behind it. -/
theorem append_cons_not_mem {c : Chr} {w t pre x : Str} (hw : c ∉ w) (h : w ++ t = pre ++ c :: x) :
    ∃ pre', t = pre' ++ c :: x := by
  induction w generalizing pre with
  | nil => exact ⟨pre, h⟩
  | cons b w ih =>
    cases pre with
    | nil =>
      simp only [List.nil_append, List.cons_append, List.cons.injEq] at h
      exact absurd h.1 (by rintro rfl; exact hw (by simp))
    | cons z pre =>
      simp only [List.cons_append, List.cons.injEq] at h
      exact ih (fun hm => hw (by simp [hm])) h.2

theorem codeGroups_nil : codeGroups [] = [] := by decide +kernel

/-- `findall` finds every `(g)`. -/
theorem mem_codeGroups (s g : Str) :
    g ∈ codeGroups s ↔ ∃ pre post, s = pre ++ u!"(" ++ g ++ u!")" ++ post ∧ g ≠ [] ∧ ∀ x ∈ g, codeChr x = true := by
  suffices H : ∀ n, ∀ s : Str, s.length = n → (g ∈ codeGroups s ↔
      ∃ pre post, s = pre ++ u!"(" ++ g ++ u!")" ++ post ∧ g ≠ [] ∧ ∀ x ∈ g, codeChr x = true) from H _ s rfl
  intro n
  induction n using Nat.strongRecOn with
  | _ n ih =>
    intro s hs
    cases s with
    | nil =>
      rw [codeGroups_nil]
      constructor
      · intro h; cases h
      · rintro ⟨pre, post, h, _⟩
        have := congrArg List.length h
        simp at this
    | cons x s =>
      cases hf : codePattern.first (x :: s) [] with
      | none =>
        have hskip : codeGroups (x :: s) = codeGroups s := by
          unfold codeGroups; rw [Re.finditer_skip _ _ _ hf]
        rw [hskip, ih s.length (by simp at hs; omega) s rfl]
        constructor
        · rintro ⟨pre, post, rfl, h⟩; exact ⟨x :: pre, post, by simp, h⟩
        · rintro ⟨pre, post, h, hg, hg'⟩
          cases pre with
          | nil =>
            have hm := codePattern_match g post hg hg'
            rw [List.nil_append] at h
            rw [← h, hf] at hm
            cases hm
          | cons y pre =>
            simp only [List.cons_append, List.cons.injEq] at h
            exact ⟨pre, post, h.2, hg, hg'⟩
      | some r =>
        obtain ⟨t, c⟩ := r
        obtain ⟨g0, hsplit, hg0, hg0'⟩ := codePattern_some hf
        have hmatch := codePattern_match g0 t hg0 hg0'
        have hgroups : codeGroups (x :: s) = g0 :: codeGroups t := by
          unfold codeGroups
          rw [hsplit, Re.finditer_match _ _ _ _ (by simp) hmatch]
          rfl
        have hlen : t.length < n := by
          have := congrArg List.length hsplit
          simp at this hs
          omega
        rw [hgroups, List.mem_cons, ih t.length hlen t rfl]
        have hp : codeChr 0x29 = false := by decide
        have hq : codeChr 0x28 = false := by decide
        constructor
        · rintro (rfl | ⟨pre, post, rfl, h⟩)
          · exact ⟨[], t, by rw [hsplit]; simp, hg0, hg0'⟩
          · exact ⟨(u!"(" ++ g0 ++ u!")") ++ pre, post, by rw [hsplit]; simp, h⟩
        · rintro ⟨pre, post, h, hg, hg'⟩
          rw [hsplit] at h
          cases pre with
          | nil =>
            left
            have h' : g0 ++ 0x29 :: t = g ++ 0x29 :: post := by
              have := congrArg List.tail h
              simpa using this
            exact (run_prefix_unique codeChr hp hg0' hg' h').1.symm
          | cons y pre =>
            right
            have h1 : (g0 ++ u!")") ++ t = pre ++ 0x28 :: (g ++ u!")" ++ post) := by
              have := congrArg List.tail h
              simpa using this
            have hno : (0x28 : Nat) ∉ g0 ++ u!")" := by
              intro hm
              rcases List.mem_append.1 hm with hm | hm
              · have := hg0' _ hm; rw [hq] at this; cases this
              · exact absurd hm (by decide)
            obtain ⟨pre', hpre'⟩ := append_cons_not_mem hno h1
            exact ⟨pre', post, by rw [hpre']; simp, hg, hg'⟩

/-- The table of the code is the table of the specification. -/
theorem mem_knownCodes (c : Str) : c ∈ knownCodes ↔ Spec.KnownCode c := by
  have h : ∀ c, Spec.KnownCode c ↔ c ∈ Spec.speechCodes ++ Spec.godanEndings.map (u!"v5" ++ ·) ++ Spec.fieldCodes ++ Spec.usageCodes ++
      Spec.nameCodes := by
    intro c
    unfold Spec.KnownCode
    simp only [List.mem_append, List.mem_map]
    constructor
    · rintro (h | ⟨e, he, rfl⟩ | h | h | h)
      · exact Or.inl (Or.inl (Or.inl (Or.inl h)))
      · exact Or.inl (Or.inl (Or.inl (Or.inr ⟨e, he, rfl⟩)))
      · exact Or.inl (Or.inl (Or.inr h))
      · exact Or.inl (Or.inr h)
      · exact Or.inr h
    · rintro ((((h | ⟨e, he, rfl⟩) | h) | h) | h)
      · exact Or.inl h
      · exact Or.inr (Or.inl ⟨e, he, rfl⟩)
      · exact Or.inr (Or.inr (Or.inl h))
      · exact Or.inr (Or.inr (Or.inr (Or.inl h)))
      · exact Or.inr (Or.inr (Or.inr (Or.inr h)))
  rw [h]
  have h1 : ∀ c ∈ knownCodes, c ∈ Spec.speechCodes ++ Spec.godanEndings.map (u!"v5" ++ ·) ++ Spec.fieldCodes ++ Spec.usageCodes ++
      Spec.nameCodes := by decide +kernel
  have h2 : ∀ c ∈ Spec.speechCodes ++ Spec.godanEndings.map (u!"v5" ++ ·) ++ Spec.fieldCodes ++ Spec.usageCodes ++ Spec.nameCodes,
      c ∈ knownCodes := by decide +kernel
  exact ⟨h1 c, h2 c⟩

/-- C35: `get_codes` returns exactly the known codes that stand in parentheses. -/
theorem C35_get_codes (s c : Str) : c ∈ getCodes s ↔ Spec.HasCode s c := by
  unfold getCodes Spec.HasCode
  simp only [mem_dedup, List.mem_flatMap, List.mem_filter, List.contains_iff_mem, mem_knownCodes]
  constructor
  · rintro ⟨g, hg, hc, hk⟩
    obtain ⟨pre, post, hs, hne, hcl⟩ := (mem_codeGroups s g).1 hg
    exact ⟨hk, pre, g, post, hs, hne, fun x hx => (codeChr_iff x).1 (hcl x hx), (mem_splitChr _ _ _).1 hc⟩
  · rintro ⟨hk, pre, g, post, hs, hne, hcl, hp⟩
    exact ⟨g, (mem_codeGroups s g).2 ⟨pre, post, hs, hne, fun x hx => (codeChr_iff x).2 (hcl x hx)⟩,
      (mem_splitChr _ _ _).2 hp, hk⟩

/-- Several groups, several codes in a group, unknown codes and parentheses with other contents. -/
example : getCodes u!"(n,vs) (xyz) to do (see also (v5k-s)) (uk, P) (n)" = [u!"n", u!"vs", u!"v5k-s"] := by decide +kernel

/-! ### C36 -/

theorem mem_entryCodes (e : Entry) (c : Str) : c ∈ entryCodes e ↔ ∃ s ∈ e.senses, Spec.HasCode s c := by
  unfold entryCodes
  simp only [mem_dedup, List.mem_flatMap, C35_get_codes]

/-- Whether `coded[c][w]` is object `ref`. -/
def filed (d : Dict Str (Dict Str Nat)) (c w : Str) (ref : Nat) : Prop :=
  ∃ x, Dict.get? d c = some x ∧ Dict.get? x w = some ref

theorem filed_fileUnder (d : Dict Str (Dict Str Nat)) (word : Str) (ref : Nat) (code c w : Str) (r : Nat) :
    filed (fileUnder d word ref code) c w r ↔ if code = c ∧ word = w then r = ref else filed d c w r := by
  unfold filed fileUnder
  rw [Dict.get?_set]
  by_cases hc : code = c
  · subst hc
    simp only [if_true, Option.some.injEq, exists_eq_left', true_and, Dict.get?_set]
    by_cases hw : word = w
    · simp [hw, eq_comm]
    · simp only [hw, if_false]
      cases Dict.get? d code with
      | none => simp
      | some x => simp
  · simp [hc]

theorem filed_foldl (codes : List Str) (d : Dict Str (Dict Str Nat)) (word : Str) (ref : Nat) (c w : Str) (r : Nat) :
    filed (codes.foldl (fun d c => fileUnder d word ref c) d) c w r ↔
      if c ∈ codes ∧ word = w then r = ref else filed d c w r := by
  induction codes generalizing d with
  | nil => simp
  | cons x codes ih =>
    rw [List.foldl_cons, ih]
    by_cases hw : word = w
    · by_cases h1 : c ∈ codes
      · simp [h1, hw]
      · simp only [h1, hw, if_false, filed_fileUnder, and_true, List.mem_cons, or_false]
        by_cases h2 : x = c
        · simp [h2]
        · simp [h2, Ne.symm h2]
    · simp [hw, filed_fileUnder]

/-- The state of the loop after the entries `es`. -/
structure CodedInv (st : Coded) (es : List Entry) : Prop where
  known : ∀ w, (∃ r, Dict.get? st.words w = some r) ↔ ∃ e, Spec.merged es w = some e
  store : ∀ w r, Dict.get? st.words w = some r → st.store[r]? = Spec.merged es w
  filed : ∀ c w r, filed st.coded c w r ↔
    Dict.get? st.words w = some r ∧ ∃ e, Spec.merged es w = some e ∧ c ∈ entryCodes e

theorem codedInv_nil : CodedInv ⟨[], [], []⟩ [] := by
  refine ⟨?_, ?_, ?_⟩
  · intro w; simp [Spec.merged]
  · intro w r h; cases h
  · intro c w r; simp [Cjk.filed, Spec.merged]

theorem codedStep_inv (order : List Str → List Str) (ho : ∀ l x, x ∈ order l ↔ x ∈ l) {st : Coded} {es : List Entry}
    (hal : ∀ x ∈ es, Spec.Aligned x) (h : CodedInv st es) (e : Entry) :
    ∃ st', codedStep order st e = .ok st' ∧ CodedInv st' (es ++ [e]) := by
  obtain ⟨hk, hs, hf⟩ := h
  -- the merged entry for the new word, as in the loop of `parse_dictionary`
  have hmerge : ∀ old, Spec.merged es e.word = some old →
      Spec.merged (es ++ [e]) e.word = some ⟨old.word, old.padded ++ e.padded, old.senses ++ e.senses⟩ := by
    intro old hold
    have hne : es.filter (fun x => x.word = e.word) ≠ [] := by
      intro h0; unfold Spec.merged at hold; rw [h0] at hold; cases hold
    rw [Spec.merged_word hold, Spec.merged_senses hold, Spec.merged_padded hal hold]
    unfold Spec.merged
    have hfun : (Spec.readingsPerSense) = Entry.padded := funext Spec.readingsPerSense_eq
    have he : [e].filter (fun x => x.word = e.word) = [e] := by simp
    rw [List.filter_append, he, hfun]
    cases hfl : es.filter (fun x => x.word = e.word) with
    | nil => exact absurd hfl hne
    | cons x xs => cases xs <;> simp
  unfold codedStep
  cases hw : Dict.get? st.words e.word with
  | some ref =>
    obtain ⟨old, hold⟩ := (hk e.word).1 ⟨ref, hw⟩
    have hst : st.store[ref]? = some old := (hs _ _ hw).trans hold
    have hlt : ref < st.store.length := by
      rcases Nat.lt_or_ge ref st.store.length with h | h
      · exact h
      · rw [List.getElem?_eq_none h] at hst; cases hst
    have hg : getItem st.store ref = .ok old := by
      unfold getItem; rw [hst]
    have hu : old.update e = .ok (⟨old.word, old.padded ++ e.padded, old.senses ++ e.senses⟩, ⟨e.word, e.padded, e.senses⟩) := by
      simp [Entry.update, Spec.merged_word hold]
    have hm := hmerge old hold
    refine ⟨_, (by simp only [hg, bind_ok, hu]; exact rfl), ?_⟩
    refine ⟨?_, ?_, ?_⟩
    · intro w
      by_cases hww : e.word = w
      · subst hww; simp [hw, hm]
      · rw [merged_append_other hww]; exact hk w
    · intro w r hr
      simp only [List.getElem?_set]
      by_cases hrr : ref = r
      · subst hrr
        -- two words with one object would be the same word
        have : w = e.word := by
          have h1 := (hs _ _ hr).symm.trans hst
          rw [← Spec.merged_word h1, Spec.merged_word hold]
        subst this
        simp [hlt, hm]
      · rw [if_neg hrr]
        have hww : e.word ≠ w := by rintro rfl; rw [hw] at hr; cases hr; exact hrr rfl
        rw [merged_append_other hww]; exact hs w r hr
    · intro c w r
      rw [filed_foldl]
      by_cases hww : e.word = w
      · subst hww
        simp only [ho, and_true, hw, hm, Option.some.injEq, exists_eq_left']
        split
        · rename_i hc; simp [hc, eq_comm]
        · rename_i hc
          rw [hf, hw, hold]
          simp only [Option.some.injEq, exists_eq_left']
          constructor
          · rintro ⟨h1, h2⟩
            exfalso; apply hc
            rw [mem_entryCodes] at h2 ⊢
            obtain ⟨s, hs1, hs2⟩ := h2
            exact ⟨s, by simp [hs1], hs2⟩
          · rintro ⟨_, h2⟩; exact absurd h2 hc
      · simp only [hww, and_false, if_false, merged_append_other hww]
        exact hf c w r
  | none =>
    have hnone : Spec.merged es e.word = none := by
      cases hm : Spec.merged es e.word with
      | none => rfl
      | some x => obtain ⟨r, hr⟩ := (hk e.word).2 ⟨x, hm⟩; rw [hw] at hr; cases hr
    have hm : Spec.merged (es ++ [e]) e.word = some e := by
      have hfn : es.filter (fun x => x.word = e.word) = [] := by
        rw [List.filter_eq_nil_iff]
        intro x hx
        simpa using Spec.merged_eq_none.1 hnone x hx
      unfold Spec.merged
      rw [List.filter_append, hfn]
      simp
    refine ⟨_, rfl, ?_, ?_, ?_⟩
    · intro w
      simp only [Dict.get?_set]
      by_cases hww : e.word = w
      · subst hww; simp [hm]
      · simp only [hww, if_false, merged_append_other hww]; exact hk w
    · intro w r hr
      simp only [Dict.get?_set] at hr
      by_cases hww : e.word = w
      · subst hww
        simp only [if_true, Option.some.injEq] at hr
        subst hr
        simp [hm]
      · simp only [hww, if_false] at hr
        rw [merged_append_other hww]
        have h1 := hs w r hr
        have hlt : r < st.store.length := by
          rcases Nat.lt_or_ge r st.store.length with h | h
          · exact h
          · obtain ⟨x, hx⟩ := (hk w).1 ⟨r, hr⟩
            rw [List.getElem?_eq_none h, hx] at h1; cases h1
        simp only
        rw [List.getElem?_append_left hlt]; exact h1
    · intro c w r
      rw [filed_foldl]
      simp only [Dict.get?_set]
      by_cases hww : e.word = w
      · subst hww
        simp only [ho, and_true, hm, if_true, Option.some.injEq, exists_eq_left']
        split
        · rename_i hc; simp [hc, eq_comm]
        · rename_i hc
          rw [hf, hw]
          simp [hc]
      · simp only [hww, and_false, if_false, merged_append_other hww]
        exact hf c w r

theorem codedLoop_inv (order : List Str → List Str) (ho : ∀ l x, x ∈ order l ↔ x ∈ l) (es : List Entry) (st : Coded)
    (pre : List Entry) (hal : ∀ x ∈ pre ++ es, Spec.Aligned x) (h : CodedInv st pre) :
    ∃ st', codedLoop order st es = .ok st' ∧ CodedInv st' (pre ++ es) := by
  induction es generalizing st pre with
  | nil => exact ⟨st, rfl, by simpa using h⟩
  | cons e es ih =>
    obtain ⟨st1, h1, h2⟩ := codedStep_inv order ho (fun x hx => hal x (by simp [hx])) h e
    obtain ⟨st2, h3, h4⟩ := ih st1 (pre ++ [e]) (by simpa using hal) h2
    refine ⟨st2, ?_, by simpa using h4⟩
    show (do let st' ← codedStep order st e; codedLoop order st' es) = _
    rw [h1]; exact h3

/-- The entries a generator yields were built by `parse_line`. -/
theorem iterFile_aligned {lines : List Str} {es : List Entry} {x : Option PyErr} (h : iterFile lines = .ok (es, x)) :
    ∀ e ∈ es, Spec.Aligned e := by
  cases lines with
  | nil => cases h
  | cons l ls =>
    simp only [iterFile] at h
    cases hd : detectFormat l with
    | error y => rw [hd] at h; cases h
    | ok f =>
      rw [hd] at h
      have h' : iterEntries f.parseLine ls = (es, x) := by
        have : (Except.ok (iterEntries f.parseLine ls) : Except PyErr _) = .ok (es, x) := h
        exact Except.ok.inj this
      clear h hd
      induction ls generalizing es x with
      | nil => simp only [iterEntries, Prod.mk.injEq] at h'; rw [← h'.1]; simp
      | cons l' ls ih =>
        simp only [iterEntries] at h'
        cases hp : f.parseLine l' with
        | error y => rw [hp] at h'; simp only [Prod.mk.injEq] at h'; rw [← h'.1]; simp
        | ok e =>
          rw [hp] at h'
          simp only [Prod.mk.injEq] at h'
          obtain ⟨rfl, rfl⟩ := h'
          intro a ha
          rcases List.mem_cons.1 ha with rfl | ha
          · exact parseLine_aligned f _ _ hp
          · exact ih rfl a ha

theorem filed_iff (st : Coded) (c w : Str) (r : Nat) : Spec.Filed st c w r ↔ filed st.coded c w r := Iff.rfl

/-- C36: for a file whose entries are `es`: word `w` is filed under code `c` iff some line for `w` has a
sense with code `c`, and then the filed object is the merge of all lines for `w`, the same object under
every code (`order` is the unspecified iteration order of sets). -/
theorem C36_index (order : List Str → List Str) (ho : ∀ l x, x ∈ order l ↔ x ∈ l) (lines : List Str)
    (es : List Entry) (h : iterFile lines = .ok (es, none)) :
    ∃ st, loadCodedDictionary order lines = .ok st ∧
      (∀ c w, (∃ r, Spec.Filed st c w r) ↔ ∃ e ∈ es, e.word = w ∧ ∃ s ∈ e.senses, Spec.HasCode s c) ∧
      (∀ c w r, Spec.Filed st c w r → st.store[r]? = Spec.merged es w) ∧
      (∀ c c' w r r', Spec.Filed st c w r → Spec.Filed st c' w r' → r = r') := by
  obtain ⟨st, h1, h2⟩ := codedLoop_inv order ho es ⟨[], [], []⟩ [] (by simpa using iterFile_aligned h) codedInv_nil
  rw [List.nil_append] at h2
  refine ⟨st, ?_, ?_, ?_, ?_⟩
  · unfold loadCodedDictionary
    rw [h]
    show (do let st ← codedLoop order ⟨[], [], []⟩ es; (match (none : Option PyErr) with
      | some e => .error e
      | none => .ok st) : Except PyErr Coded) = _
    rw [h1]; rfl
  · intro c w
    simp only [filed_iff, h2.filed]
    constructor
    · rintro ⟨r, _, e, he, hc⟩
      obtain ⟨s, hs, hcode⟩ := (mem_entryCodes e c).1 hc
      rw [Spec.merged_senses he, List.mem_flatMap] at hs
      obtain ⟨x, hx, hs⟩ := hs
      obtain ⟨hx1, hx2⟩ := List.mem_filter.1 hx
      exact ⟨x, hx1, by simpa using hx2, s, hs, hcode⟩
    · rintro ⟨x, hx, rfl, s, hs, hcode⟩
      cases hm : Spec.merged es x.word with
      | none => exact absurd rfl (Spec.merged_eq_none.1 hm x hx)
      | some e =>
        obtain ⟨r, hr⟩ := (h2.known x.word).2 ⟨e, hm⟩
        refine ⟨r, hr, e, rfl, (mem_entryCodes e c).2 ⟨s, ?_, hcode⟩⟩
        rw [Spec.merged_senses hm, List.mem_flatMap]
        exact ⟨x, List.mem_filter.2 ⟨hx, by simp⟩, hs⟩
  · intro c w r hr
    exact h2.store w r ((h2.filed c w r).1 hr).1
  · intro c c' w r r' hr hr'
    have h3 := ((h2.filed c w r).1 hr).1
    have h4 := ((h2.filed c' w r').1 hr').1
    rw [h3] at h4; exact Option.some.inj h4

/-- C36: loading by codes fails exactly when the iteration over the file fails, with the same error. -/
theorem C36_errors (order : List Str → List Str) (ho : ∀ l x, x ∈ order l ↔ x ∈ l) (lines : List Str) (x : PyErr) :
    loadCodedDictionary order lines = .error x ↔
      iterFile lines = .error x ∨ ∃ es, iterFile lines = .ok (es, some x) := by
  cases hi : iterFile lines with
  | error y => 
    have : loadCodedDictionary order lines = .error y := by unfold loadCodedDictionary; rw [hi]; rfl
    rw [this]; simp
  | ok r =>
    obtain ⟨es, o⟩ := r
    obtain ⟨st, h1, _⟩ := codedLoop_inv order ho es ⟨[], [], []⟩ [] (by simpa using iterFile_aligned hi) codedInv_nil
    have : loadCodedDictionary order lines = (match o with
      | some e => .error e
      | none => .ok st) := by
      unfold loadCodedDictionary
      simp only [hi, bind_ok, h1]
      cases o <;> rfl
    rw [this]
    cases o <;> simp

/-- C36: `iter_coded_entries` yields the entry of every line, each with the codes of its own senses. -/
theorem C36_iter (lines : List Str) (es : List Entry) (x : Option PyErr) (h : iterFile lines = .ok (es, x)) :
    ∃ out, iterCodedEntries lines = .ok (out, x) ∧ out.map Prod.fst = es ∧
      ∀ p ∈ out, ∀ c, c ∈ p.2 ↔ ∃ s ∈ p.1.senses, Spec.HasCode s c := by
  refine ⟨es.map (fun e => (e, entryCodes e)), by unfold iterCodedEntries; rw [h]; rfl, by simp [Function.comp_def], ?_⟩
  intro p hp c
  obtain ⟨e, _, rfl⟩ := List.mem_map.1 hp
  exact mem_entryCodes e c

/-- A word whose second line comes after it was filed: the object under `n-t` has both lines' senses. -/
example : loadCodedDictionary id [u!"　？？？ /EDICT/\n", u!"明日 [あした] /(n-t) tomorrow/\n",
      u!"月 /(n) moon/\n", u!"明日 [あす] /(uk) future/\n"] =
    .ok ⟨[⟨u!"明日", [u!"あした", u!"あす"], [u!"(n-t) tomorrow", u!"(uk) future"]⟩, ⟨u!"月", [u!"月"], [u!"(n) moon"]⟩],
      [(u!"明日", 0), (u!"月", 1)],
      [(u!"n-t", [(u!"明日", 0)]), (u!"n", [(u!"月", 1)]), (u!"uk", [(u!"明日", 0)])]⟩ := by decide +kernel

end Cjk
