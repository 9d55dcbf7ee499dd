import Verif.Props.PatternText
/-!
# The patterns of zhuyin_table.py and pinyin_table.py as texts
-/

namespace Cjk
open Py

theorem correctMatches_text (ms : List MatchObj) :
    correctMatchesByText ms = correctMatches (ms.map (fun m => (m.text, named (nmOf baseNm) m.caps))) := by
  have hinj : NmInj (nmOf baseNm) := nmOf_inj (by decide)
  induction ms with
  | nil => rfl
  | cons m ms ih =>
    simp only [correctMatchesByText, correctMatches, List.map_cons, ih, MatchObj.group]
    rw [get?_named hinj m.caps 3 u!"tone" (by decide), get?_named hinj m.caps 2 u!"pinyin" (by decide)]
    cases toneOf ((Dict.get? m.caps 3).getD []) with
    | error e => rfl
    | ok t => simp only; cases correctMatches (ms.map (fun m => (m.text, named (nmOf baseNm) m.caps))) <;> rfl

theorem tonePat_ne_nil (g : Nat) (m : MState) : (Pat.cat (tonePat g) .eps).run m ≠ [] := by
  have h : ((Pat.opt true (.chr ⟨false, [.range 0x30 0x35]⟩)).run m) ≠ [] := by
    simp [Pat.run]
  have hc : ∀ p : Pat, (Pat.cat p .eps).run m = p.run m := by
    intro p
    simp only [Pat.run, List.flatMap_singleton']
  rw [hc]
  show (Pat.group g _).run m ≠ []
  have hg : ∀ (p : Pat), p.run m ≠ [] → (Pat.group g p).run m ≠ [] := by
    intro p hp
    simp only [Pat.run, ne_eq, List.map_eq_nil_iff]
    exact hp
  exact hg _ (by rw [hc]; exact h)

/-- A group and its content match at the same places; appending a tone changes nothing about that. -/
theorem basePat_nil (g : Nat) (ws : List Str) (m : MState) :
    (basePat g ws).run m = [] ↔ (altPat ws).run m = [] ∧ (Pat.cat (.chr (.lit 0x23)) .eps).run m = [] := by
  have hg : ∀ (i : Nat) (p : Pat), (Pat.group i p).run m = [] ↔ p.run m = [] := by
    intro i p
    simp only [Pat.run, List.map_eq_nil_iff]
  have ha : ∀ (p q : Pat), (Pat.alt p q).run m = [] ↔ p.run m = [] ∧ q.run m = [] := by
    intro p q
    simp only [Pat.run, List.append_eq_nil_iff]
  have hc : ∀ (p q : Pat), (∀ m', q.run m' ≠ []) → ((Pat.cat p q).run m = [] ↔ p.run m = []) := by
    intro p q hq
    simp only [Pat.run, List.flatMap_eq_nil_iff]
    constructor
    · intro h
      cases hp : p.run m with
      | nil => rfl
      | cons x l => exact absurd (h x (by rw [hp]; simp)) (hq x)
    · intro h
      rw [h]
      simp
  rw [basePat, hg, ha, hc _ _ (tonePat_ne_nil _), hg]

theorem repsOf_ne_nil (f : MState → List MState) (g : Bool) (n : Nat) (m : MState) : repsOf f g n m ≠ [] := by
  cases n with
  | zero => simp [repsOf]
  | succ n => cases g <;> simp [repsOf]

theorem pinyinRegexPattern_eq {lines : List Str} {seg : List Str} (h : newSegmenter lines = .ok seg) :
    pinyinRegexPattern lines = .ok (u!"(" ++ join u!"|" seg ++ u!")([0-5]?)") := by
  unfold newSegmenter at h
  unfold pinyinRegexPattern
  cases hg : getAllPinyin lines with
  | error e => rw [hg] at h; cases h
  | ok all =>
    rw [hg] at h
    simp only [Except.ok.injEq] at h
    rw [← h]

/-- The table has no characters that are special in patterns. -/
def PlainTable (lines : List Str) : Prop := ∀ p ∈ (Spec.tablePairs lines).map Prod.snd, PlainWord p

theorem plain_seg {lines : List Str} {seg : List Str} (h : newSegmenter lines = .ok seg) (hp : PlainTable lines) :
    ∀ w ∈ seg, PlainWord w := by
  obtain ⟨_, hperm, _, _, _⟩ := newSegmenter_spec h
  intro w hw
  rcases List.mem_cons.1 (hperm.mem_iff.1 hw) with rfl | hw
  · intro c hc
    rw [List.mem_singleton] at hc
    subst hc; decide
  · exact hp w hw

/-- C69: for a table without characters that are special in patterns, both pattern texts of `PinyinSegmenter` compile, and
`segment_pinyin` and `is_pinyin` with the compiled texts do what the model does. -/
theorem C69_pattern_text (lines : List Str) (seg : List Str) (h : newSegmenter lines = .ok seg) (hp : PlainTable lines) :
    ∃ text single string, pinyinRegexPattern lines = .ok text ∧ compile (basePattern text) = some single ∧
      compile (stringPattern text) = some string ∧
      (∀ lower s, segmentPinyinByText lower single s = segmentPinyin lower seg s) ∧
      (∀ lower s, isPinyinByText lower string s = isPinyin lower seg s) := by
  have hw := plain_seg h hp
  obtain ⟨_, _, _, hnil, hne⟩ := newSegmenter_spec h
  refine ⟨_, _, _, pinyinRegexPattern_eq h, compile_single seg hw, compile_string seg hw hne hnil, ?_, ?_⟩
  · intro lower s
    unfold segmentPinyinByText segmentPinyin
    rw [correctMatches_text, finditer_text (l := baseNm) (by decide) (single_toRe seg)]
  · intro lower s
    unfold isPinyinByText isPinyin
    generalize pinyinNormalize lower s = n
    obtain ⟨r, h1, h2⟩ := single_toRe seg
    rw [Bool.eq_iff_iff]
    have e1 : (!(rePlus (pinyinRe seg) (n.length + 1) n).isEmpty) = true ↔ (pinyinRe seg).run n [] ≠ [] := by
      rw [← rePlus_ne_nil _ n.length]
      simp
    simp only [e1]
    have e2 : (pinyinRe seg).run n [] = ((Pat.cat (basePat 1 seg) .eps).run ⟨none, n, []⟩).map (MState.view (nmOf baseNm)) := by
      rw [toRe_run (nmOf_inj (by decide)) _ r h1, h2]
      rfl
    -- the group numbers make no difference to whether something matches
    have e3 : ∀ m, (basePat 2 seg).run m = [] ↔ (basePat 1 seg).run m = [] := by
      intro m
      rw [basePat_nil, basePat_nil]
    rw [e2]
    simp only [Compiled.pyMatch, Compiled.matchAt, Option.isSome_map, List.isSome_head?, Pat.run]
    simp only [List.flatMap_singleton', ne_eq, List.map_eq_nil_iff]
    rw [← e3 ⟨none, n, []⟩]
    simp only [List.flatMap_eq_nil_iff, List.mem_map, forall_exists_index,
      and_imp, forall_apply_eq_imp_iff₂, repsOf_ne_nil]
    constructor
    · intro hn h0
      apply hn
      intro a ha
      rw [h0] at ha
      simp at ha
    · intro hn h0
      obtain ⟨a, ha⟩ := List.exists_mem_of_ne_nil _ hn
      exact h0 a ha

/-! ### What the patterns of zhuyin_table.py match -/

theorem litPat_run (w : Str) (m : MState) :
    (litPat w).run m = if w <+: m.rest then [⟨Spec.lastOf m.prev w, m.rest.drop w.length, m.caps⟩] else [] := by
  induction w generalizing m with
  | nil => simp [litPat, Pat.run, Spec.lastOf]
  | cons c w ih =>
    obtain ⟨p, s, cp⟩ := m
    have hc : ∀ (a b : Pat) m, (Pat.cat a b).run m = (a.run m).flatMap b.run := fun _ _ _ => rfl
    rw [litPat, hc]
    cases s with
    | nil => simp [Pat.run]
    | cons x s =>
      rw [run_pat_chr_cons, has_lit]
      by_cases hx : x = c
      · subst hx
        simp only [beq_self_eq_true, if_true, List.flatMap_cons, List.flatMap_nil, List.append_nil, ih, lastOf_cons,
          List.cons_prefix_cons, true_and, List.length_cons, List.drop_succ_cons]
      · have : (x == c) = false := by simpa using hx
        have h2 : ¬ (c :: w <+: x :: s) := by
          rw [List.cons_prefix_cons]; exact fun h => hx h.1.symm
        simp only [this, Bool.false_eq_true, if_false, List.flatMap_nil, h2]

theorem altPat_head (ws : List Str) (h : ws ≠ []) (m : MState) :
    ((altPat ws).run m).head? =
      (ws.find? (fun w => decide (w <+: m.rest))).map (fun w => ⟨Spec.lastOf m.prev w, m.rest.drop w.length, m.caps⟩) := by
  have ha : ∀ (a b : Pat) m, (Pat.alt a b).run m = a.run m ++ b.run m := fun _ _ _ => rfl
  induction ws with
  | nil => exact absurd rfl h
  | cons w ws ih =>
    cases ws with
    | nil =>
      simp only [altPat, litPat_run, List.find?_cons, List.find?_nil]
      by_cases hw : w <+: m.rest <;> simp [hw]
    | cons w2 ws =>
      rw [altPat, ha, litPat_run, List.find?_cons]
      · by_cases hw : w <+: m.rest
        · simp [hw]
        · simp only [hw, if_false, List.nil_append, decide_false]
          exact ih (by simp)
      · intro h; cases h

theorem head?_flatMap {α β : Type} (f : α → List β) (hf : ∀ x, f x ≠ []) (l : List α) :
    (l.flatMap f).head? = l.head?.bind (fun x => (f x).head?) := by
  cases l with
  | nil => rfl
  | cons x l =>
    simp only [List.flatMap_cons, List.head?_cons, Option.bind_some, List.head?_append]
    cases h : (f x).head? with
    | some y => rfl
    | none => exact absurd (List.head?_eq_none_iff.1 h) (hf x)

/-- The digit that an optional class takes. -/
def optDigit (k : Cls) (s : Str) : Str := (s.take 1).filter k.has

theorem optDigit_head (k : Cls) (m : MState) :
    ((Pat.opt true (.chr k)).run m).head? =
      some ⟨Spec.lastOf m.prev (optDigit k m.rest), m.rest.drop (optDigit k m.rest).length, m.caps⟩ := by
  obtain ⟨p, s, c⟩ := m
  cases s with
  | nil => rfl
  | cons x s =>
    have : (Pat.opt true (.chr k)).run ⟨p, x :: s, c⟩ = (if k.has x then [⟨some x, s, c⟩] else []) ++ [⟨p, x :: s, c⟩] := rfl
    rw [this]
    cases hx : k.has x <;> simp [optDigit, hx, Spec.lastOf]

theorem cat_eps_run (p : Pat) (m : MState) : (Pat.cat p .eps).run m = p.run m := by
  simp only [Pat.run, List.flatMap_singleton']

theorem group_run_head (g : Nat) (p : Pat) (m : MState) :
    ((Pat.group g p).run m).head? = (p.run m).head?.map (fun m' =>
      ⟨m'.prev, m'.rest, m'.caps.set g (m.rest.take (m.rest.length - m'.rest.length))⟩) := by
  simp only [Pat.run, List.head?_map]

theorem take_length_sub_drop {n : Nat} {s : Str} (h : n ≤ s.length) : s.take (s.length - (s.drop n).length) = s.take n := by
  rw [List.length_drop, Nat.sub_sub_self h]

theorem word_match (ws : List Str) (h : ws ≠ []) (q : Pat) (hq : ∀ m, q.run m ≠ []) (s : Str) :
    ((Pat.cat (.group 1 (altPat ws)) q).run ⟨none, s, []⟩).head? =
      (ws.find? (fun w => decide (w <+: s))).bind (fun w => (q.run ⟨Spec.lastOf none w, s.drop w.length, [(1, w)]⟩).head?) := by
  have hc : ∀ (a b : Pat) m, (Pat.cat a b).run m = (a.run m).flatMap b.run := fun _ _ _ => rfl
  rw [hc, head?_flatMap _ hq, group_run_head, altPat_head ws h]
  cases hf : ws.find? (fun w => decide (w <+: s)) with
  | none => rfl
  | some w =>
    have hw : w <+: s := by simpa using List.find?_some hf
    simp only [Option.map_some, Option.bind_some]
    rw [take_length_sub_drop hw.length_le, List.prefix_iff_eq_take.1 hw]
    congr 4
    simp [Dict.set, hw.length_le]

/-- `re.match(pinyin_regex_pattern(f), s)` -/
theorem pinyin_pyMatch (ws : List Str) (h : ws ≠ []) (s : Str) :
    Compiled.pyMatch ⟨.cat (.group 1 (altPat ws)) (.cat (tonePat 2) .eps), []⟩ s =
      (ws.find? (fun w => decide (w <+: s))).map (fun w =>
        let t := optDigit ⟨false, [.range 0x30 0x35]⟩ (s.drop w.length)
        ⟨0, w ++ t, [(1, w), (2, t)]⟩) := by
  simp only [Compiled.pyMatch, Compiled.matchAt]
  rw [word_match ws h _ (tonePat_ne_nil 2)]
  cases hf : ws.find? (fun w => decide (w <+: s)) with
  | none => rfl
  | some w =>
    obtain ⟨r, rfl⟩ : w <+: s := by simpa using List.find?_some hf
    simp only [Option.bind_some, Option.map_some, cat_eps_run]
    rw [tonePat, group_run_head, cat_eps_run, optDigit_head]
    simp only [Option.map_some, List.drop_left, MatchObj.mk.injEq, true_and, Option.some.injEq]
    have hp : optDigit ⟨false, [.range 0x30 0x35]⟩ r <+: r := by
      unfold optDigit
      cases r with
      | nil => simp
      | cons x r => simp only [List.take_succ_cons, List.take_zero, List.filter_cons, List.filter_nil]; split <;> simp
    obtain ⟨v, hv⟩ := hp
    generalize optDigit ⟨false, [.range 0x30 0x35]⟩ r = t at hv
    subst hv
    constructor
    · simp only [List.drop_left, List.length_append]
      have : w.length + (t.length + v.length) - v.length = (w ++ t).length := by simp; omega
      rw [this, ← List.append_assoc, List.take_left]
    · simp only [List.drop_left, List.length_append]
      have : t.length + v.length - v.length = t.length := by omega
      rw [this, List.take_left]
      rfl

/-- `re.match(zhuyin_regex_pattern(f), s)` -/
theorem zhuyin_pyMatch (ws : List Str) (h : ws ≠ []) (s : Str) :
    Compiled.pyMatch ⟨.cat (.group 1 (altPat ws)) (.cat (.opt true (.chr ⟨false, [.range 0x30 0x34]⟩)) .eps), []⟩ s =
      (ws.find? (fun w => decide (w <+: s))).map (fun w =>
        ⟨0, w ++ optDigit ⟨false, [.range 0x30 0x34]⟩ (s.drop w.length), [(1, w)]⟩) := by
  simp only [Compiled.pyMatch, Compiled.matchAt]
  rw [word_match ws h _ (by intro m; rw [cat_eps_run]; simp [Pat.run])]
  cases hf : ws.find? (fun w => decide (w <+: s)) with
  | none => rfl
  | some w =>
    obtain ⟨r, rfl⟩ : w <+: s := by simpa using List.find?_some hf
    simp only [Option.bind_some, Option.map_some, cat_eps_run]
    rw [optDigit_head]
    simp only [Option.map_some, List.drop_left, MatchObj.mk.injEq, true_and, Option.some.injEq, and_true]
    have hp : optDigit ⟨false, [.range 0x30 0x34]⟩ r <+: r := by
      unfold optDigit
      cases r with
      | nil => simp
      | cons x r => simp only [List.take_succ_cons, List.take_zero, List.filter_cons, List.filter_nil]; split <;> simp
    obtain ⟨v, hv⟩ := hp
    generalize optDigit ⟨false, [.range 0x30 0x34]⟩ r = t at hv
    subst hv
    simp only [List.drop_left, List.length_append]
    have : w.length + (t.length + v.length) - v.length = (w ++ t).length := by simp; omega
    rw [this, ← List.append_assoc, List.take_left]

theorem optDigit_spec (hi : Nat) (s : Str) : Spec.DigitAt hi s (optDigit ⟨false, [.range 0x30 hi]⟩ s) := by
  cases s with
  | nil => exact Or.inr ⟨(fun _ _ h => by cases h), rfl⟩
  | cons x s =>
    by_cases hx : 0x30 ≤ x ∧ x ≤ hi
    · exact Or.inl ⟨x, s, rfl, hx.1, hx.2, by simp [optDigit, Cls.has, ClsItem.has, hx]⟩
    · refine Or.inr ⟨fun d r h => ?_, ?_⟩
      · cases h; exact hx
      · have : ((48 ≤ x) → ¬ (x ≤ hi)) := fun a b => hx ⟨a, b⟩
        simpa [optDigit, Cls.has, ClsItem.has] using this

/-- C100: `pinyin_regex_pattern` matches a text exactly if it begins with `r` or a pinyin of the table; group 1 is the longest such
syllable, group 2 the tone digit 0 to 5 behind it if there is one, and the match is both together. -/
theorem C100_pinyin_regex (lines : List Str) (hr : Spec.RowsOk lines) (hp : PlainTable lines) :
    ∃ text r, pinyinRegexPattern lines = .ok text ∧ compile text = some r ∧ ∀ s,
      ((∀ w ∈ Spec.patternSyllables lines, ¬ w <+: s) → r.pyMatch s = none) ∧
      ((∃ w ∈ Spec.patternSyllables lines, w <+: s) → ∃ m w t, r.pyMatch s = some m ∧ m.group 1 = some w ∧ m.group 2 = some t ∧
        m.text = w ++ t ∧ w ∈ Spec.patternSyllables lines ∧ w <+: s ∧ Spec.DigitAt 0x35 (s.drop w.length) t ∧
        ∀ w' ∈ Spec.patternSyllables lines, w' <+: s → w'.length ≤ w.length) := by
  obtain ⟨hall, _⟩ := C69_pattern lines hr
  have hseg : newSegmenter lines = .ok (longestFirst (Spec.patternSyllables lines)) := by
    unfold newSegmenter; rw [hall]; rfl
  obtain ⟨_, hperm, hsort, _, hne⟩ := newSegmenter_spec hseg
  generalize longestFirst (Spec.patternSyllables lines) = seg at *
  refine ⟨_, _, pinyinRegexPattern_eq hseg, compile_pinyin seg (plain_seg hseg hp), fun s => ?_⟩
  rw [pinyin_pyMatch seg hne]
  constructor
  · intro h
    rw [List.find?_eq_none.2 (fun w hw => by simpa using h w (hperm.mem_iff.1 hw))]
    rfl
  · rintro ⟨w0, hw0, hpre⟩
    cases hf : seg.find? (fun w => decide (w <+: s)) with
    | none =>
      exact absurd hpre (by simpa using List.find?_eq_none.1 hf w0 (hperm.mem_iff.2 hw0))
    | some w =>
      refine ⟨_, w, _, rfl, rfl, rfl, rfl, hperm.mem_iff.1 (List.mem_of_find?_eq_some hf), by simpa using List.find?_some hf,
        optDigit_spec 0x35 _, ?_⟩
      intro w' hw' hpre'
      obtain ⟨_, as, bs, hab, hnot⟩ := List.find?_eq_some_iff_append.1 hf
      have hm := hperm.mem_iff.2 hw'
      rw [hab] at hm hsort
      rcases List.mem_append.1 hm with hm | hm
      · exact absurd hpre' (by simpa using hnot w' hm)
      · rcases List.mem_cons.1 hm with rfl | hm
        · exact Nat.le_refl _
        · exact (List.pairwise_cons.1 (List.pairwise_append.1 hsort).2.1).1 w' hm

/-- C101: what `zhuyin_regex_pattern` does match: a text that begins with a *pinyin* of the table, the first such pinyin in the
order of the file (not the longest), and a digit 0 to 4 behind it if there is one. -/
theorem C101_zhuyin_regex_partial (lines : List Str) (hr : Spec.RowsOk lines) (hp : PlainTable lines)
    (hne : Spec.tablePairs lines ≠ []) :
    ∃ text r, zhuyinRegexPattern lines = .ok text ∧ compile text = some r ∧ ∀ s,
      ((∀ p ∈ Spec.tablePairs lines, ¬ p.2 <+: s) → r.pyMatch s = none) ∧
      (∀ as p bs, Spec.tablePairs lines = as ++ p :: bs → p.2 <+: s → (∀ q ∈ as, ¬ q.2 <+: s) →
        ∃ m t, r.pyMatch s = some m ∧ m.group 1 = some p.2 ∧ m.text = p.2 ++ t ∧ Spec.DigitAt 0x34 (s.drop p.2.length) t) := by
  have : Decidable (Spec.RowsOk lines) := inferInstanceAs (Decidable (∀ r ∈ _, _))
  have htext : zhuyinRegexPattern lines = .ok (u!"(" ++ join u!"|" ((Spec.tablePairs lines).map Prod.snd) ++ u!")[0-4]?") := by
    unfold zhuyinRegexPattern
    rw [collectPinyin_eq, if_pos hr]
    rfl
  refine ⟨_, _, htext, compile_zhuyin _ hp, fun s => ?_⟩
  rw [zhuyin_pyMatch _ (by simpa using hne), List.find?_map]
  constructor
  · intro h
    rw [List.find?_eq_none.2 (fun w hw => by simpa using h w hw)]
    rfl
  · intro as p bs hab hpre hnot
    have : (Spec.tablePairs lines).find? ((fun w => decide (w <+: s)) ∘ Prod.snd) = some p := by
      rw [List.find?_eq_some_iff_append]
      exact ⟨by simpa using hpre, as, bs, hab, fun q hq => by simpa using hnot q hq⟩
    rw [this]
    exact ⟨_, _, rfl, rfl, rfl, optDigit_spec 0x34 _⟩

/-- C101 fails for every table in which no zhuyin begins with a pinyin, as is the case for every real table (zhuyin and pinyin are
written in different scripts): the pattern matches none of the zhuyin of the table. -/
theorem C101_no_zhuyin (lines : List Str) (hr : Spec.RowsOk lines) (hp : PlainTable lines) (hne : Spec.tablePairs lines ≠ [])
    (hs : ∀ p ∈ Spec.tablePairs lines, ∀ q ∈ Spec.tablePairs lines, ¬ q.2 <+: p.1) :
    ∃ text r, zhuyinRegexPattern lines = .ok text ∧ compile text = some r ∧
      ∀ p ∈ Spec.tablePairs lines, ∀ rest, (∀ q ∈ Spec.tablePairs lines, ¬ p.1 <+: q.2) → r.pyMatch (p.1 ++ rest) = none := by
  obtain ⟨text, r, h1, h2, h3⟩ := C101_zhuyin_regex_partial lines hr hp hne
  refine ⟨text, r, h1, h2, fun p hpm rest hq => (h3 _).1 (fun q hqm hpre => ?_)⟩
  rcases List.prefix_or_prefix_of_prefix hpre (List.prefix_append p.1 rest) with h | h
  · exact hs p hpm q hqm h
  · exact hq q hqm h

-- The hypotheses hold for the small table, and the pattern takes `ni` from `niu3`.
example : Spec.RowsOk demoZhuyin ∧ PlainTable demoZhuyin ∧ Spec.tablePairs demoZhuyin ≠ [] ∧
    (∀ p ∈ Spec.tablePairs demoZhuyin, ∀ q ∈ Spec.tablePairs demoZhuyin, ¬ q.2 <+: p.1 ∧ ¬ p.1 <+: q.2) := by
  unfold Spec.RowsOk PlainTable PlainWord
  decide +kernel

example : (match zhuyinRegexPattern demoZhuyin with
    | .ok text => (compile text).bind (fun r => (r.pyMatch u!"niu3").map (·.text))
    | .error _ => none) = some u!"ni" := by decide +kernel

example : (match pinyinRegexPattern demoZhuyin with
    | .ok text => (compile text).bind (fun r => (r.pyMatch u!"niu3x").map (·.text))
    | .error _ => none) = some u!"niu3" := by decide +kernel

end Cjk
