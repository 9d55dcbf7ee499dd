import Verif.Spec.Kanjidic
import Verif.Lemmas.Scripts
import Verif.Lemmas.Alternations
import Verif.Py.Split
import Verif.Py.Strip
import Verif.Py.Exc
/-!
# C37, C38, C77: kanjidic
-/

namespace Cjk
open Py

/-! ### C37 -/

theorem isInfix_singleton (c : Chr) (s : Str) : isInfix [c] s = true ↔ c ∈ s := by
  induction s with
  | nil => simp [isInfix]
  | cons x s ih =>
    simp only [isInfix, Bool.or_eq_true, ih, List.mem_cons]
    simp [List.isPrefixOf]

theorem replaceChr_nil (c : Chr) (s : Str) : replaceChr c [] s = s.filter (· ≠ c) := by
  induction s with
  | nil => rfl
  | cons x s ih =>
    unfold replaceChr at *
    rw [List.flatMap_cons, ih]
    by_cases h : x = c <;> simp [h]

theorem splitChr_length (c : Chr) (s : Str) : (splitChr c s).length = s.count c + 1 := by
  induction s with
  | nil => rfl
  | cons x s ih =>
    by_cases h : x = c
    · subst h; simp [splitChr, ih]
    · obtain ⟨p, ps, h1, h2⟩ := splitChr_cons_ne c h s
      rw [h2, List.count_cons_of_ne (by simpa using h), ← ih, h1]
      simp

theorem splitChr_head (c : Chr) (s : Str) : (splitChr c s).head? = some (s.takeWhile (· ≠ c)) := by
  induction s with
  | nil => rfl
  | cons x s ih =>
    by_cases h : x = c
    · subst h; simp [splitChr]
    · obtain ⟨p, ps, h1, h2⟩ := splitChr_cons_ne c h s
      rw [h1] at ih
      simp only [List.head?_cons, Option.some.injEq] at ih
      rw [h2]
      simp [h, ih]

theorem readingStem_eq (r : Str) :
    readingStem r = if r.count c!"." ≤ 1 then .ok (Spec.pooled r) else .error .valueError := by
  unfold readingStem
  have hr : (if isInfix u!"-" r = true then replaceChr 0x2d [] r else r) = r.filter (· ≠ c!"-") := by
    rw [replaceChr_nil]
    split
    · rfl
    · rename_i h
      rw [isInfix_singleton] at h
      symm
      rw [List.filter_eq_self]
      intro a ha; simp; rintro rfl; exact h ha
  simp only [hr]
  have hcount : (r.filter (· ≠ c!"-")).count c!"." = r.count c!"." := by
    rw [List.count_filter (by decide)]
  have hlen := splitChr_length c!"." (r.filter (· ≠ c!"-"))
  have hhead := splitChr_head c!"." (r.filter (· ≠ c!"-"))
  rw [hcount] at hlen
  unfold Spec.pooled
  generalize r.filter (· ≠ c!"-") = f at *
  simp only [isInfix_singleton]
  by_cases hd : c!"." ∈ f
  · have : 0 < r.count c!"." := by rw [← hcount]; exact List.count_pos_iff.2 hd
    rw [if_pos hd]
    rcases hs : splitChr c!"." f with _ | ⟨a, _ | ⟨b, _ | ⟨d, l⟩⟩⟩
    · exact absurd hs (splitChr_ne_nil _ _)
    · simp [hs] at hlen; omega
    · rw [hs] at hlen hhead
      simp only [List.length_cons, List.length_nil] at hlen
      rw [if_pos (by omega)]
      simp only [List.head?_cons, Option.some.injEq] at hhead
      rw [hhead]
    · rw [hs] at hlen
      simp only [List.length_cons] at hlen
      rw [if_neg (by omega)]
  · have : r.count c!"." = 0 := by rw [← hcount]; exact List.count_eq_zero.2 hd
    rw [if_neg hd, if_pos (by omega)]
    congr 1
    have := List.takeWhile_append_of_pos (p := fun x => decide (x ≠ c!".")) (l₁ := f) (l₂ := [])
      (fun x hx => by simp; rintro rfl; exact hd hx)
    simpa using this.symm

theorem toHiragana_count_dot (r : Str) : (toHiragana r).count c!"." = r.count c!"." := by
  induction r with
  | nil => rfl
  | cons x r ih =>
    have e : toHiragana (x :: r) = (if 0x30a1 ≤ x ∧ x ≤ 0x30f6 then x - 96 else x) :: toHiragana r := rfl
    rw [e, List.count_cons, List.count_cons, ih]
    congr 1
    have : (if 0x30a1 ≤ x ∧ x ≤ 0x30f6 then x - 96 else x) = c!"." ↔ x = c!"." := by split <;> omega
    simp only [beq_iff_eq, this]

/-- C37: the reading pool is exactly the set of kun readings and hiragana-converted on readings with
hyphens removed and cut at the dot, provided no reading has two dots. -/
theorem C37_pool (e : KEntry) (h : ∀ r ∈ e.kunReadings ++ e.onReadings, r.count c!"." ≤ 1) :
    ∃ pool, allReadings e = .ok pool ∧ pool.Nodup ∧
      ∀ x, x ∈ pool ↔ (∃ r ∈ e.kunReadings, x = Spec.pooled r) ∨
        (∃ r ∈ e.onReadings, x = Spec.pooled (r.map (Spec.convertChr Spec.katakanaAlphabet Spec.hiraganaAlphabet))) := by
  have hm : mapE readingStem (e.kunReadings ++ e.onReadings.map toHiragana) =
      .ok ((e.kunReadings ++ e.onReadings.map toHiragana).map Spec.pooled) := by
    apply mapE_ok
    intro a ha
    rw [readingStem_eq, if_pos]
    rcases List.mem_append.1 ha with ha | ha
    · exact h a (by simp [ha])
    · obtain ⟨r, hr, rfl⟩ := List.mem_map.1 ha
      rw [toHiragana_count_dot]; exact h r (by simp [hr])
  refine ⟨_, ?_, nodup_dedup ((e.kunReadings ++ e.onReadings.map toHiragana).map Spec.pooled), ?_⟩
  · unfold allReadings; rw [hm]; rfl
  · intro x
    simp only [mem_dedup, List.map_append, List.mem_append, List.mem_map, List.map_map, Function.comp_apply,
      ← toHiragana_eq_convert, eq_comm (a := x)]

/-- C37: `ValueError` is raised exactly if some reading has more than one dot, and nothing else is. -/
theorem C37_raises (e : KEntry) (er : PyErr) :
    allReadings e = .error er ↔ er = .valueError ∧ ∃ r ∈ e.kunReadings ++ e.onReadings, 1 < r.count c!"." := by
  have step : allReadings e = .error er ↔ mapE readingStem (e.kunReadings ++ e.onReadings.map toHiragana) = .error er := by
    unfold allReadings
    cases mapE readingStem (e.kunReadings ++ e.onReadings.map toHiragana) <;> simp [bind, Except.bind]
  constructor
  · intro h
    rw [step, mapE_error_iff] at h
    obtain ⟨pre, a, post, h1, h2, _⟩ := h
    rw [readingStem_eq] at h2
    split at h2
    · cases h2
    · rename_i hc
      cases h2
      refine ⟨rfl, ?_⟩
      have ha : a ∈ e.kunReadings ++ e.onReadings.map toHiragana := by rw [h1]; simp
      rcases List.mem_append.1 ha with ha | ha
      · exact ⟨a, by simp [ha], by omega⟩
      · obtain ⟨r, hr, rfl⟩ := List.mem_map.1 ha
        rw [toHiragana_count_dot] at hc
        exact ⟨r, by simp [hr], by omega⟩
  · rintro ⟨rfl, r, hr, hc⟩
    obtain ⟨a, ha, hac⟩ : ∃ a ∈ e.kunReadings ++ e.onReadings.map toHiragana, 1 < a.count c!"." := by
      rcases List.mem_append.1 hr with hr | hr
      · exact ⟨r, by simp [hr], hc⟩
      · exact ⟨toHiragana r, List.mem_append_right _ (List.mem_map_of_mem hr), by rwa [toHiragana_count_dot]⟩
    rw [step]
    cases hm : mapE readingStem (e.kunReadings ++ e.onReadings.map toHiragana) with
    | ok l =>
      obtain ⟨hl, hi⟩ := mapE_ok_iff.1 hm
      obtain ⟨i, hi1, hi2⟩ := List.getElem_of_mem ha
      obtain ⟨b, _, hb⟩ := hi i hi1
      rw [hi2, readingStem_eq, if_neg (by omega)] at hb; cases hb
    | error er =>
      obtain ⟨_, a', _, _, h2, _⟩ := mapE_error_iff.1 hm
      rw [readingStem_eq] at h2
      split at h2
      · cases h2
      · cases h2; rfl

/-- Both cases occur. -/
example : allReadings ⟨u!"食", 0, [], [u!"ショク", u!"ジキ"], [u!"く.う", u!"く.らう", u!"-は.む"], .num 9, none, [], []⟩ =
    .ok [u!"く", u!"は", u!"しょく", u!"じき"] := by decide +kernel
example : allReadings ⟨u!"食", 0, [], [], [u!"く.ら.う"], .num 9, none, [], []⟩ = .error .valueError := by decide +kernel

/-! ### C38: segments -/

theorem plain_space {c : Chr} (h : Spec.plain c) : (c != 0x20 && c != 0x7b) = true := by
  have h20 : c ≠ 0x20 := by rintro rfl; exact absurd h.1 (by decide)
  have := h.2
  simp [h20, this]

theorem segment_field (u t : Str) (hu : Spec.field u) (ht : ∀ c, t.head? = some c → c = 0x20) :
    segmentPattern.first (u ++ t) [] = some (t, []) := by
  refine Re.first_alt_left (Re.first_plus u t [] hu.1 (fun x hx => plain_space (hu.2 x hx)) ?_)
  intro x hx; rw [ht x hx]; rfl

theorem segment_gloss (g t : Str) (h1 : c!"}" ∉ g) (h2 : 0x0a ∉ g) :
    segmentPattern.first ((u!"{" ++ g ++ u!"}") ++ t) [] = some (t, []) := by
  unfold segmentPattern
  rw [Re.first_alt_right (by
    unfold Re.plus
    exact Re.run_seq_nil_left (by simp [Re.run]))]
  simp only [Re.cat, List.append_assoc]
  refine Re.first_seq (Re.first_lit _ _ _) ?_
  refine Re.first_few_seq g (u!"}" ++ t) [] (fun y hy => ?_) (Re.first_lit _ _ _) ?_
  · simp only [Re.dot, bne_iff_ne, ne_eq]; rintro rfl; exact h2 hy
  · intro v w hvw hw
    cases w with
    | nil => exact absurd rfl hw
    | cons x w =>
      apply Re.run_lit_ne
      rw [List.cons_append, List.cons_prefix_cons]
      rintro ⟨rfl, _⟩
      exact h1 (by rw [hvw]; simp)

theorem segment_space (t : Str) : segmentPattern.first (0x20 :: t) [] = none := by
  rw [Re.first_eq_none]
  simp [segmentPattern, Re.run, Re.plus, Re.cat, Re.run_lit]

/-- A token: a field or a gloss. -/
def IsToken (u : Str) : Prop := Spec.field u ∨ ∃ g, u = u!"{" ++ g ++ u!"}" ∧ c!"}" ∉ g ∧ 0x0a ∉ g

theorem IsToken.ne_nil {u : Str} (h : IsToken u) : u ≠ [] := by
  rcases h with h | ⟨g, rfl, _⟩
  · exact h.1
  · simp

theorem segments_join (toks : List Str) (h : ∀ u ∈ toks, IsToken u) : segments (join u!" " toks) = toks := by
  have hnil : segments [] = [] := by
    unfold segments; rw [Re.finditer_nil _ (by decide +kernel)]; rfl
  have key : ∀ u t, IsToken u → (∀ c, t.head? = some c → c = 0x20) → segments (u ++ t) = u :: segments t := by
    intro u t hu ht
    unfold segments
    rw [Re.finditer_match _ u t [] hu.ne_nil]
    · rfl
    · rcases hu with hu | ⟨g, rfl, hg⟩
      · exact segment_field u t hu ht
      · exact segment_gloss g t hg.1 hg.2
  induction toks with
  | nil => exact hnil
  | cons u toks ih =>
    cases toks with
    | nil =>
      have := key u [] (h u (by simp)) (by simp)
      rw [hnil, List.append_nil] at this
      exact this
    | cons v toks =>
      rw [join_cons_cons, List.append_assoc, key u _ (h u (by simp)) (by simp)]
      congr 1
      refine Eq.trans ?_ (ih (fun w hw => h w (by simp [hw])))
      unfold segments
      rw [List.singleton_append, Re.finditer_skip _ _ _ (segment_space _)]

theorem join_getLast (sep : Str) (toks : List Str) (h : ∀ u ∈ toks, u ≠ []) (hne : toks ≠ []) :
    ∃ u ∈ toks, (join sep toks).getLast? = u.getLast? := by
  induction toks with
  | nil => exact absurd rfl hne
  | cons u toks ih =>
    cases toks with
    | nil => exact ⟨u, by simp, rfl⟩
    | cons v toks =>
      obtain ⟨w, hw, e⟩ := ih (fun w hw => h w (by simp [hw])) (by simp)
      refine ⟨w, List.mem_cons_of_mem _ hw, ?_⟩
      rw [join_cons_cons, List.getLast?_append, e]
      have := h w (List.mem_cons_of_mem _ hw)
      rw [List.getLast?_eq_some_getLast this]; rfl

theorem join_head (sep : Str) (u : Str) (toks : List Str) (h : u ≠ []) : (join sep (u :: toks)).head? = u.head? := by
  cases u with
  | nil => exact absurd rfl h
  | cons x u => cases toks <;> rfl

theorem token_last {u : Str} (h : IsToken u) (c : Chr) (hc : u.getLast? = some c) : isSpace c = false := by
  rcases h with h | ⟨g, rfl, _⟩
  · exact (h.2 c (List.mem_of_getLast? hc)).1
  · rw [List.getLast?_concat] at hc; cases hc; decide

theorem kana_plain {c : Chr} (h : Spec.InScript .katakana c ∨ Spec.InScript .hiragana c) : Spec.plain c := by
  unfold Spec.plain isSpace
  simp only [Spec.InScript] at h
  refine ⟨?_, by omega⟩
  simp only [Bool.or_eq_false_iff, Bool.and_eq_false_iff, decide_eq_false_iff_not, beq_eq_false_iff_ne, ne_eq]
  omega

theorem KItem_token (i : Spec.KItem) (h : i.ok) : IsToken i.text := by
  cases i with
  | gloss g => exact Or.inr ⟨g, rfl, h⟩
  | reading hy c rest =>
    left
    refine ⟨by cases hy <;> simp [Spec.KItem.text], ?_⟩
    intro x hx
    simp only [Spec.KItem.text, List.mem_append, List.mem_cons] at hx
    rcases hx with hx | rfl | hx
    · cases hy with
      | true => simp only [if_pos, List.mem_singleton] at hx; subst hx; decide
      | false => simp at hx
    · exact kana_plain h.1
    · exact h.2 x hx
  | code c v => exact Or.inl ⟨by simp [Spec.KItem.text], h.2.2.1⟩
  | marker b => left; cases b <;> decide

theorem segments_kline (kanji jis : Str) (items : List Spec.KItem) (ending : Str) (hk : Spec.field kanji)
    (hj : Spec.field jis) (hi : ∀ i ∈ items, i.ok) (he : ∀ c ∈ ending, isSpace c = true) :
    segments (strip (Spec.kline kanji jis items ending)) = kanji :: jis :: items.map Spec.KItem.text := by
  have htok : ∀ u ∈ kanji :: jis :: items.map Spec.KItem.text, IsToken u := by
    intro u hu
    simp only [List.mem_cons, List.mem_map] at hu
    rcases hu with rfl | rfl | ⟨i, hi', rfl⟩
    · exact Or.inl hk
    · exact Or.inl hj
    · exact KItem_token i (hi i hi')
  unfold Spec.kline
  rw [strip_append _ _ _ he, segments_join _ htok]
  · intro h
    have := join_head u!" " kanji (jis :: items.map Spec.KItem.text) hk.1
    rw [h] at this
    cases kanji with
    | nil => exact hk.1 rfl
    | cons => cases this
  · intro c hc
    rw [join_head _ _ _ hk.1] at hc
    exact (hk.2 c (List.mem_of_head? hc)).1
  · intro c hc
    obtain ⟨u, hu, e⟩ := join_getLast u!" " _ (fun u hu => (htok u hu).ne_nil) (by simp)
    rw [e] at hc
    exact token_last (htok u hu) c hc

/-! ### C38: the loop -/

theorem codeName_eq (c : Chr) : (Dict.get? kanjidicRemappings [c]).getD [c] = Spec.codeName c := by
  unfold kanjidicRemappings Spec.codeName
  simp only [Dict.get?_cons, Dict.get?_nil, List.cons.injEq, and_true, eq_comm (b := c)]
  by_cases hc : c < 0x41 ∨ 0x5a < c
  · repeat' rw [if_neg (by omega)]
    rfl
  · have : c ∈ List.range' 0x41 26 := by rw [List.mem_range'_1]; omega
    clear hc
    revert this; revert c
    decide +kernel

/-- What the loop keeps. -/
structure Info (i j : KInfo) (items : List Spec.KItem) : Prop where
  gloss : j.gloss = i.gloss ++ Spec.glosses items
  on : j.on = i.on ++ Spec.readings .katakana items
  kun : j.kun = i.kun ++ Spec.readings .hiragana items
  codes : ∀ n, (Dict.get? j.codes n).getD [] = (Dict.get? i.codes n).getD [] ++ Spec.codes n items
  wf : Dict.WF i.codes → Dict.WF j.codes
  ne : (∀ n, Dict.get? i.codes n ≠ some []) → ∀ n, Dict.get? j.codes n ≠ some []

theorem Info.trans {i j k : KInfo} {a b : List Spec.KItem} (h1 : Info i j a) (h2 : Info j k b) : Info i k (a ++ b) := by
  constructor
  · rw [h2.gloss, h1.gloss]; simp [Spec.glosses]
  · rw [h2.on, h1.on]; simp [Spec.readings]
  · rw [h2.kun, h1.kun]; simp [Spec.readings]
  · intro n; rw [h2.codes, h1.codes]; simp [Spec.codes]
  · exact fun h => h2.wf (h1.wf h)
  · exact fun h => h2.ne (h1.ne h)

theorem Info.refl (i : KInfo) : Info i i [] := by
  constructor <;> simp [Spec.glosses, Spec.readings, Spec.codes]

theorem segmentStep_item (i : KInfo) (it : Spec.KItem) (h : it.ok) :
    ∃ j, segmentStep i it.text = .ok j ∧ Info i j [it] := by
  cases it with
  | gloss g =>
    refine ⟨{ i with gloss := i.gloss ++ [g] }, ?_, ?_⟩
    · unfold segmentStep
      rw [if_pos (by simp [Spec.KItem.text, startsWith])]
      simp [Spec.KItem.text]
    · constructor <;> simp [Spec.glosses, Spec.readings, Spec.codes]
  | reading hy c rest =>
    have hkana := h.1
    have hns : startsWith (Spec.KItem.reading hy c rest).text u!"{" = false := by
      cases hy
      · simp only [Spec.KItem.text, startsWith, List.isPrefixOf, Bool.and_true, Bool.false_eq_true, if_false,
          List.nil_append, beq_eq_false_iff_ne, ne_eq]
        exact fun e => (kana_plain hkana).2 e.symm
      · simp [Spec.KItem.text, startsWith, List.isPrefixOf]
    have hrd : scriptType (Spec.KItem.reading hy c rest).text ≠ .ascii ∨
        startsWith (Spec.KItem.reading hy c rest).text u!"-" = true := by
      cases hy
      · left
        simp only [Spec.KItem.text, Bool.false_eq_true, if_false, List.nil_append]
        rw [ne_eq, scriptType_iff]
        simp only [Spec.InScript] at hkana ⊢; omega
      · right; simp [Spec.KItem.text, startsWith, List.isPrefixOf]
    have hc2d : c ≠ 0x2d := by simp only [Spec.InScript] at hkana; omega
    unfold segmentStep
    rw [hns, if_neg (by simp), if_pos hrd]
    have hchar : (do
        let c0 ← getItem (Spec.KItem.reading hy c rest).text 0
        if c0 = 0x2d then getItem (Spec.KItem.reading hy c rest).text 1 else .ok c0 : Except PyErr Chr) = .ok c := by
      cases hy <;> simp [Spec.KItem.text, getItem, hc2d]
    rcases hkana with hk | hk
    · refine ⟨{ i with on := i.on ++ [(Spec.KItem.reading hy c rest).text] }, ?_, ?_⟩
      · cases hy <;> simp [Spec.KItem.text, getItem, hc2d, (scriptType_iff c [] .katakana).2 hk]
      · have hnh : ¬ Spec.InScript .hiragana c := fun h' => by cases InScript_unique hk h'
        constructor <;> simp [Spec.glosses, Spec.readings, Spec.codes, Spec.KItem.text, hk, hnh]
    · refine ⟨{ i with kun := i.kun ++ [(Spec.KItem.reading hy c rest).text] }, ?_, ?_⟩
      · cases hy <;> simp [Spec.KItem.text, getItem, hc2d, (scriptType_iff c [] .hiragana).2 hk]
      · have hnh : ¬ Spec.InScript .katakana c := fun h' => by cases InScript_unique hk h'
        constructor <;> simp [Spec.glosses, Spec.readings, Spec.codes, Spec.KItem.text, hk, hnh]
  | code c v =>
    obtain ⟨h1, h2, h3, h4, h5⟩ := h
    have hb : c ≠ c!"{" := (h3 c (by simp)).2
    refine ⟨{ i with codes := Dict.set i.codes (Spec.codeName c) ((Dict.get? i.codes (Spec.codeName c)).getD [] ++ [Spec.codeValue v]) }, ?_, ?_⟩
    · unfold segmentStep
      rw [if_neg (by simp [Spec.KItem.text, startsWith, List.isPrefixOf]; exact fun e => hb e.symm)]
      rw [if_neg (by
        simp only [Spec.KItem.text, ne_eq, scriptType_iff, h1, not_true, false_or, startsWith, List.isPrefixOf, Bool.and_true, beq_iff_eq]
        exact fun e => h2 e.symm)]
      rw [if_neg (by rintro (e | e); exacts [h4 e, h5 e])]
      simp only [Spec.KItem.text, getItem, List.getElem?_cons_zero, bind_ok, codeName_eq, List.tail_cons]
      rfl
    · constructor
      · simp [Spec.glosses]
      · simp [Spec.readings]
      · simp [Spec.readings]
      · intro n
        simp only [Dict.get?_set, Spec.codes]
        by_cases e : Spec.codeName c = n
        · subst e; simp
        · simp [e]
      · exact fun hw => Dict.WF_set hw _ _
      · intro hne n
        simp only [Dict.get?_set]
        split
        · simp
        · exact hne n
  | marker b =>
    refine ⟨i, ?_, ?_⟩
    · cases b <;> rfl
    · constructor <;> simp [Spec.glosses, Spec.readings, Spec.codes]

theorem segmentLoop_items (i : KInfo) (items : List Spec.KItem) (h : ∀ it ∈ items, it.ok) :
    ∃ j, segmentLoop i (items.map Spec.KItem.text) = .ok j ∧ Info i j items := by
  induction items generalizing i with
  | nil => exact ⟨i, rfl, Info.refl i⟩
  | cons it items ih =>
    obtain ⟨j, h1, h2⟩ := segmentStep_item i it (h it (by simp))
    obtain ⟨k, h3, h4⟩ := ih j (fun x hx => h x (by simp [hx]))
    refine ⟨k, ?_, h2.trans h4⟩
    simp only [List.map_cons, segmentLoop, h1, bind_ok, h3]

theorem firstCode_eq {j : KInfo} {items : List Spec.KItem} (h : Info ⟨[], [], [], []⟩ j items) (n : Str) :
    firstCode j n = match (Spec.codes n items).head? with
      | some v => .ok v
      | none => .error .keyError := by
  have h1 := h.codes n
  have h2 := h.ne (by simp) n
  simp only [Dict.get?_nil, Option.getD_none, List.nil_append] at h1
  unfold firstCode Dict.getItem
  cases hg : Dict.get? j.codes n with
  | none => rw [hg] at h1; rw [← h1]; rfl
  | some l =>
    rw [hg] at h1 h2
    simp only [Option.getD_some] at h1
    rw [← h1]
    cases l with
    | nil => exact absurd rfl h2
    | cons v l => rfl

theorem frequencyOf_eq {j : KInfo} {items : List Spec.KItem} (h : Info ⟨[], [], [], []⟩ j items) :
    frequencyOf j = .ok (Spec.codes u!"frequency" items).head? := by
  have hf := firstCode_eq h u!"frequency"
  have h3 := h.codes u!"frequency"
  have h4 := h.ne (by simp) u!"frequency"
  simp only [Dict.get?_nil, Option.getD_none, List.nil_append] at h3
  unfold frequencyOf Dict.contains
  cases hg : Dict.get? j.codes u!"frequency" with
  | none => rw [hg] at h3; rw [← h3]; rfl
  | some l =>
    rw [hg] at h3 h4
    simp only [Option.getD_some] at h3
    rw [hf, ← h3]
    cases l with
    | nil => exact absurd rfl h4
    | cons v l => rfl

/-- C38: a line written from its fields parses to an entry with exactly these fields. -/
theorem C38_line (kanji jis ending : Str) (items : List Spec.KItem) (jisCode : Int) (strokes : CodeVal) (skip : Str)
    (skipCode : List Int) (hk : Spec.field kanji) (hj : Spec.field jis) (hjis : pyInt 16 jis = .ok jisCode)
    (hi : ∀ i ∈ items, i.ok) (he : ∀ c ∈ ending, isSpace c = true)
    (hs : (Spec.codes u!"stroke_count" items).head? = some strokes)
    (hp : (Spec.codes u!"skip_code" items).head? = some (.text skip))
    (hp' : (splitChr c!"-" skip).map (pyInt 10) = skipCode.map .ok) :
    ∃ e, kanjidicLine (Spec.kline kanji jis items ending) = .ok e ∧ e.kanji = kanji ∧ e.jisCode = jisCode ∧
      e.gloss = Spec.glosses items ∧ e.onReadings = Spec.readings .katakana items ∧
      e.kunReadings = Spec.readings .hiragana items ∧ e.strokeCount = strokes ∧ e.skipCode = skipCode ∧
      e.frequency = (Spec.codes u!"frequency" items).head? ∧
      ∀ n, n ≠ u!"stroke_count" → n ≠ u!"frequency" → n ≠ u!"skip_code" →
        Dict.get? e.codes n = if Spec.codes n items = [] then none else some (Spec.codes n items) := by
  obtain ⟨j, h1, h2⟩ := segmentLoop_items ⟨[], [], [], []⟩ items hi
  have hseg := segments_kline kanji jis items ending hk hj hi he
  have hskip : mapE (pyInt 10) (splitChr 0x2d skip) = .ok skipCode := by
    have hl := congrArg List.length hp'
    simp only [List.length_map] at hl
    rw [mapE_ok_iff]
    refine ⟨hl.symm, fun i hi => ?_⟩
    have := congrArg (·[i]?) hp'
    simp only [List.getElem?_map, List.getElem?_eq_getElem hi, List.getElem?_eq_getElem (hl ▸ hi), Option.map_some,
      Option.some.injEq] at this
    exact ⟨_, List.getElem?_eq_getElem (hl ▸ hi), this⟩
  have hfreq := frequencyOf_eq h2
  refine ⟨⟨kanji, jisCode, j.gloss, j.on, j.kun, strokes, (Spec.codes u!"frequency" items).head?, skipCode,
    Dict.del (Dict.del (Dict.del j.codes u!"stroke_count") u!"frequency") u!"skip_code"⟩, ?_, ?_⟩
  · unfold kanjidicLine
    rw [hseg]
    simp only [hjis, h1, bind_ok, firstCode_eq h2, hs, hp, hskip, hfreq]
  · refine ⟨rfl, rfl, ?_, ?_, ?_, rfl, rfl, rfl, ?_⟩
    · simpa using h2.gloss
    · simpa using h2.on
    · simpa using h2.kun
    · intro n n1 n2 n3
      have hw := h2.wf Dict.WF_nil
      simp only
      rw [Dict.get?_del (Dict.WF_del (Dict.WF_del hw _) _), Dict.get?_del (Dict.WF_del hw _), Dict.get?_del hw,
        if_neg (by simpa [eq_comm] using n3), if_neg (by simpa [eq_comm] using n2), if_neg (by simpa [eq_comm] using n1)]
      have h3 := h2.codes n
      have h4 := h2.ne (by simp) n
      simp only [Dict.get?_nil, Option.getD_none, List.nil_append] at h3
      cases hg : Dict.get? j.codes n with
      | none => rw [hg] at h3; simp [← h3]
      | some l =>
        rw [hg] at h3 h4
        simp only [Option.getD_some] at h3
        rw [← h3, if_neg (by rintro rfl; exact h4 rfl)]

/-- C38: a line without a stroke count or without a skip code is rejected with `KeyError`; one whose first skip
code is a plain number with `AttributeError`. -/
theorem C38_missing (kanji jis ending : Str) (items : List Spec.KItem) (jisCode : Int)
    (hk : Spec.field kanji) (hj : Spec.field jis) (hjis : pyInt 16 jis = .ok jisCode)
    (hi : ∀ i ∈ items, i.ok) (he : ∀ c ∈ ending, isSpace c = true) :
    ((Spec.codes u!"stroke_count" items = [] ∨ Spec.codes u!"skip_code" items = []) →
      kanjidicLine (Spec.kline kanji jis items ending) = .error .keyError) ∧
    (Spec.codes u!"stroke_count" items ≠ [] → (∃ k, (Spec.codes u!"skip_code" items).head? = some (.num k)) →
      kanjidicLine (Spec.kline kanji jis items ending) = .error .attributeError) := by
  obtain ⟨j, h1, h2⟩ := segmentLoop_items ⟨[], [], [], []⟩ items hi
  have hseg := segments_kline kanji jis items ending hk hj hi he
  unfold kanjidicLine
  rw [hseg]
  simp only [hjis, h1, bind_ok, firstCode_eq h2, frequencyOf_eq h2]
  constructor
  · rintro (h | h)
    · rw [h]; rfl
    · rw [h]
      cases (Spec.codes u!"stroke_count" items).head? <;> rfl
  · rintro h ⟨k, hk⟩
    rw [hk]
    cases hh : Spec.codes u!"stroke_count" items with
    | nil => exact absurd hh h
    | cons v l => rfl

/-! ### C77 -/

/-- The lines that are not comments. -/
def Spec.kanjidicLines (files : List (List Str)) : List Str :=
  files.flatten.filter (fun l => l.head? ≠ some c!"#")

theorem startsWith_singleton (s : Str) (c : Chr) : startsWith s [c] = true ↔ s.head? = some c := by
  cases s with
  | nil => simp [startsWith]
  | cons x s =>
    simp only [startsWith, List.isPrefixOf, Bool.and_true, beq_iff_eq, List.head?_cons, Option.some.injEq]
    exact eq_comm

theorem kanjidicLoop_eq (d : Dict Str KEntry) (ls : List Str) :
    kanjidicLoop d ls = (do
      let es ← mapE kanjidicLine (ls.filter (fun l => l.head? ≠ some c!"#"))
      .ok (Dict.update d (es.map (fun e => (e.kanji, e))))) := by
  induction ls generalizing d with
  | nil => rfl
  | cons l ls ih =>
    unfold kanjidicLoop
    simp only [startsWith_singleton]
    by_cases h : l.head? = some c!"#"
    · rw [if_pos h, ih, List.filter_cons_of_neg (by simp [h])]
    · rw [if_neg h, List.filter_cons_of_pos (by simp [h])]
      simp only [mapE]
      cases hl : kanjidicLine l with
      | error e => rfl
      | ok e =>
        simp only [bind_ok, ih]
        cases mapE kanjidicLine (ls.filter (fun l => l.head? ≠ some c!"#")) with
        | error e => rfl
        | ok es => rfl

/-- C77: each kanji has the entry of its last line, over all files in order. -/
theorem C77_last_wins (files : List (List Str)) (d : Dict Str KEntry) (h : kanjidic files = .ok d) :
    ∃ entries : List KEntry, (Spec.kanjidicLines files).map kanjidicLine = entries.map .ok ∧
      ∀ k, Dict.get? d k = (entries.filter (fun e => e.kanji = k)).getLast? := by
  unfold kanjidic at h
  split at h
  · cases h
  rw [kanjidicLoop_eq] at h
  change (mapE kanjidicLine (Spec.kanjidicLines files) >>= _) = _ at h
  cases hm : mapE kanjidicLine (Spec.kanjidicLines files) with
  | error e => rw [hm] at h; cases h
  | ok es =>
    rw [hm] at h
    simp only [bind_ok, Except.ok.injEq] at h
    subst h
    refine ⟨es, ?_, ?_⟩
    · obtain ⟨h1, h2⟩ := mapE_ok_iff.1 hm
      apply List.ext_getElem (by simp [h1])
      intro i hi1 hi2
      obtain ⟨b, hb, hb2⟩ := h2 i (by simpa using hi1)
      simp only [List.getElem_map]
      rw [hb2]
      have : i < es.length := by simpa using hi2
      rw [List.getElem?_eq_getElem this] at hb
      cases hb; rfl
    · intro k
      rw [Dict.get?_update_last, Dict.get?_nil, Option.or_none, List.filter_map, List.getLast?_map, Option.map_map]
      exact Option.map_id'

/-- C77: construction fails exactly without files or at the first line that does not parse. -/
theorem C77_raises (files : List (List Str)) (er : PyErr) :
    kanjidic files = .error er ↔ (files = [] ∧ er = .typeError) ∨
      ∃ pre l post, Spec.kanjidicLines files = pre ++ l :: post ∧ kanjidicLine l = .error er ∧
        ∀ x ∈ pre, ∃ e, kanjidicLine x = .ok e := by
  unfold kanjidic
  by_cases hf : files = []
  · subst hf
    rw [if_pos rfl]
    constructor
    · intro h; cases h; exact Or.inl ⟨rfl, rfl⟩
    · rintro (⟨_, rfl⟩ | ⟨pre, l, post, h, _⟩)
      · rfl
      · simp [Spec.kanjidicLines] at h
  · rw [if_neg hf, kanjidicLoop_eq]
    change (mapE kanjidicLine (Spec.kanjidicLines files) >>= _) = _ ↔ _
    rw [← mapE_error_iff]
    cases mapE kanjidicLine (Spec.kanjidicLines files) <;> simp [hf, bind, Except.bind]

section Examples

/-- A line of kanjidic. -/
def kanjidicExample : List Spec.KItem :=
  [.code c!"U" u!"4e9c", .code c!"S" u!"7", .code c!"S" u!"8", .code c!"F" u!"1509", .code c!"P" u!"4-7-1", .code c!"Y" u!"ya4",
   .reading false c!"ア" [], .reading false c!"つ" u!".ぐ", .marker true, .reading true c!"や" [], .gloss u!"Asia", .gloss u!"rank next"]

/-- The hypotheses of `C38_line` are met, and the fields are as expected. -/
example : Spec.field u!"亜" ∧ Spec.field u!"3021" ∧ pyInt 16 u!"3021" = .ok 12321 ∧ (∀ i ∈ kanjidicExample, i.ok) ∧
    (Spec.codes u!"stroke_count" kanjidicExample).head? = some (.num 7) ∧
    (Spec.codes u!"skip_code" kanjidicExample).head? = some (.text u!"4-7-1") ∧
    (splitChr c!"-" u!"4-7-1").map (pyInt 10) = [4, 7, 1].map .ok ∧
    Spec.kline u!"亜" u!"3021" kanjidicExample u!" \n" =
      u!"亜 3021 U4e9c S7 S8 F1509 P4-7-1 Yya4 ア つ.ぐ T1 -や {Asia} {rank next} \n" := by decide +kernel

example : kanjidicLine u!"亜 3021 U4e9c S7 S8 F1509 P4-7-1 Yya4 ア つ.ぐ T1 -や {Asia} {rank next} \n" =
    .ok ⟨u!"亜", 12321, [u!"Asia", u!"rank next"], [u!"ア"], [u!"つ.ぐ", u!"-や"], .num 7, some (.num 1509), [4, 7, 1],
      [(u!"unicode", [.text u!"4e9c"]), (u!"pinyin_reading", [.text u!"ya4"])]⟩ := by decide +kernel

/-- `C38_missing`: no `S` code; a skip code without hyphens. -/
example : kanjidicLine u!"亜 3021 P4-7-1 {Asia}" = .error .keyError ∧
    kanjidicLine u!"亜 3021 S7 P4 {Asia}" = .error .attributeError := by decide +kernel

/-- `C77`: the second file overrides the first. -/
example : (kanjidic [[u!"# comment\n", u!"亜 3021 S7 P4-7-1 {Asia}\n"], [u!"亜 3021 S8 P4-7-1\n"]]).map
    (fun d => d.map (fun p => (p.1, p.2.strokeCount))) = .ok [(u!"亜", .num 8)] := by decide +kernel
example : kanjidic [[u!"# comment\n", u!"亜 3021 S7\n"], []] = .error .keyError := by decide +kernel

end Examples

end Cjk
