import Verif.Props.FileOrder
import Verif.Props.Kanjidic
import Verif.Props.Zhuyin
import Verif.Props.PinyinTones
import Verif.Props.Common
import Verif.Props.DictGrammar
/-!
# C165: comment lines and blank lines in the data files
-/

namespace Cjk
open Py

/-- A line with nothing but whitespace. -/
def Spec.Blank (l : Str) : Prop := ∀ c ∈ l, isSpace c = true

instance (l : Str) : Decidable (Spec.Blank l) := inferInstanceAs (Decidable (∀ c ∈ l, _))

theorem filterComments_zhuyin (lines : List Str) : zhuyinLines (filterComments lines) = zhuyinLines lines := by
  induction lines with
  | nil => rfl
  | cons l ls ih =>
    by_cases h : startsWith l u!"#" = true
    · simp only [filterComments, zhuyinLines, h, if_true, ih]; rfl
    · rw [filterComments, if_neg h]
      simp only [zhuyinLines, ih]

theorem filterComments_pinyin (lines : List Str) (t : Dict Str (List Str)) : pinyinTableLoop t (filterComments lines) = pinyinTableLoop t lines := by
  induction lines generalizing t with
  | nil => rfl
  | cons l ls ih =>
    by_cases h : startsWith l u!"#" = true
    · simp only [filterComments, pinyinTableLoop, h, if_true, ih]
    · rw [filterComments, if_neg h, pinyinTableLoop, pinyinTableLoop, if_neg h, if_neg h]
      split
      · rfl
      · exact ih _

/-- C165: comment lines make no difference to the kanjidic, the radkfile, the zhuyin tables and the hanzi table, wherever they are. -/
theorem C165_comments_partial (files : List (List Str)) (lines : List Str) :
    kanjidic (files.map filterComments) = kanjidic files ∧
    radkDict (filterComments lines) = radkDict lines ∧
    zhuyinToPinyinTable (filterComments lines) = zhuyinToPinyinTable lines ∧
    pinyinToZhuyinTable (filterComments lines) = pinyinToZhuyinTable lines ∧
    getAllPinyin (filterComments lines) = getAllPinyin lines ∧
    pinyinRegexPattern (filterComments lines) = pinyinRegexPattern lines ∧
    newPinyinTable (filterComments lines) = newPinyinTable lines := by
  refine ⟨?_, ?_, ?_, ?_, ?_, ?_, ?_⟩
  · unfold kanjidic
    by_cases h : files = []
    · subst h; rfl
    · rw [if_neg h, if_neg (by simpa using h), kanjidicLoop_eq, kanjidicLoop_eq]
      have e : (files.map filterComments).flatten.filter (fun l => decide (l.head? ≠ some c!"#")) =
          files.flatten.filter (fun l => decide (l.head? ≠ some c!"#")) := by
        clear h
        induction files with
        | nil => rfl
        | cons f fs ih =>
          rw [List.map_cons, List.flatten_cons, List.flatten_cons, List.filter_append, List.filter_append, ih, C72_filter, List.filter_filter]
          simp only [Bool.and_self]
      rw [e]
  · rw [C72_filter, ← C40_comments lines]
    congr 1
  · unfold zhuyinToPinyinTable; rw [filterComments_zhuyin]
  · unfold pinyinToZhuyinTable; rw [filterComments_zhuyin]
  · unfold getAllPinyin; rw [filterComments_zhuyin]
  · unfold pinyinRegexPattern getAllPinyin; rw [filterComments_zhuyin]
  · unfold newPinyinTable; rw [filterComments_pinyin]

theorem blank_head {l : Str} (h : Spec.Blank l) {c : Chr} (hc : isSpace c = false) : l.head? ≠ some c := by
  intro e
  have := h c (List.mem_of_mem_head? e)
  rw [hc] at this; cases this

theorem blank_strip {l : Str} (h : Spec.Blank l) : strip l = [] := by
  cases e : strip l with
  | nil => rfl
  | cons c t =>
    have hl : lstrip l = [] := by
      have := lstrip_append_space (t := []) h
      rwa [List.append_nil] at this
    have : strip l = rstrip (lstrip l) := rfl
    rw [hl] at this
    rw [this] at e
    cases e

theorem blank_splitWs {l : Str} (h : Spec.Blank l) : splitWs l = [] := by
  unfold splitWs
  rw [splitWsAux_spaces [] h]
  rfl

theorem radicalAfter_noBlank (b : List Str) : Spec.radicalAfter (b.filter (fun l => ¬ Spec.Blank l)) = Spec.radicalAfter b := by
  unfold Spec.radicalAfter
  rw [List.filter_filter]
  have e : b.filter (fun l => decide (Spec.radkHeader l) && decide (¬ Spec.Blank l)) = b.filter (fun l => decide (Spec.radkHeader l)) := by
    apply List.filter_congr
    intro l _
    by_cases hh : Spec.radkHeader l
    · have : ¬ Spec.Blank l := fun hb => blank_head hb (by decide) hh
      simp [this]
    · simp [hh]
  rw [e]

theorem radkBody_noBlank (b ls : List Str) :
    (Spec.radkBody (b.filter (fun l => ¬ Spec.Blank l)) (ls.filter (fun l => ¬ Spec.Blank l))).filter (fun p => p.2 ≠ []) =
      (Spec.radkBody b ls).filter (fun p => p.2 ≠ []) := by
  induction ls generalizing b with
  | nil => rfl
  | cons l ls ih =>
    have ih' := ih (b ++ [l])
    rw [List.filter_append] at ih'
    by_cases hb : Spec.Blank l
    · have hn : ¬ (Spec.radkComment l ∨ Spec.radkHeader l) := by
        rintro (h | h)
        · exact blank_head hb (by decide) h
        · exact blank_head hb (by decide) h
      rw [List.filter_cons_of_neg (by simpa using hb)] at ih' ⊢
      rw [List.filter_nil, List.append_nil] at ih'
      rw [ih']
      simp only [Spec.radkBody]
      rw [if_neg hn, blank_strip hb, List.filter_cons_of_neg (by simp)]
    · rw [List.filter_cons_of_pos (by simpa using hb)] at ih' ⊢
      rw [List.filter_nil] at ih'
      simp only [Spec.radkBody]
      by_cases hn : Spec.radkComment l ∨ Spec.radkHeader l
      · rw [if_pos hn, if_pos hn]; exact ih'
      · rw [if_neg hn, if_neg hn, List.filter_cons, List.filter_cons, ih', radicalAfter_noBlank]

/-- C165: in a radkfile blank lines make no difference to whether it loads, to the radicals of a kanji (each as often as before), to the stroke counts and to the kanji of a radical; only the
position of a radical can change, and a radical with no other line is then listed with no kanji. -/
theorem C165_blank_radk (ls : List Str) :
    (∀ e, radkDict (ls.filter (fun l => ¬ Spec.Blank l)) = .error e ↔ radkDict ls = .error e) ∧
    ∀ d d', radkDict ls = .ok d → radkDict (ls.filter (fun l => ¬ Spec.Blank l)) = .ok d' →
      (∀ k, ((Dict.get? d'.dict k).getD []).Perm ((Dict.get? d.dict k).getD []) ∧ ((Dict.get? d'.dict k).isSome ↔ (Dict.get? d.dict k).isSome)) ∧
      (∀ r, Dict.get? d'.radicalToStrokeCount r = Dict.get? d.radicalToStrokeCount r) ∧
      (∀ r, (Dict.get? d'.radicalToKanji r).getD [] = (Dict.get? d.radicalToKanji r).getD []) := by
  have hbad : ∀ l e, Spec.radkBad l e → ¬ Spec.Blank l := fun l e h hb => blank_head hb (by decide) h.1
  have hcount : ∀ r k, Spec.radkCount (ls.filter (fun l => ¬ Spec.Blank l)) r k = Spec.radkCount ls r k := by
    intro r k
    have key : ∀ L : List (Option Str × Str), ((L.filter (fun p => p.1 = r)).map (fun p => p.2.count k)).sum =
        (((L.filter (fun p => p.2 ≠ [])).filter (fun p => p.1 = r)).map (fun p => p.2.count k)).sum := by
      intro L
      induction L with
      | nil => rfl
      | cons p L ih =>
        by_cases h2 : p.2 = []
        · rw [List.filter_cons_of_neg (p := fun p : Option Str × Str => decide (p.2 ≠ [])) (by simpa using h2), ← ih, List.filter_cons]
          split
          · simp [h2]
          · rfl
        · rw [List.filter_cons_of_pos (p := fun p : Option Str × Str => decide (p.2 ≠ [])) (by simpa using h2), List.filter_cons, List.filter_cons]
          split
          · rw [List.map_cons, List.map_cons, List.sum_cons, List.sum_cons, ih]
          · exact ih
    unfold Spec.radkCount
    rw [key, key (Spec.radkBody [] ls)]
    have := radkBody_noBlank [] ls
    rw [List.filter_nil] at this
    rw [this]
  have hvals : ∀ r, ((Spec.radkBody [] (ls.filter (fun l => ¬ Spec.Blank l))).filter (fun p => p.1 = r)).flatMap Prod.snd =
      ((Spec.radkBody [] ls).filter (fun p => p.1 = r)).flatMap Prod.snd := by
    intro r
    have key : ∀ L : List (Option Str × Str), (L.filter (fun p => p.1 = r)).flatMap Prod.snd =
        ((L.filter (fun p => p.2 ≠ [])).filter (fun p => p.1 = r)).flatMap Prod.snd := by
      intro L
      induction L with
      | nil => rfl
      | cons p L ih =>
        by_cases h2 : p.2 = []
        · rw [List.filter_cons_of_neg (p := fun p : Option Str × Str => decide (p.2 ≠ [])) (by simpa using h2), ← ih, List.filter_cons]
          split
          · simp [h2]
          · rfl
        · rw [List.filter_cons_of_pos (p := fun p : Option Str × Str => decide (p.2 ≠ [])) (by simpa using h2), List.filter_cons, List.filter_cons]
          split
          · rw [List.flatMap_cons, List.flatMap_cons, ih]
          · exact ih
    rw [key, key (Spec.radkBody [] ls)]
    have := radkBody_noBlank [] ls
    rw [List.filter_nil] at this
    rw [this]
  refine ⟨?_, ?_⟩
  · have hstep : ∀ (L : List Str) st e, radkLoop st (L.filter (fun l => ¬ Spec.Blank l)) = .error e ↔ radkLoop st L = .error e := by
      intro L
      induction L with
      | nil => intro st e; rfl
      | cons l L ih =>
        intro st e
        by_cases hb : Spec.Blank l
        · have hn : ¬ (Spec.radkComment l ∨ Spec.radkHeader l) := by
            rintro (h | h)
            · exact blank_head hb (by decide) h
            · exact blank_head hb (by decide) h
          rw [List.filter_cons_of_neg (by simpa using hb), ih]
          simp only [radkLoop]
          rw [radkStep_body st l hn, bind_ok, radkLoop_error, radkLoop_error]
        · rw [List.filter_cons_of_pos (by simpa using hb)]
          simp only [radkLoop]
          cases radkStep st l with
          | error x => exact Iff.rfl
          | ok st' => exact ih st' e
    intro e
    have he : ∀ L, radkDict L = .error e ↔ radkLoop ⟨none, [], []⟩ L = .error e := by
      intro L
      unfold radkDict
      cases radkLoop ⟨none, [], []⟩ L <;> simp [bind, Except.bind]
    rw [he, he, hstep]
  · intro d d' h h'
    refine ⟨fun k => ⟨?_, ?_⟩, fun r => ?_, fun r => ?_⟩
    · rw [List.perm_iff_count]
      intro r
      rw [C39_counts _ _ h', C39_counts _ _ h, hcount]
    · have key : ∀ L : List (Option Str × Str), (∃ p ∈ L, k ∈ p.2) ↔ ∃ p ∈ L.filter (fun p => p.2 ≠ []), k ∈ p.2 := by
        intro L
        constructor
        · rintro ⟨p, hp, hk⟩
          exact ⟨p, List.mem_filter.2 ⟨hp, by simpa using List.ne_nil_of_mem hk⟩, hk⟩
        · rintro ⟨p, hp, hk⟩
          exact ⟨p, (List.mem_filter.1 hp).1, hk⟩
      have some_iff : ∀ (L : List Str) (x : RadkDict), radkDict L = .ok x →
          ((Dict.get? x.dict k).isSome = true ↔ ∃ p ∈ (Spec.radkBody [] L).filter (fun p => p.2 ≠ []), k ∈ p.2) := by
        intro L x hx
        rw [C39_radicals L x hx k, ← key]
        split
        · rename_i hp; exact iff_of_true rfl hp
        · rename_i hp; exact iff_of_false (by simp) hp
      rw [some_iff _ _ h', some_iff _ _ h]
      have := radkBody_noBlank [] ls
      rw [List.filter_nil] at this
      rw [this]
    · rw [C39_strokes _ _ h', C39_strokes _ _ h]
      unfold Spec.radkStrokes
      rw [List.filter_filter]
      congr 3
      apply List.filter_congr
      intro l _
      by_cases hh : Spec.radkHeader l
      · have : ¬ Spec.Blank l := fun hb => blank_head hb (by decide) hh
        simp [this]
      · simp [hh]
    · obtain ⟨st, hi, _, _, h3⟩ := radkDict_ok h
      obtain ⟨st', hi', _, _, h3'⟩ := radkDict_ok h'
      rw [h3, h3', hi.vals, hi'.vals, hvals]

theorem blank_notin {l : Str} (h : Spec.Blank l) {c : Chr} (hc : isSpace c = false) : c ∉ l := by
  intro e
  have := h c e
  rw [hc] at this; cases this

theorem slashPieces_none {s : Str} (h : 0x2f ∉ s) : Spec.slashPieces s = [] := by
  unfold Spec.slashPieces
  have : (splitChr 0x2f s).drop 1 = [] := by
    rw [List.drop_eq_nil_iff, splitChr_length, List.count_eq_zero.2 h]
    exact Nat.le_refl _
  rw [this]; rfl

/-- A blank line is no dictionary entry in any format. -/
theorem blank_parse (f : RegexFormat) (hf : f ∈ knownFormats) (l : Str) (h : Spec.Blank l) : f.parseLine l = .error .formatError := by
  have hcut : ∀ {x : Chr} {s a b : Str}, Spec.Blank s → Spec.cut x s = some (a, b) → Spec.Blank a ∧ Spec.Blank b := by
    intro x s a b hs hc
    unfold Spec.cut at hc
    split at hc
    · cases hc
      exact ⟨fun c hc => hs c ((List.takeWhile_sublist _).subset hc), fun c hc => hs c ((List.dropWhile_sublist _).subset (List.mem_of_mem_drop hc))⟩
    · cases hc
  have hbr : ∀ {c s : Str}, Spec.Blank s → Spec.bracketed c s = (none, s) := by
    intro c s hs
    unfold Spec.bracketed
    split
    · exact absurd (hs 0x5b (by simp)) (by decide)
    · rfl
  have hle : ∀ w r, Spec.lineEntry w r [] = .error .formatError := fun w r => rfl
  simp only [knownFormats, List.mem_cons, List.not_mem_nil, or_false] at hf
  rcases hf with rfl | rfl | rfl | rfl
  · rw [C92_edict]
    unfold Spec.readEdict
    cases hc : Spec.cut 0x20 l with
    | none => rfl
    | some p =>
      obtain ⟨w, t⟩ := p
      have ht := (hcut h hc).2
      simp only [hbr ht]
      split
      · rfl
      · cases hm : Spec.chomp t with
        | none => rfl
        | some s =>
          have : Spec.slashPieces s = [] := by
            apply slashPieces_none
            unfold Spec.chomp at hm
            split at hm
            · cases hm
            · cases hm
              exact fun hh => blank_notin ht (by decide) ((List.takeWhile_sublist _).subset hh)
          simp only [this, hle]
  · rw [C92_jc_kdic]
    unfold Spec.readJcKdic
    cases hc : Spec.cut 0x20 l with
    | none => rfl
    | some p =>
      obtain ⟨w, t⟩ := p
      simp only [hbr (hcut h hc).2]
  · rw [C92_cj_kdic]
    unfold Spec.readCjKdic
    cases hc : Spec.cut 0x09 l with
    | none => rfl
    | some p =>
      obtain ⟨w, t⟩ := p
      have : Spec.cut 0x5c t = none := by
        unfold Spec.cut
        rw [if_neg (blank_notin (hcut h hc).2 (by decide))]
      simp only [this]
  · rw [C92_cedict]
    unfold Spec.readCedict
    cases hc : Spec.cut 0x20 l with
    | none => rfl
    | some p =>
      obtain ⟨w, t⟩ := p
      simp only
      cases hd : Spec.cut 0x20 t with
      | none => rfl
      | some q =>
        obtain ⟨v, u⟩ := q
        have hu := (hcut (hcut h hc).2 hd).2
        simp only [hbr hu]
        split
        · rfl
        · rw [slashPieces_none (fun hh => blank_notin hu (by decide) ((List.takeWhile_sublist _).subset hh))]
          rfl

/-- C165: every other file with a blank line is refused: the kanjidic and the hanzi table with IndexError (the kanjidic if the lines before it are well formed), the zhuyin table with ValueError
and a dictionary file with FormatError. -/
theorem C165_blank_refused (l : Str) (hb : Spec.Blank l) (pre post : List Str) :
    (∀ d, kanjidic [pre] = .ok d → kanjidic [pre ++ l :: post] = .error .indexError) ∧
    newPinyinTable (pre ++ l :: post) = .error .indexError ∧
    zhuyinToPinyinTable (pre ++ l :: post) = .error .valueError ∧ pinyinToZhuyinTable (pre ++ l :: post) = .error .valueError ∧
    (∀ h f, f ∈ knownFormats → Spec.isHeader f.name h → loadDictionary (h :: pre ++ l :: post) = .error .formatError) := by
  have hnc : l.head? ≠ some 0x23 := blank_head hb (by decide)
  have hrow : [] ∈ Spec.tableRows (pre ++ l :: post) := by
    unfold Spec.tableRows
    rw [List.mem_map]
    exact ⟨l, List.mem_filter.2 ⟨by simp, by simpa using hnc⟩, blank_splitWs hb⟩
  have hrows : ¬ Spec.RowsOk (pre ++ l :: post) := by
    intro h
    have := h [] hrow
    cases this
  refine ⟨?_, ?_, ?_, ?_, ?_⟩
  · intro d hd
    have hl : kanjidicLine l = .error .indexError := by
      unfold kanjidicLine
      rw [blank_strip hb]
      rfl
    rw [C77_raises]
    refine Or.inr ⟨Spec.kanjidicLines [pre], l, Spec.kanjidicLines [post], ?_, hl, ?_⟩
    · unfold Spec.kanjidicLines
      simp only [List.flatten_cons, List.flatten_nil, List.append_nil, List.filter_append]
      rw [List.filter_cons_of_pos (by simpa using hnc)]
    · intro x hx
      obtain ⟨es, h1, _⟩ := C77_last_wins [pre] d hd
      have : kanjidicLine x ∈ (Spec.kanjidicLines [pre]).map kanjidicLine := List.mem_map_of_mem hx
      rw [h1, List.mem_map] at this
      obtain ⟨e, _, he⟩ := this
      exact ⟨e, he.symm⟩
  · exact (C79_table _).2 ⟨[], hrow, rfl⟩
  · haveI : Decidable (Spec.RowsOk (pre ++ l :: post)) := inferInstanceAs (Decidable (∀ r ∈ _, _))
    rw [zhuyinToPinyin_eq, if_neg hrows]
  · haveI : Decidable (Spec.RowsOk (pre ++ l :: post)) := inferInstanceAs (Decidable (∀ r ∈ _, _))
    rw [pinyinToZhuyin_eq, if_neg hrows]
  · intro h f hf hh
    refine (C34_errors _).2.2.1.2 ⟨h, pre ++ l :: post, f, rfl, hf, hh, l, by simp, ?_⟩
    rintro ⟨e, he⟩
    rw [blank_parse f hf l hb] at he
    cases he

/-- C165: a dictionary file does not skip comments: an EDICT, jc_kdic or cj_kdic file with a line that begins with '#' is refused or has an entry for a word that begins with '#'. -/
theorem C165_dictionary_refuted (h : Str) (ls : List Str) (f : RegexFormat) (hf : f ∈ knownFormats) (hc : f.name ≠ u!"cedict") (hh : Spec.isHeader f.name h) (l : Str) (hl : l ∈ ls)
    (hx : l.head? = some c!"#") :
    loadDictionary (h :: ls) = .error .formatError ∨ ∃ d w, loadDictionary (h :: ls) = .ok d ∧ w ∈ Dict.keys d ∧ w.head? = some c!"#" := by
  by_cases hp : ∃ l ∈ ls, ¬ ∃ e, f.parseLine l = .ok e
  · exact Or.inl ((C34_errors _).2.2.1.2 ⟨h, ls, f, rfl, hf, hh, hp⟩)
  · right
    have hm : ∃ es, mapE f.parseLine ls = .ok es := by
      cases hm : mapE f.parseLine ls with
      | ok es => exact ⟨es, rfl⟩
      | error e =>
        obtain ⟨pre, a, post, h1, h2, _⟩ := mapE_error_iff.1 hm
        refine absurd ⟨a, by rw [h1]; simp, ?_⟩ hp
        rintro ⟨x, hx⟩
        rw [h2] at hx; cases hx
    obtain ⟨es, hes⟩ := hm
    obtain ⟨_, d, h1, h2, _⟩ := C34_agrees_with_iter h ls f hf hh es hes
    have he : ∃ e ∈ es, f.parseLine l = .ok e := by
      obtain ⟨i, hi, rfl⟩ := List.getElem_of_mem hl
      obtain ⟨e, h3, h4⟩ := (mapE_ok_iff.1 hes).2 i hi
      exact ⟨e, List.mem_of_getElem? h3, h4⟩
    obtain ⟨e, he1, he2⟩ := he
    refine ⟨d, e.word, h1, ?_, ?_⟩
    · rw [h2, mem_dedup]; exact List.mem_map_of_mem he1
    · cases l with
      | nil => cases hx
      | cons c t =>
        cases hx
        have hcut : ∀ {x : Chr} {a b : Str}, x ≠ 0x23 → Spec.cut x (0x23 :: t) = some (a, b) → (Spec.unspaced a).head? = some 0x23 := by
          intro x a b hn hcc
          unfold Spec.cut at hcc
          split at hcc
          · cases hcc
            rw [List.takeWhile_cons_of_pos (by simpa using hn.symm)]
            rfl
          · cases hcc
        have hw : ∀ {w : Str} {r : Option Str} {ss : List Str}, Spec.lineEntry w r ss = .ok e → e.word = Spec.unspaced w := by
          intro w r ss h
          unfold Spec.lineEntry at h
          split at h
          · cases h
          · cases h; rfl
        simp only [knownFormats, List.mem_cons, List.not_mem_nil, or_false] at hf
        rcases hf with rfl | rfl | rfl | rfl
        · rw [C92_edict] at he2
          unfold Spec.readEdict at he2
          cases hk : Spec.cut 0x20 (0x23 :: t) with
          | none => rw [hk] at he2; cases he2
          | some p =>
            obtain ⟨a, b⟩ := p
            rw [hk] at he2
            simp only at he2
            split at he2
            · cases he2
            · split at he2
              · cases he2
              · rw [hw he2]; exact hcut (by decide) hk
        · rw [C92_jc_kdic] at he2
          unfold Spec.readJcKdic at he2
          cases hk : Spec.cut 0x20 (0x23 :: t) with
          | none => rw [hk] at he2; cases he2
          | some p =>
            obtain ⟨a, b⟩ := p
            rw [hk] at he2
            simp only at he2
            split at he2
            · cases he2
            · split at he2
              · cases he2
              · split at he2
                · cases he2
                · rw [hw he2]; exact hcut (by decide) hk
        · rw [C92_cj_kdic] at he2
          unfold Spec.readCjKdic at he2
          cases hk : Spec.cut 0x09 (0x23 :: t) with
          | none => rw [hk] at he2; cases he2
          | some p =>
            obtain ⟨a, b⟩ := p
            rw [hk] at he2
            simp only at he2
            split at he2
            · cases he2
            · split at he2
              · cases he2
              · split at he2
                · cases he2
                · rw [hw he2]; exact hcut (by decide) hk
        · exact absurd rfl hc

theorem cut_some {x : Chr} {s a b : Str} (h : Spec.cut x s = some (a, b)) : s = a ++ x :: b ∧ x ∉ a := by
  unfold Spec.cut at h
  split at h
  · rename_i hx
    cases h
    have hd : s.dropWhile (· != x) = x :: (s.dropWhile (· != x)).drop 1 := by
      induction s with
      | nil => cases hx
      | cons c s ih =>
        by_cases hc : c = x
        · subst hc; simp
        · rw [List.dropWhile_cons_of_pos (by simpa using hc)]
          exact ih (by simpa [Ne.symm hc] using hx)
    refine ⟨?_, ?_⟩
    · rw [← hd, List.takeWhile_append_dropWhile]
    · intro hm
      have := List.all_eq_true.1 (List.all_takeWhile (p := (· != x)) (l := s)) x hm
      simp at this
  · cases h

/-- C165: nor does CEDICT: a file with such a line is refused or has an entry for the second word of the line. -/
theorem C165_cedict_refuted (h : Str) (ls : List Str) (hh : Spec.isHeader u!"cedict" h) (l : Str) (hl : l ∈ ls) :
    loadDictionary (h :: ls) = .error .formatError ∨
      ∃ d a w b, loadDictionary (h :: ls) = .ok d ∧ l = a ++ 0x20 :: w ++ 0x20 :: b ∧ 0x20 ∉ a ∧ 0x20 ∉ w ∧ w ∈ Dict.keys d := by
  have hf : cedict ∈ knownFormats := by simp [knownFormats]
  by_cases hp : ∃ l ∈ ls, ¬ ∃ e, cedict.parseLine l = .ok e
  · exact Or.inl ((C34_errors _).2.2.1.2 ⟨h, ls, cedict, rfl, hf, hh, hp⟩)
  · right
    have hm : ∃ es, mapE cedict.parseLine ls = .ok es := by
      cases hm : mapE cedict.parseLine ls with
      | ok es => exact ⟨es, rfl⟩
      | error e =>
        obtain ⟨pre, a, post, h1, h2, _⟩ := mapE_error_iff.1 hm
        refine absurd ⟨a, by rw [h1]; simp, ?_⟩ hp
        rintro ⟨x, hx⟩
        rw [h2] at hx; cases hx
    obtain ⟨es, hes⟩ := hm
    obtain ⟨_, d, h1, h2, _⟩ := C34_agrees_with_iter h ls cedict hf hh es hes
    have he : ∃ e ∈ es, cedict.parseLine l = .ok e := by
      obtain ⟨i, hi, rfl⟩ := List.getElem_of_mem hl
      obtain ⟨e, h3, h4⟩ := (mapE_ok_iff.1 hes).2 i hi
      exact ⟨e, List.mem_of_getElem? h3, h4⟩
    obtain ⟨e, he1, he2⟩ := he
    have hk : e.word ∈ Dict.keys d := by rw [h2, mem_dedup]; exact List.mem_map_of_mem he1
    rw [C92_cedict] at he2
    unfold Spec.readCedict at he2
    split at he2
    · cases he2
    · rename_i a t hc
      split at he2
      · cases he2
      · rename_i w b hc'
        split at he2
        · cases he2
        · unfold Spec.lineEntry at he2
          split at he2
          · cases he2
          · cases he2
            obtain ⟨e1, e2⟩ := cut_some hc
            obtain ⟨e3, e4⟩ := cut_some hc'
            have hu : Spec.unspaced w = w := by
              unfold Spec.unspaced
              rw [List.filter_eq_self]
              intro c hcw
              simp only [bne_iff_ne, ne_eq]
              rintro rfl
              exact e4 hcw
            simp only [hu] at hk
            exact ⟨d, a, w, b, h1, by rw [e1, e3]; simp, e2, e4, hk⟩

/-- A comment without a slash makes an EDICT or CEDICT file unreadable; one with a slash becomes an entry. -/
example :
    loadDictionary [u!"　？？？ header\n", u!"# comment\n", u!"犬 [いぬ] /dog/\n"] = .error .formatError ∧
    loadDictionary [u!"# CEDICT\n", u!"# comment\n", u!"狗 狗 [gou3] /dog/\n"] = .error .formatError ∧
    (∃ d, loadDictionary [u!"# CEDICT\n", u!"# see /x/\n"] = .ok d ∧ Dict.keys d = [u!"see"]) ∧
    (∃ d, loadDictionary [u!"　？？？ header\n", u!"# see /x/\n"] = .ok d ∧ Dict.keys d = [u!"#"]) := by
  refine ⟨by decide +kernel, by decide +kernel, ⟨_, rfl, by decide +kernel⟩, ⟨_, rfl, by decide +kernel⟩⟩

/-- A blank line behind a header and between the lines of a radical. -/
example : Spec.Blank u!" \n" ∧ (radkDict [u!"$ 一 1\n", u!" \n", u!"亜唖\n", u!"\n", u!"悪\n"]).map RadkDict.radicalToKanji = .ok [(some u!"一", u!"亜唖悪")] ∧
    (radkDict [u!"$ 一 1\n", u!"\n"]).map RadkDict.radicalToKanji = .ok [(some u!"一", [])] := by decide +kernel

end Cjk
