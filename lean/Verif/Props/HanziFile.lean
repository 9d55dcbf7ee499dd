import Verif.Props.Sources
import Verif.Props.TextFiles
import Verif.Spec.TextFile
/-!
# The lines of the hanzi table (C94, C102)

The table of hanzi is opened with `codecs.open`, whose streams end a line where `str.splitlines` does, not only at the line endings
of text files.
-/

namespace Cjk
open Py

theorem isLineBreak_iff (c : Nat) : isLineBreak c = true ↔ Spec.WideBreak c := by
  unfold isLineBreak Spec.WideBreak
  simp only [Bool.or_eq_true, Bool.and_eq_true, decide_eq_true_eq, beq_iff_eq, List.mem_cons, List.not_mem_nil, or_false]
  omega

theorem isLineBreak_false {c : Nat} (h : ¬ Spec.WideBreak c) : isLineBreak c = false := by
  cases hc : isLineBreak c with
  | false => rfl
  | true => exact absurd ((isLineBreak_iff c).1 hc) h

theorem splitLinesAux_plain (acc s t : Str) (h : ∀ c ∈ s, ¬ Spec.WideBreak c) :
    splitLinesAux acc (s ++ t) = splitLinesAux (acc ++ s) t := by
  induction s generalizing acc with
  | nil => simp
  | cons c s ih =>
    have hc := isLineBreak_false (h c (by simp))
    have step : splitLinesAux acc (c :: (s ++ t)) = splitLinesAux (acc ++ [c]) (s ++ t) := by
      by_cases h0 : c = 0x0d
      · subst h0; exact absurd (by decide : Spec.WideBreak 0x0d) (h _ (by simp))
      · rw [splitLinesAux.eq_3 _ _ _ (by intro rest h1; exact absurd h1 h0), if_neg (by simp [hc])]
    rw [List.cons_append, step, ih _ (fun x hx => h x (by simp [hx]))]
    simp

theorem splitLinesAux_ending (acc e t : Str) (he : Spec.WideEnding e) (hm : e = u!"\r" → t.head? ≠ some c!"\n") :
    splitLinesAux acc (e ++ t) = (acc ++ e) :: splitLinesAux [] t := by
  cases he with
  | windows => rfl
  | one h =>
    rename_i c
    rw [List.singleton_append, splitLinesAux.eq_3, if_pos ((isLineBreak_iff c).2 h)]
    intro rest h1 h2
    exact hm (by rw [h1]) (by rw [h2]; rfl)

theorem wideEnding_space {e : Str} (h : Spec.WideEnding e) : ∀ c ∈ e, isSpace c = true := by
  cases h with
  | windows => decide
  | one h =>
    rename_i c
    intro x hx
    rw [List.mem_singleton] at hx
    subst hx
    have : ∀ y ∈ [0x0a, 0x0b, 0x0c, 0x0d, 0x1c, 0x1d, 0x1e, 0x85, 0x2028, 0x2029], isSpace y = true := by decide
    exact this x h

/-- The lines of a text with their endings. -/
theorem wideTextOf_lines {ls : List Str} {text : Str} (h : Spec.WideTextOf ls text) :
    ∃ ms : List (Str × Str), splitLines text = ms.map (fun m => m.1 ++ m.2) ∧ ls = ms.map Prod.fst ∧
      ∀ m ∈ ms, (∀ c ∈ m.2, isSpace c = true) := by
  induction h with
  | nil => exact ⟨[], rfl, rfl, by simp⟩
  | last ne h =>
    rename_i s
    refine ⟨[(s, [])], ?_, rfl, by simp⟩
    unfold splitLines
    have := splitLinesAux_plain [] s [] h
    rw [List.append_nil] at this
    rw [this]
    simp [splitLinesAux, ne]
  | @cons s e text ls h he hm _ ih =>
    obtain ⟨ms, h1, h2, h3⟩ := ih
    refine ⟨(s, e) :: ms, ?_, by rw [h2]; rfl, ?_⟩
    · unfold splitLines at *
      rw [List.append_assoc, splitLinesAux_plain [] s _ h, splitLinesAux_ending _ _ _ he hm, h1]
      rfl
    · intro m hm'
      rcases List.mem_cons.1 hm' with rfl | hm'
      · exact wideEnding_space he
      · exact h3 m hm'

theorem pinyinTableLoop_spaces (ms : List (Str × Str)) (h : ∀ m ∈ ms, ∀ c ∈ m.2, isSpace c = true) (d : Dict Str (List Str)) :
    pinyinTableLoop d (ms.map (fun m => m.1 ++ m.2)) = pinyinTableLoop d (ms.map Prod.fst) := by
  induction ms generalizing d with
  | nil => rfl
  | cons m ms ih =>
    have hs : splitWs (rstrip (m.1 ++ m.2)) = splitWs (rstrip m.1) := by
      rw [splitWs_rstrip, splitWs_rstrip]
      unfold splitWs
      exact splitWsAux_append_spaces [] m.1 (h m (by simp))
    have hh : startsWith (m.1 ++ m.2) u!"#" = startsWith m.1 u!"#" := by
      rcases m with ⟨l, e⟩
      cases l with
      | cons c l => rfl
      | nil =>
        cases e with
        | nil => rfl
        | cons c e =>
          have hc : isSpace c = true := h ([], c :: e) (by simp) c (by simp)
          have : c ≠ 0x23 := by rintro rfl; revert hc; decide
          simp [startsWith, List.isPrefixOf, Ne.symm this]
    simp only [List.map_cons, pinyinTableLoop, hs, hh, ih (fun x hx => h x (by simp [hx]))]

/-- C94 for the table of hanzi: the table depends on the bare lines only, whatever ends them and whether the last one has an ending.  Here a line
also ends at a vertical tab, a form feed, an information separator, NEL and the separators of Unicode. -/
theorem C94_hanzi {ls : List Str} {text : Str} (h : Spec.WideTextOf ls text) : newPinyinTable (splitLines text) = newPinyinTable ls := by
  obtain ⟨ms, h1, h2, h3⟩ := wideTextOf_lines h
  rw [h1, h2]
  exact pinyinTableLoop_spaces ms h3 []

theorem wideTextOf_prefix {s : Str} (hs : ∀ c ∈ s, ¬ Spec.WideBreak c) {ls : List Str} {text : Str} (h : Spec.WideTextOf ls text) (ne : s ≠ []) :
    ∃ ls', Spec.WideTextOf ls' (s ++ text) := by
  cases h with
  | nil => exact ⟨[s], by rw [List.append_nil]; exact .last ne hs⟩
  | last ne' h' => exact ⟨[s ++ text], .last (by simp [ne]) (by intro c hc; rcases List.mem_append.1 hc with hc | hc; exact hs c hc; exact h' c hc)⟩
  | cons h' he hm ht =>
    rename_i s' e text ls
    refine ⟨(s ++ s') :: ls, ?_⟩
    have := Spec.WideTextOf.cons (s := s ++ s') (by intro c hc; rcases List.mem_append.1 hc with hc | hc; exact hs c hc; exact h' c hc) he hm ht
    simpa using this

theorem wideTextOf_total (text : Str) : ∃ ls, Spec.WideTextOf ls text := by
  induction hn : text.length using Nat.strongRecOn generalizing text with
  | _ n ih =>
    subst hn
    cases text with
    | nil => exact ⟨[], .nil⟩
    | cons c text =>
      obtain ⟨ls, h⟩ := ih text.length (by simp) text rfl
      by_cases hb : Spec.WideBreak c
      · by_cases hw : c = 0x0d ∧ text.head? = some 0x0a
        · obtain ⟨rfl, h0⟩ := hw
          cases text with
          | nil => cases h0
          | cons x text =>
            simp only [List.head?_cons, Option.some.injEq] at h0
            subst h0
            obtain ⟨ls', h'⟩ := ih text.length (by simp; omega) text rfl
            exact ⟨[] :: ls', .cons (s := []) (by simp) .windows (fun e => by cases e) h'⟩
        · refine ⟨[] :: ls, .cons (s := []) (e := [c]) (by simp) (.one hb) ?_ h⟩
          intro e1 e2
          simp only [List.cons.injEq, and_true] at e1
          exact hw ⟨e1, e2⟩
      · exact wideTextOf_prefix (s := [c]) (by simpa using hb) h (by simp)

/-- The first line of a text is determined. -/
theorem wide_line_unique {s s' r r' : Str} (h : ∀ c ∈ s, ¬ Spec.WideBreak c) (h' : ∀ c ∈ s', ¬ Spec.WideBreak c)
    (hr : ∀ c, r.head? = some c → Spec.WideBreak c) (hr' : ∀ c, r'.head? = some c → Spec.WideBreak c) (e : s ++ r = s' ++ r') :
    s = s' ∧ r = r' := by
  induction s generalizing s' with
  | nil =>
    cases s' with
    | nil => exact ⟨rfl, e⟩
    | cons c s' =>
      rw [List.nil_append] at e
      exact absurd (hr c (by rw [e]; rfl)) (h' c (by simp))
  | cons c s ih =>
    cases s' with
    | nil =>
      rw [List.nil_append] at e
      exact absurd (hr' c (by rw [← e]; rfl)) (h c (by simp))
    | cons c' s' =>
      simp only [List.cons_append, List.cons.injEq] at e
      obtain ⟨rfl, e⟩ := e
      obtain ⟨h1, h2⟩ := ih (fun x hx => h x (by simp [hx])) (fun x hx => h' x (by simp [hx])) e
      exact ⟨by rw [h1], h2⟩

theorem wideEnding_head {e t : Str} (he : Spec.WideEnding e) : ∀ c, (e ++ t).head? = some c → Spec.WideBreak c := by
  cases he with
  | windows => intro c hc; simp at hc; subst hc; decide
  | one h => intro c hc; simp at hc; subst hc; exact h

theorem wide_ending_unique {e e' t t' : Str} (he : Spec.WideEnding e) (he' : Spec.WideEnding e')
    (hm : e = u!"\r" → t.head? ≠ some c!"\n") (hm' : e' = u!"\r" → t'.head? ≠ some c!"\n") (h : e ++ t = e' ++ t') : t = t' := by
  cases he with
  | windows =>
    cases he' with
    | windows => simpa using h
    | one hb =>
      simp only [List.cons_append, List.nil_append, List.cons.injEq] at h
      obtain ⟨rfl, h⟩ := h
      exact absurd (by rw [← h]; rfl) (hm' rfl)
  | one hb =>
    cases he' with
    | windows =>
      simp only [List.cons_append, List.nil_append, List.cons.injEq] at h
      obtain ⟨rfl, h⟩ := h
      exact absurd (by rw [h]; rfl) (hm rfl)
    | one hb' =>
      simp only [List.cons_append, List.nil_append, List.cons.injEq] at h
      exact h.2

theorem wideTextOf_unique {ls ls' : List Str} {text : Str} (h : Spec.WideTextOf ls text) (h' : Spec.WideTextOf ls' text) : ls' = ls := by
  induction h generalizing ls' with
  | nil =>
    generalize hx : ([] : Str) = x at h'
    cases h' with
    | nil => rfl
    | last ne _ => exact absurd hx.symm ne
    | cons _ he _ _ =>
      cases he <;> simp at hx
  | last ne h =>
    rename_i s
    generalize hx : s = x at h'
    cases h' with
    | nil => exact absurd hx ne
    | last _ _ => rfl
    | @cons s' e text ls hs he _ _ =>
      exfalso
      have hmem : ∃ c ∈ e, Spec.WideBreak c := by
        cases he with
        | windows => exact ⟨0x0d, by decide, by decide⟩
        | one hb => exact ⟨_, by simp, hb⟩
      obtain ⟨c, hc, hb⟩ := hmem
      exact h c (by rw [hx]; simp [hc]) hb
  | @cons s e text ls h he hm ht ih =>
    generalize hx : s ++ e ++ text = x at h'
    cases h' with
    | nil => cases he <;> simp at hx
    | last _ hs =>
      exfalso
      have hmem : ∃ c ∈ e, Spec.WideBreak c := by
        cases he with
        | windows => exact ⟨0x0d, by decide, by decide⟩
        | one hb => exact ⟨_, by simp, hb⟩
      obtain ⟨c, hc, hb⟩ := hmem
      exact hs c (by rw [← hx]; simp [hc]) hb
    | @cons s' e' text' ls' hs' he' hm' ht' =>
      rw [List.append_assoc, List.append_assoc] at hx
      obtain ⟨h1, h2⟩ := wide_line_unique h hs' (wideEnding_head he) (wideEnding_head he') hx
      have := wide_ending_unique he he' hm hm' h2
      subst this
      rw [ih ht', h1]

/-- C94: every text is one of a unique list of lines, also with these line endings. -/
theorem C94_every_hanzi_file (text : Str) : ∃ ls, Spec.WideTextOf ls text ∧ ∀ ls', Spec.WideTextOf ls' text → ls' = ls := by
  obtain ⟨ls, h⟩ := wideTextOf_total text
  exact ⟨ls, h, fun ls' h' => wideTextOf_unique h h'⟩

/-- C102: what `PinyinTable()` makes of the file of hanzi, in terms of its lines. -/
theorem C102_hanzi_file (d : DataDisk) (base syllables hanzi : Str) (hb : Spec.DataDir d.env base)
    (hs : d.file (base ++ u!"/tables/zhuyin_pinyin_conv_table") = .ok syllables)
    (hh : d.file (base ++ u!"/tables/gbk_pinyin_table") = .ok hanzi) (all : List Str) (ha : getAllPinyin (fileLines syllables) = .ok all)
    (lines : List Str) (hl : Spec.WideTextOf lines hanzi) :
    (loadPinyinTable d).1 = newPinyinTable lines := by
  rw [C102_pinyin_table d base syllables hanzi hb hs hh all ha]
  exact C94_hanzi hl

/-- A line that ends with a form feed, one with a Windows ending and one without an ending. -/
example : Spec.WideTextOf [u!"一 yi1", u!"风 feng1", u!"流 liu2"] (u!"一 yi1" ++ [0x0c] ++ (u!"风 feng1" ++ u!"\r\n" ++ u!"流 liu2")) :=
  .cons (by decide) (.one (by decide)) (by decide) (.cons (by decide) .windows (by decide) (.last (by decide) (by decide)))

end Cjk
