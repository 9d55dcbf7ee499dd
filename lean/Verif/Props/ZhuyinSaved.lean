import Verif.Props.Zhuyin
import Verif.Props.Pinyin
import Verif.Props.PlaceInit
import Verif.Props.PlaceAgain
import Verif.Py.Lines
/-!
# C190: a table of zhuyin and pinyin that was read can be written out and read again
-/

namespace Cjk
open Py

/-! ### Specification -/

/-- The line of a zhuyin and its pinyin.  A zhuyin that begins with `#` is indented, since the line would be a comment otherwise. -/
def Spec.savedRow (z p : Str) : Str := (if z.head? = some c!"#" then u!" " else []) ++ z ++ u!" " ++ p

/-- The lines of a saved table from zhuyin to pinyin. -/
def Spec.savedZhuyin (t : Dict Str Str) : List Str := t.map (fun e => Spec.savedRow e.1 e.2)

/-- The lines of a saved table from pinyin to zhuyin. -/
def Spec.savedPinyin (t : Dict Str Str) : List Str := t.map (fun e => Spec.savedRow e.2 e.1)

/-! ### Rows -/

theorem splitWs_savedRow {z p : Str} (hz : Word z) (hp : Word p) : splitWs (Spec.savedRow z p ++ [0x0a]) = [z, p] := by
  have key : splitWs (z ++ [0x20] ++ p ++ [0x0a]) = [z, p] := by
    unfold splitWs
    rw [splitWsAux_append_spaces [] _ (by decide)]
    have := splitWs_join [z, p] (by intro w hw; rcases List.mem_cons.1 hw with rfl | hw; exact hz; rw [List.mem_singleton.1 hw]; exact hp)
    unfold splitWs at this
    simpa [join] using this
  unfold Spec.savedRow
  split
  · rw [show ([0x20] ++ z ++ [0x20] ++ p ++ [0x0a] : Str) = 0x20 :: (z ++ [0x20] ++ p ++ [0x0a]) by simp]
    unfold splitWs at key ⊢
    rw [splitWsAux, if_pos (by decide)]
    exact key
  · rw [List.nil_append]; exact key

theorem savedRow_head {z p : Str} (hz : Word z) : (Spec.savedRow z p ++ [0x0a]).head? ≠ some 0x23 := by
  obtain ⟨h1, _⟩ := hz
  cases z with
  | nil => exact absurd rfl h1
  | cons c z =>
    unfold Spec.savedRow
    split
    · simp
    · rename_i h; simpa using h

theorem savedRow_rows (l : List (Str × Str)) (h : ∀ e ∈ l, Word e.1 ∧ Word e.2) :
    Spec.tableRows (l.map (fun e => Spec.savedRow e.1 e.2 ++ [0x0a])) = l.map (fun e => [e.1, e.2]) := by
  unfold Spec.tableRows
  induction l with
  | nil => rfl
  | cons e l ih =>
    obtain ⟨hz, hp⟩ := h e (by simp)
    rw [List.map_cons, List.filter_cons, if_pos (by simpa using savedRow_head hz), List.map_cons, ih (fun e he => h e (List.mem_cons_of_mem _ he)),
      splitWs_savedRow hz hp, List.map_cons]

theorem savedRow_ok (l : List (Str × Str)) (h : ∀ e ∈ l, Word e.1 ∧ Word e.2) :
    Spec.RowsOk (l.map (fun e => Spec.savedRow e.1 e.2 ++ [0x0a])) := by
  intro r hr
  rw [savedRow_rows l h, List.mem_map] at hr
  obtain ⟨e, _, rfl⟩ := hr
  rfl

theorem savedRow_pairs (l : List (Str × Str)) (h : ∀ e ∈ l, Word e.1 ∧ Word e.2) :
    Spec.tablePairs (l.map (fun e => Spec.savedRow e.1 e.2 ++ [0x0a])) = l := by
  unfold Spec.tablePairs
  rw [savedRow_rows l h, List.map_map]
  exact List.map_id _

theorem tablePairs_words (lines : List Str) (h : Spec.RowsOk lines) : ∀ e ∈ Spec.tablePairs lines, Word e.1 ∧ Word e.2 := by
  intro e he
  unfold Spec.tablePairs at he
  rw [List.mem_map] at he
  obtain ⟨r, hr, rfl⟩ := he
  have h2 := h r hr
  unfold Spec.tableRows at hr
  rw [List.mem_map] at hr
  obtain ⟨l, _, rfl⟩ := hr
  have hw := splitWs_words l
  match hs : splitWs l, h2 with
  | [a, b], _ =>
    rw [hs] at hw
    exact ⟨hw a (by simp), hw b (by simp)⟩

/-- What the two functions return, as dictionaries of lists of pairs. -/
theorem zhuyinTable_iff (lines : List Str) (t : Dict Str Str) :
    zhuyinToPinyinTable lines = .ok t ↔ Spec.RowsOk lines ∧ t = Dict.ofList (Spec.tablePairs lines) := by
  have : Decidable (Spec.RowsOk lines) := inferInstanceAs (Decidable (∀ r ∈ _, _))
  rw [zhuyinToPinyin_eq]
  by_cases h : Spec.RowsOk lines
  · rw [if_pos h]
    constructor
    · intro e; cases e; exact ⟨h, rfl⟩
    · rintro ⟨_, rfl⟩; rfl
  · rw [if_neg h]
    exact ⟨(fun e => nomatch e), (fun e => absurd e.1 h)⟩

theorem pinyinTable_iff (lines : List Str) (t : Dict Str Str) :
    pinyinToZhuyinTable lines = .ok t ↔ Spec.RowsOk lines ∧ t = Dict.ofList ((Spec.tablePairs lines).map Prod.swap) := by
  have : Decidable (Spec.RowsOk lines) := inferInstanceAs (Decidable (∀ r ∈ _, _))
  rw [pinyinToZhuyin_eq]
  have e0 : Dict.ofList ((Spec.tablePairs lines).map Prod.swap) =
      (Spec.tablePairs lines).foldl (fun t p => Dict.set t p.2 p.1) ([] : Dict Str Str) := by
    unfold Dict.ofList Dict.update
    rw [List.foldl_map]; rfl
  rw [e0]
  by_cases h : Spec.RowsOk lines
  · rw [if_pos h]
    constructor
    · intro e; cases e; exact ⟨h, rfl⟩
    · rintro ⟨_, rfl⟩; rfl
  · rw [if_neg h]
    exact ⟨(fun e => nomatch e), (fun e => absurd e.1 h)⟩

theorem zhuyinTable_words {lines : List Str} {t : Dict Str Str} (h : zhuyinToPinyinTable lines = .ok t) :
    ∀ e ∈ t, Word e.1 ∧ Word e.2 := by
  obtain ⟨h1, rfl⟩ := (zhuyinTable_iff lines t).1 h
  exact fun e he => tablePairs_words lines h1 e (ofList_sub _ e he)

theorem pinyinTable_words {lines : List Str} {t : Dict Str Str} (h : pinyinToZhuyinTable lines = .ok t) :
    ∀ e ∈ t.map Prod.swap, Word e.1 ∧ Word e.2 := by
  obtain ⟨h1, rfl⟩ := (pinyinTable_iff lines t).1 h
  intro e he
  rw [List.mem_map] at he
  obtain ⟨e', he', rfl⟩ := he
  have := ofList_sub _ e' he'
  rw [List.mem_map] at this
  obtain ⟨e'', he'', rfl⟩ := this
  exact tablePairs_words lines h1 e'' he''

theorem savedZhuyin_eq (t : Dict Str Str) : (Spec.savedZhuyin t).map (fun l => l ++ u!"\n") =
    (t : List (Str × Str)).map (fun e => Spec.savedRow e.1 e.2 ++ [0x0a]) := by
  unfold Spec.savedZhuyin; rw [List.map_map]; rfl

theorem savedPinyin_eq (t : Dict Str Str) : (Spec.savedPinyin t).map (fun l => l ++ u!"\n") =
    ((t : List (Str × Str)).map Prod.swap).map (fun e => Spec.savedRow e.1 e.2 ++ [0x0a]) := by
  unfold Spec.savedPinyin; rw [List.map_map, List.map_map]; rfl

/-! ### The same table again -/

/-- C190: the table from zhuyin to pinyin, written out line by line, is read as the same table, in the same order. -/
theorem C190_zhuyin (lines : List Str) (t : Dict Str Str) (h : zhuyinToPinyinTable lines = .ok t) :
    zhuyinToPinyinTable ((Spec.savedZhuyin t).map (fun l => l ++ u!"\n")) = .ok t := by
  have hw := zhuyinTable_words h
  rw [savedZhuyin_eq, zhuyinTable_iff, savedRow_pairs _ hw]
  refine ⟨savedRow_ok _ hw, ?_⟩
  obtain ⟨_, rfl⟩ := (zhuyinTable_iff lines t).1 h
  exact (Dict.ofList_of_nodup _ (Dict.WF_ofList _)).symm

/-- C190: so is the table from pinyin to zhuyin. -/
theorem C190_pinyin (lines : List Str) (t : Dict Str Str) (h : pinyinToZhuyinTable lines = .ok t) :
    pinyinToZhuyinTable ((Spec.savedPinyin t).map (fun l => l ++ u!"\n")) = .ok t := by
  have hw := pinyinTable_words h
  rw [savedPinyin_eq, pinyinTable_iff, savedRow_pairs _ hw]
  refine ⟨savedRow_ok _ hw, ?_⟩
  rw [List.map_map, show (Prod.swap ∘ Prod.swap : Str × Str → Str × Str) = id from funext fun _ => rfl, List.map_id]
  obtain ⟨_, rfl⟩ := (pinyinTable_iff lines t).1 h
  exact (Dict.ofList_of_nodup _ (Dict.WF_ofList _)).symm

theorem word_noEol {w : Str} (h : Word w) : NoEol w :=
  ⟨fun hc => absurd (h.2 _ hc) (by decide), fun hc => absurd (h.2 _ hc) (by decide)⟩

theorem savedRow_noEol {z p : Str} (hz : Word z) (hp : Word p) : NoEol (Spec.savedRow z p) := by
  have hz := word_noEol hz
  have hp := word_noEol hp
  unfold Spec.savedRow
  constructor
  · intro hc
    simp only [List.mem_append] at hc
    rcases hc with ((hc | hc) | hc) | hc
    · split at hc
      · exact absurd hc (by decide)
      · cases hc
    · exact hz.1 hc
    · exact absurd hc (by decide)
    · exact hp.1 hc
  · intro hc
    simp only [List.mem_append] at hc
    rcases hc with ((hc | hc) | hc) | hc
    · split at hc
      · exact absurd hc (by decide)
      · cases hc
    · exact hz.2 hc
    · exact absurd hc (by decide)
    · exact hp.2 hc

/-- C190: the same for files, whichever line ending the saved files use. -/
theorem C190_file (text : Str) (zp pz : Dict Str Str) (h1 : zhuyinToPinyinTable (fileLines text) = .ok zp)
    (h2 : pinyinToZhuyinTable (fileLines text) = .ok pz) (eol : Str) (he : eol = u!"\n" ∨ eol = u!"\r\n" ∨ eol = u!"\r") :
    zhuyinToPinyinTable (fileLines ((Spec.savedZhuyin zp).flatMap (fun l => l ++ eol))) = .ok zp ∧
    pinyinToZhuyinTable (fileLines ((Spec.savedPinyin pz).flatMap (fun l => l ++ eol))) = .ok pz := by
  constructor
  · rw [fileLines_uniform eol he]
    · exact C190_zhuyin _ zp h1
    · intro l hl
      unfold Spec.savedZhuyin at hl
      rw [List.mem_map] at hl
      obtain ⟨e, hm, rfl⟩ := hl
      obtain ⟨hz, hp⟩ := zhuyinTable_words h1 e hm
      exact savedRow_noEol hz hp
  · rw [fileLines_uniform eol he]
    · exact C190_pinyin _ pz h2
    · intro l hl
      unfold Spec.savedPinyin at hl
      rw [List.mem_map] at hl
      obtain ⟨e, hm, rfl⟩ := hl
      obtain ⟨hz, hp⟩ := pinyinTable_words h2 e.swap (List.mem_map_of_mem hm)
      exact savedRow_noEol hz hp

/-! ### The rest of what a file is read for -/

/-- C190: a segmenter made from the saved table from pinyin to zhuyin divides every text as the one made from the original file. -/
theorem C190_segmenter (lines : List Str) (seg : List Str) (t : Dict Str Str) (h : newSegmenter lines = .ok seg)
    (ht : pinyinToZhuyinTable lines = .ok t) : ∃ seg', newSegmenter ((Spec.savedPinyin t).map (fun l => l ++ u!"\n")) = .ok seg' ∧
      ∀ lower s, segmentPinyin lower seg' s = segmentPinyin lower seg s := by
  have hw := pinyinTable_words ht
  have hr : Spec.RowsOk ((Spec.savedPinyin t).map (fun l => l ++ u!"\n")) := by rw [savedPinyin_eq]; exact savedRow_ok _ hw
  have hp : Spec.tablePairs ((Spec.savedPinyin t).map (fun l => l ++ u!"\n")) = (t : List (Str × Str)).map Prod.swap := by
    rw [savedPinyin_eq]; exact savedRow_pairs _ hw
  obtain ⟨seg', h'⟩ : ∃ seg', newSegmenter ((Spec.savedPinyin t).map (fun l => l ++ u!"\n")) = .ok seg' := by
    have : Decidable (Spec.RowsOk ((Spec.savedPinyin t).map (fun l => l ++ u!"\n"))) := inferInstanceAs (Decidable (∀ r ∈ _, _))
    unfold newSegmenter getAllPinyin
    rw [collectPinyin_eq, if_pos hr]
    exact ⟨_, rfl⟩
  refine ⟨seg', h', fun lower s => C69_order lower _ _ _ _ h' h (fun p => ?_) s⟩
  rw [hp, List.map_map, show (Prod.snd ∘ Prod.swap : Str × Str → Str) = Prod.fst from funext fun _ => rfl]
  obtain ⟨_, rfl⟩ := (pinyinTable_iff lines t).1 ht
  have := Dict.mem_keys_update ([] : Dict Str Str) ((Spec.tablePairs lines).map Prod.swap) p
  rw [List.map_map, show (Prod.fst ∘ Prod.swap : Str × Str → Str) = Prod.snd from funext fun _ => rfl] at this
  unfold Dict.ofList
  unfold Dict.keys at this
  simpa using this

/-- C190: when no zhuyin is repeated in the file, the saved table from zhuyin to pinyin stands for the whole file: the other table, the
list of pinyin and both patterns are those of the file. -/
theorem C190_whole (lines : List Str) (t : Dict Str Str) (h : zhuyinToPinyinTable lines = .ok t)
    (hn : ((Spec.tablePairs lines).map Prod.fst).Nodup) :
    pinyinToZhuyinTable ((Spec.savedZhuyin t).map (fun l => l ++ u!"\n")) = pinyinToZhuyinTable lines ∧
    getAllPinyin ((Spec.savedZhuyin t).map (fun l => l ++ u!"\n")) = getAllPinyin lines ∧
    pinyinRegexPattern ((Spec.savedZhuyin t).map (fun l => l ++ u!"\n")) = pinyinRegexPattern lines ∧
    zhuyinRegexPattern ((Spec.savedZhuyin t).map (fun l => l ++ u!"\n")) = zhuyinRegexPattern lines := by
  have hw := zhuyinTable_words h
  obtain ⟨h1, e⟩ := (zhuyinTable_iff lines t).1 h
  rw [Dict.ofList_of_nodup _ hn] at e
  have hr : Spec.RowsOk ((Spec.savedZhuyin t).map (fun l => l ++ u!"\n")) := by rw [savedZhuyin_eq]; exact savedRow_ok _ hw
  have hp : Spec.tablePairs ((Spec.savedZhuyin t).map (fun l => l ++ u!"\n")) = Spec.tablePairs lines := by
    rw [savedZhuyin_eq, savedRow_pairs _ hw]; exact e
  have : ∀ ls, Decidable (Spec.RowsOk ls) := fun ls => inferInstanceAs (Decidable (∀ r ∈ _, _))
  have hc : ∀ a, collectPinyin a (zhuyinLines ((Spec.savedZhuyin t).map (fun l => l ++ u!"\n"))) = collectPinyin a (zhuyinLines lines) := by
    intro a; rw [collectPinyin_eq, collectPinyin_eq, if_pos hr, if_pos h1, hp]
  refine ⟨by rw [pinyinToZhuyin_eq, pinyinToZhuyin_eq, if_pos hr, if_pos h1, hp], ?_, ?_, ?_⟩
  · unfold getAllPinyin; rw [hc]
  · unfold pinyinRegexPattern getAllPinyin; rw [hc]
  · unfold zhuyinRegexPattern; rw [hc]

/-- C190: with a repeated zhuyin it does not: the pinyin of the earlier line is lost. -/
theorem C190_repeated : ∃ t pz, zhuyinToPinyinTable [u!"a x\n", u!"a y\n"] = .ok t ∧ pinyinToZhuyinTable [u!"a x\n", u!"a y\n"] = .ok pz ∧
    Dict.get? pz u!"x" = some u!"a" ∧ ∃ pz', pinyinToZhuyinTable ((Spec.savedZhuyin t).map (fun l => l ++ u!"\n")) = .ok pz' ∧
      Dict.get? pz' u!"x" = none := by
  refine ⟨_, _, rfl, rfl, by decide, _, rfl, by decide⟩

/-- C190: the indentation is needed: without it a zhuyin that begins with `#` is lost. -/
theorem C190_indent : ∃ t, zhuyinToPinyinTable [u!" #a x\n"] = .ok t ∧ Dict.get? t u!"#a" = some u!"x" ∧
    zhuyinToPinyinTable [u!"#a x\n"] = .ok [] := by
  refine ⟨_, rfl, by decide, rfl⟩

/-- Not vacuous: comments, tabs, a repeated zhuyin, a repeated pinyin and a zhuyin with `#`. -/
example : ∃ zp pz, zhuyinToPinyinTable (fileLines u!"# note\nㄅ\tb\r\n #c x\nㄅ p\n  ㄆ p") = .ok zp ∧
    pinyinToZhuyinTable (fileLines u!"# note\nㄅ\tb\r\n #c x\nㄅ p\n  ㄆ p") = .ok pz ∧
    (Spec.savedZhuyin zp).flatMap (fun l => l ++ u!"\n") = u!"ㄅ p\n #c x\nㄆ p\n" ∧
    (Spec.savedPinyin pz).flatMap (fun l => l ++ u!"\n") = u!"ㄅ b\n #c x\nㄆ p\n" := by
  refine ⟨_, _, rfl, rfl, ?_, ?_⟩ <;> decide +kernel

/-- Not vacuous: the hypotheses of `C190_segmenter` and `C190_whole`. -/
example : ∃ seg t zp, newSegmenter [u!"a xi\n", u!"b an\n", u!"c xian\n"] = .ok seg ∧
    pinyinToZhuyinTable [u!"a xi\n", u!"b an\n", u!"c xian\n"] = .ok t ∧ zhuyinToPinyinTable [u!"a xi\n", u!"b an\n", u!"c xian\n"] = .ok zp ∧
    ((Spec.tablePairs [u!"a xi\n", u!"b an\n", u!"c xian\n"]).map Prod.fst).Nodup := by
  refine ⟨_, _, _, rfl, rfl, rfl, by decide +kernel⟩

end Cjk
