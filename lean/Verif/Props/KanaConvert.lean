import Verif.Props.KanaSurface
/-!
# C192: conversion between the syllabaries and the spelling of voiced kana
-/

namespace Cjk
open Py
open Spec (Canon KanaUcd IsSoundMark)

/-! ### Specification -/

/-- A text of kana (with the iteration marks and the four voiced katakana that the library does not count as kana) and separate sound marks. -/
def Spec.KanaText (s : Str) : Prop := ∀ c ∈ s, Spec.IsKana c ∨ IsSoundMark c ∨ ∃ p ∈ Spec.voicedPairs, c = p.1 ∨ c = p.2

/-- The four composed katakana that have no hiragana counterpart. -/
def Spec.lonelyKana : Str := u!"ヷヸヹヺ"

/-- A text with all voiced kana but these four decomposed. -/
def Spec.nearlyDecomposed (U : Ucd) (s : Str) : Str := s.flatMap (fun c => if c ∈ Spec.lonelyKana then [c] else U.decomp c)

/-! ### Characters -/

def toKataChr (c : Chr) : Chr := if 0x3041 ≤ c ∧ c ≤ 0x3096 then c + 96 else c
def toHiraChr (c : Chr) : Chr := if 0x30a1 ≤ c ∧ c ≤ 0x30f6 then c - 96 else c

theorem plain_decomp {U : Ucd} (hp : Spec.PlainKana U) {c : Chr} (hc : Spec.IsKana c) (h : ∀ p ∈ Spec.voicedPairs ++ Spec.semivoicedPairs, p.1 ≠ c) :
    U.decomp c = [c] :=
  (hp c hc (fun b hb => h _ (List.mem_append_left _ hb) rfl) (fun b hb => h _ (List.mem_append_right _ hb) rfl)).1

theorem pair_or_plain (c : Chr) : (∃ m b, IsSoundMark m ∧ (c, b) ∈ Spec.pairsOf m) ∨ ∀ p ∈ Spec.voicedPairs ++ Spec.semivoicedPairs, p.1 ≠ c := by
  by_cases h1 : ∃ b, (c, b) ∈ Spec.voicedPairs
  · obtain ⟨b, h⟩ := h1
    exact .inl ⟨0x3099, b, .inl rfl, h⟩
  · by_cases h2 : ∃ b, (c, b) ∈ Spec.semivoicedPairs
    · obtain ⟨b, h⟩ := h2
      exact .inl ⟨0x309a, b, .inr rfl, h⟩
    · right
      rintro ⟨a, b⟩ hm rfl
      rcases List.mem_append.1 hm with hm | hm
      · exact h1 ⟨b, hm⟩
      · exact h2 ⟨b, hm⟩

theorem kana_range_kata {c : Chr} (h : 0x30a1 ≤ c ∧ c ≤ 0x30f6) : Spec.IsKana c := by
  exact .inr h

theorem kana_range_hira {c : Chr} (h : 0x3041 ≤ c ∧ c ≤ 0x3096) : Spec.IsKana c := by
  exact .inl h

theorem text_plain {U : Ucd} (hU : KanaUcd U) (hp : Spec.PlainKana U) {c : Chr} (hc : Spec.IsKana c ∨ IsSoundMark c ∨ ∃ p ∈ Spec.voicedPairs, c = p.1 ∨ c = p.2)
    (h : ∀ p ∈ Spec.voicedPairs ++ Spec.semivoicedPairs, p.1 ≠ c) : U.decomp c = [c] ∧ (U.ccc c = 0 ∨ U.ccc c = 8) := by
  rcases hc with hc | hc | ⟨p, hpm, rfl | rfl⟩
  · have := hp c hc (fun b hb => h _ (List.mem_append_left _ hb) rfl) (fun b hb => h _ (List.mem_append_right _ hb) rfl)
    exact ⟨this.1, .inl this.2⟩
  · exact ⟨(hU.mark c hc).1, .inr (hU.mark c hc).2⟩
  · exact absurd rfl (h p (List.mem_append_left _ hpm))
  · exact ⟨hU.full p.1 p.2 (by rw [hU.voiced p hpm]; simp), .inl (hU.base p (List.mem_append_left _ hpm))⟩

theorem nfd_text {U : Ucd} (hU : KanaUcd U) (hp : Spec.PlainKana U) {s : Str} (hs : Spec.KanaText s) : nfd U s = s.flatMap U.decomp := by
  refine canonOrder_marked U _ (fun x hx => ?_)
  obtain ⟨c, hc, hx⟩ := List.mem_flatMap.1 hx
  rcases pair_or_plain c with ⟨m, b, hm, hpair⟩ | hplain
  · obtain ⟨h1, h2⟩ := decomp_pair hU hm hpair
    rw [h1] at hx
    rcases List.mem_cons.1 hx with rfl | hx
    · exact .inl h2
    · rw [List.mem_singleton.1 hx]; exact .inr (hU.mark m hm).2
  · obtain ⟨h1, h2⟩ := text_plain hU hp (hs c hc) hplain
    rw [h1, List.mem_singleton] at hx; rw [hx]; exact h2

/-- Conversion to katakana commutes with decomposition. -/
theorem kata_decomp {U : Ucd} (hU : KanaUcd U) (hp : Spec.PlainKana U) {c : Chr}
    (hc : Spec.IsKana c ∨ IsSoundMark c ∨ ∃ p ∈ Spec.voicedPairs, c = p.1 ∨ c = p.2) :
    U.decomp (toKataChr c) = (U.decomp c).map toKataChr := by
  have kv : ∀ p ∈ Spec.voicedPairs, (toKataChr p.1, toKataChr p.2) ∈ Spec.voicedPairs := by unfold toKataChr; decide +kernel
  have ks : ∀ p ∈ Spec.semivoicedPairs, (toKataChr p.1, toKataChr p.2) ∈ Spec.semivoicedPairs := by unfold toKataChr; decide +kernel
  have kb : ∀ p ∈ Spec.voicedPairs ++ Spec.semivoicedPairs, 0x30a1 ≤ p.1 ∧ p.1 ≤ 0x30f6 →
      ∃ q ∈ Spec.voicedPairs ++ Spec.semivoicedPairs, q.1 + 96 = p.1 := by decide +kernel
  rcases pair_or_plain c with ⟨m, b, hm, hpair⟩ | hplain
  · rw [(decomp_pair hU hm hpair).1]
    rcases hm with rfl | rfl
    · exact hU.voiced _ (kv _ hpair)
    · exact hU.semivoiced _ (ks _ hpair)
  · have hd := (text_plain hU hp hc hplain).1
    rw [hd]
    unfold toKataChr
    by_cases hr : 0x3041 ≤ c ∧ c ≤ 0x3096
    · simp only [List.map_cons, List.map_nil, if_pos hr]
      refine plain_decomp hp (kana_range_kata (by omega)) (fun p hpm e => ?_)
      obtain ⟨q, hq, e'⟩ := kb p hpm (by omega)
      exact hplain q hq (by omega)
    · simp only [List.map_cons, List.map_nil, if_neg hr]
      exact hd

/-- So does conversion to hiragana, but for the four. -/
theorem hira_decomp {U : Ucd} (hU : KanaUcd U) (hp : Spec.PlainKana U) {c : Chr}
    (hc : Spec.IsKana c ∨ IsSoundMark c ∨ ∃ p ∈ Spec.voicedPairs, c = p.1 ∨ c = p.2) (hl : c ∉ Spec.lonelyKana) :
    U.decomp (toHiraChr c) = (U.decomp c).map toHiraChr := by
  have kv : ∀ p ∈ Spec.voicedPairs, p.1 ∉ Spec.lonelyKana → (toHiraChr p.1, toHiraChr p.2) ∈ Spec.voicedPairs := by
    unfold toHiraChr; decide +kernel
  have ks : ∀ p ∈ Spec.semivoicedPairs, (toHiraChr p.1, toHiraChr p.2) ∈ Spec.semivoicedPairs := by unfold toHiraChr; decide +kernel
  have kb : ∀ p ∈ Spec.voicedPairs ++ Spec.semivoicedPairs, 0x3041 ≤ p.1 ∧ p.1 ≤ 0x3096 →
      ∃ q ∈ Spec.voicedPairs ++ Spec.semivoicedPairs, p.1 + 96 = q.1 := by decide +kernel
  rcases pair_or_plain c with ⟨m, b, hm, hpair⟩ | hplain
  · rw [(decomp_pair hU hm hpair).1]
    rcases hm with rfl | rfl
    · exact hU.voiced _ (kv _ hpair hl)
    · exact hU.semivoiced _ (ks _ hpair)
  · have hd := (text_plain hU hp hc hplain).1
    rw [hd]
    unfold toHiraChr
    by_cases hr : 0x30a1 ≤ c ∧ c ≤ 0x30f6
    · simp only [List.map_cons, List.map_nil, if_pos hr]
      refine plain_decomp hp (kana_range_hira (by omega)) (fun p hpm e => ?_)
      obtain ⟨q, hq, e'⟩ := kb p hpm (by omega)
      exact hplain q hq (by omega)
    · simp only [List.map_cons, List.map_nil, if_neg hr]
      exact hd

/-- Converted texts of kana and marks are such texts. -/
theorem text_kata {s : Str} (hs : Spec.KanaText s) : Spec.KanaText (toKatakana s) := by
  intro x hx
  obtain ⟨c, hc, rfl⟩ := List.mem_map.1 hx
  split
  · exact .inl (kana_range_kata (by omega))
  · exact hs c hc

theorem text_hira {s : Str} (hs : Spec.KanaText s) : Spec.KanaText (toHiragana s) := by
  intro x hx
  obtain ⟨c, hc, rfl⟩ := List.mem_map.1 hx
  split
  · exact .inl (kana_range_hira (by omega))
  · exact hs c hc

/-! ### To katakana -/

/-- C192: texts of kana and sound marks that are canonically equivalent are so after conversion to katakana. -/
theorem C192_katakana {U : Ucd} (hU : KanaUcd U) (hp : Spec.PlainKana U) {s t : Str} (hs : Spec.KanaText s) (ht : Spec.KanaText t)
    (h : Canon U s t) : Canon U (toKatakana s) (toKatakana t) := by
  have hD := nfd_of_canon hU.full h
  rw [nfd_text hU hp hs, nfd_text hU hp ht] at hD
  have key : ∀ {s : Str}, Spec.KanaText s → (toKatakana s).flatMap U.decomp = (s.flatMap U.decomp).map toKataChr := by
    intro s
    induction s with
    | nil => intro _; rfl
    | cons c s ih =>
      intro hs
      have e : toKatakana (c :: s) = toKataChr c :: toKatakana s := rfl
      rw [e, List.flatMap_cons, List.flatMap_cons, List.map_append, kata_decomp hU hp (hs c (by simp)), ih (fun a ha => hs a (by simp [ha]))]
  exact canon_of_decomp (by rw [key hs, key ht, hD])

/-! ### To hiragana -/

/-- The pieces of a nearly decomposed text. -/
def NearPiece (U : Ucd) (x : Chr) : Prop := x ∈ Spec.lonelyKana ∨ (U.decomp x = [x] ∧ U.decomp (toHiraChr x) = [toHiraChr x])

theorem lonely_decomp {U : Ucd} (hU : KanaUcd U) {x : Chr} (h : x ∈ Spec.lonelyKana) : ∃ b, (x, b) ∈ Spec.voicedPairs ∧ U.decomp x = [b, 0x3099] ∧
    toHiraChr x = x ∧ toHiraChr b ≠ b ∧ b ∉ Spec.lonelyKana := by
  have key : ∀ x ∈ Spec.lonelyKana, ∃ p ∈ Spec.voicedPairs, p.1 = x ∧ toHiraChr x = x ∧ toHiraChr p.2 ≠ p.2 ∧ p.2 ∉ Spec.lonelyKana := by
    unfold toHiraChr; decide +kernel
  obtain ⟨p, hp, rfl, h1, h2, h3⟩ := key x h
  exact ⟨p.2, hp, hU.voiced p hp, h1, h2, h3⟩

theorem near_pieces {U : Ucd} (hU : KanaUcd U) (hp : Spec.PlainKana U) {s : Str} (hs : Spec.KanaText s) :
    (∀ x ∈ Spec.nearlyDecomposed U s, NearPiece U x) ∧ (Spec.nearlyDecomposed U s).flatMap U.decomp = s.flatMap U.decomp ∧
    (Spec.nearlyDecomposed U s).flatMap (fun x => U.decomp (toHiraChr x)) = (toHiragana s).flatMap U.decomp := by
  induction s with
  | nil => exact ⟨(by intro x hx; cases hx), rfl, rfl⟩
  | cons c s ih =>
    obtain ⟨h1, h2, h3⟩ := ih (fun a ha => hs a (by simp [ha]))
    have hc := hs c (by simp)
    have e : toHiragana (c :: s) = toHiraChr c :: toHiragana s := rfl
    have e' : Spec.nearlyDecomposed U (c :: s) = (if c ∈ Spec.lonelyKana then [c] else U.decomp c) ++ Spec.nearlyDecomposed U s := rfl
    rw [e, e', List.flatMap_append, List.flatMap_append, h2, h3, List.flatMap_cons, List.flatMap_cons]
    by_cases hl : c ∈ Spec.lonelyKana
    · rw [if_pos hl]
      refine ⟨?_, by simp, by simp⟩
      intro x hx
      rcases List.mem_append.1 hx with hx | hx
      · rw [List.mem_singleton.1 hx]; exact .inl hl
      · exact h1 x hx
    · rw [if_neg hl]
      have hh := hira_decomp hU hp hc hl
      have hone : ∀ x ∈ U.decomp c, U.decomp (toHiraChr x) = [toHiraChr x] := by
        intro x hx
        exact hU.full (toHiraChr c) _ (by rw [hh]; exact List.mem_map_of_mem hx)
      have hflat : ∀ (l : Str) (g : Chr → Str) (k : Chr → Chr), (∀ x ∈ l, g x = [k x]) → l.flatMap g = l.map k := by
        intro l g k
        induction l with
        | nil => intro _; rfl
        | cons a l ih => intro h; rw [List.flatMap_cons, h a (by simp), ih (fun x hx => h x (by simp [hx]))]; rfl
      refine ⟨?_, ?_, ?_⟩
      · intro x hx
        rcases List.mem_append.1 hx with hx | hx
        · exact .inr ⟨hU.full c x hx, hone x hx⟩
        · exact h1 x hx
      · rw [hflat _ _ id (fun x hx => hU.full c x hx), List.map_id]
      · rw [hflat _ _ toHiraChr hone, hh]

theorem near_injective {U : Ucd} (hU : KanaUcd U) : ∀ (a b : Str), (∀ x ∈ a, NearPiece U x) → (∀ x ∈ b, NearPiece U x) →
    a.flatMap U.decomp = b.flatMap U.decomp → a.flatMap (fun x => U.decomp (toHiraChr x)) = b.flatMap (fun x => U.decomp (toHiraChr x)) → a = b := by
  intro a
  induction a with
  | nil => intro b _ _ h _; exact (flatMap_decomp_nil hU h.symm).symm
  | cons x a ih =>
    intro b ha hb h1 h2
    cases b with
    | nil => exact flatMap_decomp_nil hU h1
    | cons y b =>
      have ha' : ∀ z ∈ a, NearPiece U z := fun z hz => ha z (by simp [hz])
      have hb' : ∀ z ∈ b, NearPiece U z := fun z hz => hb z (by simp [hz])
      simp only [List.flatMap_cons] at h1 h2
      rcases ha x (by simp) with hx | ⟨hx1, hx2⟩ <;> rcases hb y (by simp) with hy | ⟨hy1, hy2⟩
      · obtain ⟨bx, px, dx, tx, _⟩ := lonely_decomp hU hx
        obtain ⟨by', py, dy, ty, _⟩ := lonely_decomp hU hy
        rw [tx, ty] at h2
        rw [dx, dy] at h1 h2
        injection h1 with e1 e2
        injection e2 with _ e2
        injection h2 with _ e3
        injection e3 with _ e3
        subst e1
        have : x = y := pairs_injective (m := 0x3099) px py
        rw [this, ih b ha' hb' e2 e3]
      · obtain ⟨bx, px, dx, tx, nx, _⟩ := lonely_decomp hU hx
        rw [tx, hy2] at h2
        rw [dx, hy1] at h1
        rw [dx] at h2
        injection h1 with e1 _
        injection h2 with e2 _
        rw [← e1] at e2
        exact absurd e2.symm nx
      · obtain ⟨by', py, dy, ty, ny, _⟩ := lonely_decomp hU hy
        rw [ty, hx2] at h2
        rw [dy, hx1] at h1
        rw [dy] at h2
        injection h1 with e1 _
        injection h2 with e2 _
        rw [e1] at e2
        exact absurd e2 ny
      · rw [hx1, hy1] at h1
        rw [hx2, hy2] at h2
        injection h1 with e1 e2
        injection h2 with _ e3
        rw [e1, ih b ha' hb' e2 e3]

/-- C192: after conversion to hiragana they are equivalent exactly if they agree on the spelling of ヷ, ヸ, ヹ and ヺ, that is, if they become the same text when all
other kana are decomposed. -/
theorem C192_hiragana_iff {U : Ucd} (hU : KanaUcd U) (hp : Spec.PlainKana U) {s t : Str} (hs : Spec.KanaText s) (ht : Spec.KanaText t)
    (h : Canon U s t) : Canon U (toHiragana s) (toHiragana t) ↔ Spec.nearlyDecomposed U s = Spec.nearlyDecomposed U t := by
  have hD := nfd_of_canon hU.full h
  rw [nfd_text hU hp hs, nfd_text hU hp ht] at hD
  obtain ⟨s1, s2, s3⟩ := near_pieces hU hp hs
  obtain ⟨t1, t2, t3⟩ := near_pieces hU hp ht
  constructor
  · intro hc
    have hH := nfd_of_canon hU.full hc
    rw [nfd_text hU hp (text_hira hs), nfd_text hU hp (text_hira ht)] at hH
    exact near_injective hU _ _ s1 t1 (by rw [s2, t2, hD]) (by rw [s3, t3, hH])
  · intro e
    exact canon_of_decomp (by rw [← s3, ← t3, e])

/-- C192: in particular they are equivalent if neither text contains one of the four. -/
theorem C192_hiragana_partial {U : Ucd} (hU : KanaUcd U) (hp : Spec.PlainKana U) {s t : Str} (hs : Spec.KanaText s) (ht : Spec.KanaText t)
    (h : Canon U s t) (hs' : ∀ c ∈ s, c ∉ Spec.lonelyKana) (ht' : ∀ c ∈ t, c ∉ Spec.lonelyKana) : Canon U (toHiragana s) (toHiragana t) := by
  have hD := nfd_of_canon hU.full h
  rw [nfd_text hU hp hs, nfd_text hU hp ht] at hD
  have key : ∀ {s : Str}, (∀ c ∈ s, c ∉ Spec.lonelyKana) → Spec.nearlyDecomposed U s = s.flatMap U.decomp := by
    intro s
    induction s with
    | nil => intro _; rfl
    | cons c s ih =>
      intro hs
      have e' : Spec.nearlyDecomposed U (c :: s) = (if c ∈ Spec.lonelyKana then [c] else U.decomp c) ++ Spec.nearlyDecomposed U s := rfl
      rw [e', if_neg (hs c (by simp)), ih (fun a ha => hs a (by simp [ha])), List.flatMap_cons]
  rw [C192_hiragana_iff hU hp hs ht h, key hs', key ht', hD]

/-- C192 refuted for hiragana: ヷ stays as it is, ワ with a separate mark becomes わ with a mark. -/
theorem C192_refuted : Canon kanaUcd u!"ヷ" [c!"ワ", 0x3099] ∧ toHiragana u!"ヷ" = u!"ヷ" ∧ toHiragana [c!"ワ", 0x3099] = [c!"わ", 0x3099] ∧
    ¬ Canon kanaUcd u!"ヷ" [c!"わ", 0x3099] := by
  refine ⟨Canon.decompose (U := kanaUcd) [] c!"ヷ" [], by decide, by decide, fun h => ?_⟩
  have := nfd_of_canon kanaUcd_good.full h
  revert this
  decide +kernel

/-- Not vacuous: ガヷ in several spellings. -/
example : Spec.KanaText u!"ガヷ" ∧ Spec.KanaText [c!"カ", 0x3099, c!"ヷ"] ∧ Canon kanaUcd u!"ガヷ" [c!"カ", 0x3099, c!"ヷ"] ∧
    Spec.nearlyDecomposed kanaUcd u!"ガヷ" = Spec.nearlyDecomposed kanaUcd [c!"カ", 0x3099, c!"ヷ"] := by
  refine ⟨?_, ?_, Canon.decompose (U := kanaUcd) [] c!"ガ" u!"ヷ", by decide +kernel⟩ <;> (unfold Spec.KanaText IsSoundMark; decide +kernel)

end Cjk
