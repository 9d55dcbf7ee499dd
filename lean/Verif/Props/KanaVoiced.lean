import Verif.Lemmas.Canonical
import Verif.Model.KanaVoiced
import Verif.Props.Alternations

/-!
# C136, C137: composed and decomposed kana
-/

namespace Cjk

open Py
open Spec (Canon KanaUcd IsSoundMark)

/-! ## C136: what `is_voiced` says about any text -/

theorem isVoicedText_iff (U : Ucd) (s : Str) : isVoicedText U s = true ↔ ∃ b m, IsSoundMark m ∧ nfd U s = [b, m] := by
  unfold isVoicedText
  generalize nfd U s = k
  constructor
  · intro h
    match k with
    | [] => simp at h
    | [a] => simp at h
    | [b, m] => exact ⟨b, m, by simpa [IsSoundMark] using h, rfl⟩
    | a :: b :: c :: k => simp at h
  · rintro ⟨b, m, hm, rfl⟩
    simpa [IsSoundMark] using hm

theorem isSemivoicedText_iff (U : Ucd) (s : Str) : isSemivoicedText U s = true ↔ ∃ b, nfd U s = [b, 0x309a] := by
  unfold isSemivoicedText
  generalize nfd U s = k
  constructor
  · intro h
    match k with
    | [] => simp at h
    | [a] => simp at h
    | [b, m] =>
      have : m = 0x309a := by simpa using h
      exact ⟨b, by rw [this]⟩
    | a :: b :: c :: k => simp at h
  · rintro ⟨b, rfl⟩
    simp

/-- C136: canonically equivalent texts get the same answers, so it does not matter whether kana are composed or decomposed. -/
theorem C136_canonical {U : Ucd} (hU : KanaUcd U) {s t : Str} (h : Canon U s t) :
    isVoicedText U s = isVoicedText U t ∧ isSemivoicedText U s = isSemivoicedText U t := by
  unfold isVoicedText isSemivoicedText
  rw [nfd_of_canon hU.full h]
  exact ⟨rfl, rfl⟩

/-- C136: voiced are exactly the texts that are canonically equivalent to one character with a sound mark behind it (which stays behind it). -/
theorem C136_meaning {U : Ucd} (hU : KanaUcd U) (s : Str) : isVoicedText U s = true ↔
    ∃ b m, IsSoundMark m ∧ U.decomp b = [b] ∧ U.ccc b ≤ 8 ∧ Canon U s [b, m] := by
  rw [isVoicedText_iff]
  constructor
  · rintro ⟨b, m, hm, h⟩
    have hc := canon_nfd hU.full s
    rw [h] at hc
    refine ⟨b, m, hm, ?_, ?_, hc⟩
    · have : b ∈ nfd U s := by rw [h]; simp
      obtain ⟨c, _, hb⟩ := List.mem_flatMap.1 ((canonOrder_perm U _).mem_iff.1 this)
      exact hU.full c b hb
    · rcases (nfd_pair_iff hU hm s).1 ⟨b, h⟩ with ⟨c, b', rfl, h'⟩ | ⟨x, b', rfl, h1, h2⟩ | ⟨x, b', rfl, h1, h2, h3⟩
      · obtain ⟨h1, h2⟩ := decomp_pair hU hm h'
        have h8 := (hU.mark m hm).2
        simp only [nfd, List.flatMap_cons, List.flatMap_nil, List.append_nil, h1, canonOrder_two] at h
        rw [if_neg (by omega)] at h
        injection h with e _
        rw [← e, h2]; omega
      · have h8 := (hU.mark m hm).2
        simp only [nfd, List.flatMap_cons, List.flatMap_nil, List.append_nil, h1, (hU.mark m hm).1, List.singleton_append, canonOrder_two] at h
        rw [if_neg (by omega)] at h
        injection h with e _
        rw [← e]; exact h2
      · have h8 := (hU.mark m hm).2
        simp only [nfd, List.flatMap_cons, List.flatMap_nil, List.append_nil, h1, (hU.mark m hm).1, List.singleton_append, canonOrder_two] at h
        rw [if_pos (by omega)] at h
        injection h with e _
        rw [← e]; omega
  · rintro ⟨b, m, hm, hd, hb, h⟩
    refine ⟨b, m, hm, ?_⟩
    have h8 := (hU.mark m hm).2
    rw [nfd_of_canon hU.full h]
    simp only [nfd, List.flatMap_cons, List.flatMap_nil, List.append_nil, hd, (hU.mark m hm).1, List.singleton_append, canonOrder_two]
    rw [if_neg (by omega)]

/-- C136: the voiced texts, letter by letter: a composed kana; a character and a sound mark (if the character does not sort behind it); or a
sound mark and one of the marks that sort before it. -/
theorem C136_voiced_iff {U : Ucd} (hU : KanaUcd U) (s : Str) : isVoicedText U s = true ↔
    (∃ c b, s = [c] ∧ ((c, b) ∈ Spec.voicedPairs ∨ (c, b) ∈ Spec.semivoicedPairs)) ∨
      ∃ m x b, IsSoundMark m ∧ U.decomp x = [b] ∧ ((s = [x, m] ∧ U.ccc b ≤ 8) ∨ (s = [m, x] ∧ 0 < U.ccc b ∧ U.ccc b < 8)) := by
  rw [isVoicedText_iff]
  constructor
  · rintro ⟨b, m, hm, h⟩
    rcases (nfd_pair_iff hU hm s).1 ⟨b, h⟩ with ⟨c, b', h1, h'⟩ | ⟨x, b', h0, h1, h2⟩ | ⟨x, b', h0, h1, h2⟩
    · refine .inl ⟨c, b', h1, ?_⟩
      unfold Spec.pairsOf at h'
      split at h'
      · exact .inl h'
      · exact .inr h'
    · exact .inr ⟨m, x, b', hm, h1, .inl ⟨h0, h2⟩⟩
    · exact .inr ⟨m, x, b', hm, h1, .inr ⟨h0, h2⟩⟩
  · rintro (⟨c, b, rfl, h | h⟩ | ⟨m, x, b, hm, h, ⟨rfl, hb⟩ | ⟨rfl, hb⟩⟩)
    · obtain ⟨b, hb⟩ := (nfd_pair_iff hU (.inl rfl) [c]).2 (.inl ⟨c, b, rfl, h⟩)
      exact ⟨b, _, .inl rfl, hb⟩
    · obtain ⟨b, hb⟩ := (nfd_pair_iff hU (.inr rfl) [c]).2 (.inl ⟨c, b, rfl, h⟩)
      exact ⟨b, _, .inr rfl, hb⟩
    · obtain ⟨b, hb⟩ := (nfd_pair_iff hU hm [x, m]).2 (.inr (.inl ⟨x, b, rfl, h, hb⟩))
      exact ⟨b, m, hm, hb⟩
    · obtain ⟨b, hb⟩ := (nfd_pair_iff hU hm [m, x]).2 (.inr (.inr ⟨x, b, rfl, h, hb⟩))
      exact ⟨b, m, hm, hb⟩

/-- C136: the semi-voiced texts, likewise. -/
theorem C136_semivoiced_iff {U : Ucd} (hU : KanaUcd U) (s : Str) : isSemivoicedText U s = true ↔
    (∃ c b, s = [c] ∧ (c, b) ∈ Spec.semivoicedPairs) ∨
      ∃ x b, U.decomp x = [b] ∧ ((s = [x, 0x309a] ∧ U.ccc b ≤ 8) ∨ (s = [0x309a, x] ∧ 0 < U.ccc b ∧ U.ccc b < 8)) := by
  rw [isSemivoicedText_iff, nfd_pair_iff hU (.inr rfl)]
  constructor
  · rintro (h | ⟨x, b, h0, h1, h2⟩ | ⟨x, b, h0, h1, h2⟩)
    · exact .inl h
    · exact .inr ⟨x, b, h1, .inl ⟨h0, h2⟩⟩
    · exact .inr ⟨x, b, h1, .inr ⟨h0, h2⟩⟩
  · rintro (h | ⟨x, b, h1, ⟨h0, h2⟩ | ⟨h0, h2⟩⟩)
    · exact .inl h
    · exact .inr (.inl ⟨x, b, h0, h1, h2⟩)
    · exact .inr (.inr ⟨x, b, h0, h1, h2⟩)

/-- C136: on one character this is what the rest of the library sees (`isVoiced`, C16 and C22). -/
theorem C136_character {U : Ucd} (hU : KanaUcd U) (c : Chr) :
    isVoicedText U [c] = isVoiced c ∧ isSemivoicedText U [c] = isSemivoiced c := by
  have e1 : ∀ p ∈ Spec.voicedPairs, p.1 ∈ voicedChars := by decide +kernel
  have e2 : ∀ c ∈ voicedChars, ∃ p ∈ Spec.voicedPairs, p.1 = c := by decide +kernel
  have e3 : ∀ p ∈ Spec.semivoicedPairs, p.1 ∈ semivoicedChars := by decide +kernel
  have e4 : ∀ c ∈ semivoicedChars, ∃ p ∈ Spec.semivoicedPairs, p.1 = c := by decide +kernel
  constructor
  · rw [Bool.eq_iff_iff, C136_voiced_iff hU]
    simp only [isVoiced, Bool.or_eq_true, List.contains_iff_mem]
    constructor
    · rintro (⟨c', b, h, hp⟩ | ⟨m, x, b, _, _, ⟨h, _⟩ | ⟨h, _⟩⟩)
      · injection h with h _
        subst h
        exact hp.imp (e1 _) (e3 _)
      · simp at h
      · simp at h
    · rintro (h | h)
      · obtain ⟨⟨c', b⟩, hp, rfl⟩ := e2 c h
        exact .inl ⟨_, b, rfl, .inl hp⟩
      · obtain ⟨⟨c', b⟩, hp, rfl⟩ := e4 c h
        exact .inl ⟨_, b, rfl, .inr hp⟩
  · rw [Bool.eq_iff_iff, C136_semivoiced_iff hU]
    simp only [isSemivoiced, List.contains_iff_mem]
    constructor
    · rintro (⟨c', b, h, hp⟩ | ⟨x, b, _, ⟨h, _⟩ | ⟨h, _⟩⟩)
      · injection h with h _
        subst h
        exact e3 _ hp
      · simp at h
      · simp at h
    · intro h
      obtain ⟨⟨c', b⟩, hp, rfl⟩ := e4 c h
      exact .inl ⟨_, b, rfl, hp⟩

/-! ## C137: alternations of decomposed kana -/

/-- What Unicode says about the other kana: they are not composed and no marks. -/
def Spec.PlainKana (U : Ucd) : Prop :=
  ∀ c, Spec.IsKana c → (∀ b, (c, b) ∉ Spec.voicedPairs) → (∀ b, (c, b) ∉ Spec.semivoicedPairs) → U.decomp c = [c] ∧ U.ccc c = 0

theorem pairs_injective {m c d b : Chr} (h1 : (c, b) ∈ Spec.pairsOf m) (h2 : (d, b) ∈ Spec.pairsOf m) : c = d := by
  have k1 : ∀ p ∈ Spec.voicedPairs, ∀ q ∈ Spec.voicedPairs, p.2 = q.2 → p.1 = q.1 := by decide +kernel
  have k2 : ∀ p ∈ Spec.semivoicedPairs, ∀ q ∈ Spec.semivoicedPairs, p.2 = q.2 → p.1 = q.1 := by decide +kernel
  unfold Spec.pairsOf at h1 h2
  split at h1
  case isTrue h => rw [if_pos h] at h2; exact k1 _ h1 _ h2 rfl
  case isFalse h => rw [if_neg h] at h2; exact k2 _ h1 _ h2 rfl

theorem not_kana_mark {m : Chr} (hm : IsSoundMark m) : ¬ Spec.IsKana m := by
  rcases hm with rfl | rfl <;> decide +kernel

/-- The decomposition of a kana. -/
theorem kana_decomp {U : Ucd} (hU : KanaUcd U) (hp : Spec.PlainKana U) {c : Chr} (hc : Spec.IsKana c) :
    (U.decomp c = [c] ∧ U.ccc c = 0) ∨ ∃ m b, IsSoundMark m ∧ (c, b) ∈ Spec.pairsOf m ∧ U.decomp c = [b, m] ∧ U.ccc b = 0 := by
  by_cases h1 : ∃ b, (c, b) ∈ Spec.voicedPairs
  · obtain ⟨b, h⟩ := h1
    have hm : IsSoundMark 0x3099 := .inl rfl
    exact .inr ⟨_, b, hm, h, decomp_pair hU hm h⟩
  · by_cases h2 : ∃ b, (c, b) ∈ Spec.semivoicedPairs
    · obtain ⟨b, h⟩ := h2
      have hm : IsSoundMark 0x309a := .inr rfl
      exact .inr ⟨_, b, hm, h, decomp_pair hU hm h⟩
    · exact .inl (hp c hc (fun b hb => h1 ⟨b, hb⟩) (fun b hb => h2 ⟨b, hb⟩))

theorem nfd_kana {U : Ucd} (hU : KanaUcd U) (hp : Spec.PlainKana U) (s : Str) (hs : ∀ c ∈ s, Spec.IsKana c) : nfd U s = s.flatMap U.decomp := by
  have key : ∀ (s : Str), (∀ c ∈ s, Spec.IsKana c) → ∀ acc,
      (s.flatMap U.decomp).foldl (fun acc c => insertMark U c acc) acc = (s.flatMap U.decomp).reverse ++ acc := by
    intro s
    induction s with
    | nil => intro _ acc; rfl
    | cons c s ih =>
      intro hs acc
      have h0 : ∀ x l, U.ccc x = 0 → insertMark U x l = x :: l := by
        intro x l hx
        cases l <;> simp [insertMark, hx]
      rw [List.flatMap_cons, List.foldl_append, ih (fun d hd => hs d (by simp [hd]))]
      rcases kana_decomp hU hp (hs c (by simp)) with ⟨h1, h2⟩ | ⟨m, b, hm, _, h1, h2⟩
      · rw [h1]
        simp [h0 c acc h2]
      · rw [h1]
        have : insertMark U m (b :: acc) = m :: b :: acc := by simp [insertMark, h2]
        simp [h0 b acc h2, this]
  unfold nfd canonOrder
  rw [key s hs []]
  simp

theorem kana_flatMap_inj {U : Ucd} (hU : KanaUcd U) (hp : Spec.PlainKana U) : ∀ (s t : Str), (∀ c ∈ s, Spec.IsKana c) → (∀ c ∈ t, Spec.IsKana c) →
    s.flatMap U.decomp = t.flatMap U.decomp → s = t := by
  -- no kana text begins with a sound mark
  have hfront : ∀ (s : Str), (∀ c ∈ s, Spec.IsKana c) → ∀ m rest, IsSoundMark m → s.flatMap U.decomp ≠ m :: rest := by
    intro s hs m rest hm he
    cases s with
    | nil => cases he
    | cons c s =>
      rcases kana_decomp hU hp (hs c (by simp)) with ⟨h1, h2⟩ | ⟨m', b, hm', _, h1, h2⟩
      · rw [List.flatMap_cons, h1] at he
        injection he with e _
        rw [e, (hU.mark m hm).2] at h2
        cases h2
      · rw [List.flatMap_cons, h1] at he
        injection he with e _
        rw [e, (hU.mark m hm).2] at h2
        cases h2
  intro s
  induction s with
  | nil =>
    intro t _ _ he
    cases t with
    | nil => rfl
    | cons d t =>
      rw [List.flatMap_cons] at he
      have := hU.ne_nil d
      cases hd : U.decomp d with
      | nil => exact absurd hd this
      | cons _ _ => rw [hd] at he; cases he
  | cons c s ih =>
    intro t hs ht he
    have hs' : ∀ d ∈ s, Spec.IsKana d := fun d hd => hs d (by simp [hd])
    cases t with
    | nil =>
      rw [List.flatMap_cons] at he
      have := hU.ne_nil c
      cases hd : U.decomp c with
      | nil => exact absurd hd this
      | cons _ _ => rw [hd] at he; cases he
    | cons d t =>
      have ht' : ∀ d ∈ t, Spec.IsKana d := fun e he => ht e (by simp [he])
      rw [List.flatMap_cons, List.flatMap_cons] at he
      rcases kana_decomp hU hp (hs c (by simp)) with ⟨h1, _⟩ | ⟨m, b, hm, hcb, h1, _⟩ <;>
        rcases kana_decomp hU hp (ht d (by simp)) with ⟨h2, _⟩ | ⟨m', b', hm', hdb, h2, _⟩ <;> rw [h1, h2] at he
      · injection he with e1 e2
        rw [e1, ih t hs' ht' e2]
      · injection he with e1 e2
        exact absurd e2 (hfront s hs' _ _ hm')
      · injection he with e1 e2
        exact absurd e2.symm (hfront t ht' _ _ hm)
      · injection he with e1 e2
        injection e2 with e2 e3
        subst e1; subst e2
        rw [pairs_injective hcb hdb, ih t hs' ht' e3]

/-- C137 (the part that holds): canonically equivalent texts that consist of kana only, without separate sound marks, are the same text, so every
function of the library treats them alike.
Missing for the full property: texts with separate sound marks (see `C137_refuted`). -/
theorem C137_composed_partial {U : Ucd} (hU : KanaUcd U) (hp : Spec.PlainKana U) {s t : Str} (hs : ∀ c ∈ s, Spec.IsKana c)
    (ht : ∀ c ∈ t, Spec.IsKana c) (h : Canon U s t) : s = t := by
  have := nfd_of_canon hU.full h
  rw [nfd_kana hU hp s hs, nfd_kana hU hp t ht] at this
  exact kana_flatMap_inj hU hp s t hs ht this

/-- C137: a segment that begins with a base kana (with its sound mark behind it, or without one) gets no devoiced form: the context on its left has no effect. -/
theorem C137_decomposed (seg s : Str) (k : Chr) (hk : Spec.IsKana k) (hv : ¬ ∃ k', Spec.Voices k' k) (hvu : ¬ Spec.IsVu k) (hseg : seg = k :: s)
    (right : Bool) :
    ∃ l, canonicalSegmentForms seg true right = .ok l ∧ canonicalSegmentForms seg false right = .ok l ∧
      ∀ f, f ∈ l ↔ Spec.Ungeminated right seg f := by
  subst hseg
  have hnv : isVoiced k = false := by
    cases h : isVoiced k with
    | false => rfl
    | true => exact absurd ((isVoiced_iff k hk).1 h) (by rintro (h | h); exacts [hv h, hvu h])
  obtain ⟨l, h1, _, h2⟩ := (C16_canonical_segment_forms_partial (k :: s) false right).2.2 k s rfl hk (by simp)
  refine ⟨l, ?_, h1, fun f => ?_⟩
  · rw [← h1]
    unfold canonicalSegmentForms
    simp [hnv]
  · rw [h2 f]
    unfold Spec.Canonical
    simp

/-- C137: for every voiced or semi-voiced kana `v` with base `k` and every rest, composed and decomposed segment are canonically equivalent, but with context on the left the composed one has
the devoiced form, and the decomposed one no form that is canonically equivalent to it. -/
theorem C137_refuted {U : Ucd} (hU : KanaUcd U) (hp : Spec.PlainKana U) (k v m : Chr) (hm : IsSoundMark m) (hv : Spec.Voices k v)
    (hpair : (v, k) ∈ Spec.pairsOf m) (s : Str) (right : Bool) :
    Canon U (v :: s) (k :: m :: s) ∧ ∃ l l', canonicalSegmentForms (v :: s) true right = .ok l ∧
      canonicalSegmentForms (k :: m :: s) true right = .ok l' ∧ (k :: s) ∈ l ∧ ∀ f ∈ l', ¬ Canon U (k :: s) f := by
  have hk : ∀ p ∈ Spec.voicings, ∀ v ∈ p.2, Spec.IsKana p.1 ∧ Spec.IsKana v ∧ ¬ Spec.IsVu v ∧ ¬ Spec.IsVu p.1 ∧
      (∀ q ∈ Spec.voicings, p.1 ∉ q.2) ∧ (∀ q ∈ Spec.voicedPairs, q.1 ≠ p.1) ∧ ∀ q ∈ Spec.semivoicedPairs, q.1 ≠ p.1 := by decide +kernel
  obtain ⟨p, hpm, rfl, hvp⟩ := hv
  obtain ⟨k1, k2, k3, k4, k5, k6, k7⟩ := hk p hpm v hvp
  have hkd := hp p.1 k1 (fun b hb => k6 _ hb rfl) (fun b hb => k7 _ hb rfl)
  obtain ⟨hd, _⟩ := decomp_pair hU hm hpair
  refine ⟨?_, ?_⟩
  · have := Canon.decompose (U := U) [] v s
    rw [hd] at this
    exact this
  · obtain ⟨l, h1, _, h2⟩ := (C16_canonical_segment_forms_partial (v :: s) true right).2.2 v s rfl k2 (fun h => k3 h.2)
    obtain ⟨l', h3, _, h4⟩ := C137_decomposed (p.1 :: m :: s) (m :: s) p.1 k1
      (by rintro ⟨k', q, hq, _, h⟩; exact k5 q hq h) k4 rfl right
    refine ⟨l, l', h1, h3, ?_, ?_⟩
    · rw [h2]
      exact .inr ⟨rfl, v, p.1, s, .inl rfl, ⟨p, hpm, rfl, hvp⟩, rfl⟩
    · intro f hf hcan
      have hlen := congrArg List.length (nfd_of_canon hU.full hcan)
      simp only [nfd, (canonOrder_perm U _).length_eq] at hlen
      have hone : ∀ c ∈ u!"っッいちりきつくイチリキツク", (U.decomp c).length = 1 := by
        intro c hc
        have key : ∀ c ∈ u!"っッいちりきつくイチリキツク", Spec.IsKana c ∧ (∀ q ∈ Spec.voicedPairs, q.1 ≠ c) ∧ ∀ q ∈ Spec.semivoicedPairs, q.1 ≠ c := by
          decide +kernel
        obtain ⟨a1, a2, a3⟩ := key c hc
        rw [(hp c a1 (fun b hb => a2 _ hb rfl) (fun b hb => a3 _ hb rfl)).1]
        rfl
      rcases (h4 f).1 hf with rfl | ⟨_, c, init, o, he, ho, rfl⟩
      · simp only [List.flatMap_cons, List.length_append, (hU.mark m hm).1, List.length_cons, List.length_nil] at hlen
        omega
      · have e1 := congrArg (fun t => (t.flatMap U.decomp).length) he
        have hs1 : (U.decomp (Spec.sokuonOf c)).length = 1 := hone _ (by unfold Spec.sokuonOf; split <;> simp)
        have ho1 : (U.decomp o).length = 1 := hone _ (by
          unfold Spec.onbinOf at ho
          split at ho <;> revert ho <;> simp <;> omega)
        simp only [List.flatMap_cons, List.flatMap_append, List.flatMap_nil, List.append_nil, List.length_append, (hU.mark m hm).1, List.length_cons,
          List.length_nil, List.cons_append, hs1, ho1] at hlen e1
        omega

/-! ## A database -/

/-- A database that knows only sound marks and kana. -/
def kanaUcd : Ucd where
  decomp c := match Spec.voicedPairs.find? (fun p => p.1 == c) with
    | some p => [p.2, 0x3099]
    | none => match Spec.semivoicedPairs.find? (fun p => p.1 == c) with
      | some p => [p.2, 0x309a]
      | none => [c]
  ccc c := if c = 0x3099 ∨ c = 0x309a then 8 else if c = 0x334 then 1 else if c = 0x301 then 230 else 0

theorem kanaUcd_decomp (c : Chr) : (∃ p ∈ Spec.voicedPairs, p.1 = c ∧ kanaUcd.decomp c = [p.2, 0x3099]) ∨
    (∃ p ∈ Spec.semivoicedPairs, p.1 = c ∧ kanaUcd.decomp c = [p.2, 0x309a]) ∨
    ((∀ p ∈ Spec.voicedPairs, p.1 ≠ c) ∧ (∀ p ∈ Spec.semivoicedPairs, p.1 ≠ c) ∧ kanaUcd.decomp c = [c]) := by
  simp only [kanaUcd]
  cases h1 : Spec.voicedPairs.find? (fun p => p.1 == c) with
  | some p => exact .inl ⟨p, List.mem_of_find?_eq_some h1, by simpa using List.find?_some h1, rfl⟩
  | none =>
    cases h2 : Spec.semivoicedPairs.find? (fun p => p.1 == c) with
    | some p => exact .inr (.inl ⟨p, List.mem_of_find?_eq_some h2, by simpa using List.find?_some h2, rfl⟩)
    | none =>
      refine .inr (.inr ⟨fun p hp => ?_, fun p hp => ?_, rfl⟩)
      · simpa using List.find?_eq_none.1 h1 p hp
      · simpa using List.find?_eq_none.1 h2 p hp

theorem kanaUcd_good : KanaUcd kanaUcd where
  full := by
    intro c d hd
    have k1 : ∀ p ∈ Spec.voicedPairs, kanaUcd.decomp p.2 = [p.2] := by decide +kernel
    have k2 : ∀ p ∈ Spec.semivoicedPairs, kanaUcd.decomp p.2 = [p.2] := by decide +kernel
    have k3 : kanaUcd.decomp 0x3099 = [0x3099] ∧ kanaUcd.decomp 0x309a = [0x309a] := by decide +kernel
    rcases kanaUcd_decomp c with ⟨p, hp, _, h⟩ | ⟨p, hp, _, h⟩ | ⟨_, _, h⟩ <;> rw [h] at hd
    · rcases List.mem_cons.1 hd with e | e
      · rw [e]; exact k1 p hp
      · rw [List.mem_singleton.1 e]; exact k3.1
    · rcases List.mem_cons.1 hd with e | e
      · rw [e]; exact k2 p hp
      · rw [List.mem_singleton.1 e]; exact k3.2
    · rw [List.mem_singleton.1 hd]; exact h
  ne_nil := by
    intro c
    rcases kanaUcd_decomp c with ⟨p, hp, _, h⟩ | ⟨p, hp, _, h⟩ | ⟨_, _, h⟩ <;> rw [h] <;> simp
  voiced := by decide +kernel
  semivoiced := by decide +kernel
  other := by
    intro c m hm hmem
    rcases kanaUcd_decomp c with ⟨p, hp, rfl, _⟩ | ⟨p, hp, rfl, _⟩ | ⟨_, _, h⟩
    · exact .inr (.inl ⟨p.2, hp⟩)
    · exact .inr (.inr ⟨p.2, hp⟩)
    · rw [h] at hmem
      exact .inl (List.mem_singleton.1 hmem).symm
  mark := by rintro m (rfl | rfl) <;> decide +kernel
  base := by decide +kernel

theorem kanaUcd_plain : Spec.PlainKana kanaUcd := by
  intro c hc h1 h2
  refine ⟨?_, ?_⟩
  · rcases kanaUcd_decomp c with ⟨p, hp, rfl, _⟩ | ⟨p, hp, rfl, _⟩ | ⟨_, _, h⟩
    · exact absurd hp (h1 p.2)
    · exact absurd hp (h2 p.2)
    · exact h
  · have : c ≠ 0x3099 ∧ c ≠ 0x309a ∧ c ≠ 0x334 ∧ c ≠ 0x301 := by
      refine ⟨?_, ?_, ?_, ?_⟩ <;> rintro rfl <;> revert hc <;> decide +kernel
    simp [kanaUcd, this]

-- は with a circle is semi-voiced, composed or not; ま with a voiced mark is voiced; two letters are not; a mark may stand before an overlay but not before an accent
example : isSemivoicedText kanaUcd [c!"は", 0x309a] = true ∧ isSemivoicedText kanaUcd [c!"ぱ"] = true ∧ isVoicedText kanaUcd [c!"ま", 0x3099] = true ∧
    isVoicedText kanaUcd u!"がく" = false ∧ isVoicedText kanaUcd [0x3099, 0x334] = true ∧ isVoicedText kanaUcd [0x301, 0x3099] = false := by decide +kernel
example : Canon kanaUcd u!"がく" [c!"か", 0x3099, c!"く"] := .decompose [] c!"が" u!"く"
example : canonicalSegmentForms u!"がく" true false = .ok [u!"がく", u!"かく"] ∧
    canonicalSegmentForms [c!"か", 0x3099, c!"く"] true false = .ok [[c!"か", 0x3099, c!"く"]] := by decide +kernel
example : Spec.Voices c!"は" c!"ぱ" ∧ (c!"ぱ", c!"は") ∈ Spec.pairsOf 0x309a := by decide +kernel

end Cjk
