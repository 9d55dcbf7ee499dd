import Verif.Lemmas.Alternations
import Verif.Props.Scripts
import Verif.Props.KanaTable
/-!
# Properties of `cjktools/alternations.py` (C16 - C22)
-/

namespace Cjk
open Py

/-! ## C22: voicing tables -/

/-- C22: `from_voiced` is the inverse of `to_voiced`, and both are the voicing relation. -/
theorem C22_voicing_inverse (k v : Chr) :
    (fromVoiced.get? v = some k ↔ ∃ vs, toVoiced.get? k = some vs ∧ v ∈ vs) ∧
    (fromVoiced.get? v = some k ↔ Spec.Voices k v) := by
  refine ⟨?_, fromVoiced_get? v k⟩
  rw [fromVoiced_get?, voices_iff]
  constructor
  · intro h
    have hk := (voices_kana ((voices_iff k v).2 h)).1
    exact ⟨_, by rw [toVoiced_get?, if_pos hk], h⟩
  · rintro ⟨vs, h1, h2⟩
    rw [toVoiced_get?] at h1
    split at h1
    · cases h1; exact h2
    · cases h1

/-- C22: a kana has at most one unvoiced source; voicing stays inside the syllabary and commutes with
conversion between the syllabaries. -/
theorem C22_voicing_structure (k v : Chr) (h : Spec.Voices k v) :
    (∀ k', Spec.Voices k' v → k' = k) ∧
    (Spec.InScript .hiragana k ↔ Spec.InScript .hiragana v) ∧
    (Spec.InScript .katakana k ↔ Spec.InScript .katakana v) ∧
    Spec.Voices ((toKatakana [k]).headD 0) ((toKatakana [v]).headD 0) ∧
    Spec.Voices ((toHiragana [k]).headD 0) ((toHiragana [v]).headD 0) := by
  refine ⟨fun k' h' => voices_unique h' h, ?_⟩
  obtain ⟨p, hp, rfl, hv⟩ := h
  have key : ∀ p ∈ Spec.voicings, ∀ v ∈ p.2,
    (Spec.InScript .hiragana p.1 ↔ Spec.InScript .hiragana v) ∧
    (Spec.InScript .katakana p.1 ↔ Spec.InScript .katakana v) ∧
    Spec.Voices ((toKatakana [p.1]).headD 0) ((toKatakana [v]).headD 0) ∧
    Spec.Voices ((toHiragana [p.1]).headD 0) ((toHiragana [v]).headD 0) := by decide +kernel
  exact key p hp v hv

/-- C22: the tables cover exactly the two syllabaries, and building them does not raise. -/
theorem C22_tables_total (c : Chr) :
    createVoicingMap = .ok toVoiced ∧ ((toVoiced.get? c).isSome ↔ Spec.IsKana c) := by
  refine ⟨createVoicingMap_ok, ?_⟩
  rw [toVoiced_get?]; split <;> simp_all

/-- C22: on kana, `is_voiced` recognises exactly the voiced and semi-voiced forms of the tables and the two
characters ゔ, ヴ (which have no unvoiced partner in the tables); `is_semivoiced` exactly the h-row forms
with the small circle. -/
theorem C22_is_voiced (c : Chr) (hc : Spec.IsKana c) :
    (isVoiced c = true ↔ (∃ k, Spec.Voices k c) ∨ Spec.IsVu c) ∧
    (isSemivoiced c = true ↔ ∃ k b, (k, [b, c]) ∈ Spec.voicings) := by
  refine ⟨isVoiced_iff c hc, ?_⟩
  constructor
  · intro h
    have key : ∀ c ∈ semivoicedChars, ∃ p ∈ Spec.voicings, p.2.length = 2 ∧ p.2.getD 1 0 = c := by
      decide +kernel
    obtain ⟨⟨k, l⟩, hp, h1, h2⟩ := key c (by simpa [isSemivoiced] using h)
    match l, h1 with
    | [b, d], _ => exact ⟨k, b, by simp only [List.getD_eq_getElem?_getD] at h2; simp at h2; subst h2; exact hp⟩
  · rintro ⟨k, b, h⟩
    have key : ∀ p ∈ Spec.voicings, p.2.length = 2 → isSemivoiced (p.2.getD 1 0) = true := by
      decide +kernel
    exact key _ h rfl

example : Spec.Voices c!"は" c!"ぱ" ∧ toVoiced.get? c!"ハ" = some u!"バパ" := by decide +kernel

/-! ## C16: canonical_segment_forms -/

/-- C16 (the part that holds).  On a segment starting with a kana the call fails only when voicing
has to be undone and the first character is ゔ or ヴ; otherwise the result is exactly the set of
canonical forms.  On all other segments it raises `ValueError`.
Missing for the full property: success on ゔ/ヴ (see `C16_vu_raises`). -/
theorem C16_canonical_segment_forms_partial (seg : Str) (left right : Bool) :
    ((seg = [] ∨ ∃ c s, seg = c :: s ∧ ¬ Spec.IsKana c) →
      canonicalSegmentForms seg left right = .error .valueError) ∧
    (∀ c s, seg = c :: s → Spec.IsKana c → (left = true ∧ Spec.IsVu c) →
      canonicalSegmentForms seg left right = .error .keyError) ∧
    (∀ c s, seg = c :: s → Spec.IsKana c → ¬ (left = true ∧ Spec.IsVu c) →
      ∃ l, canonicalSegmentForms seg left right = .ok l ∧ l.Nodup ∧
        ∀ form, form ∈ l ↔ Spec.Canonical left right seg form) := by
  refine ⟨?_, ?_, ?_⟩
  · rintro (rfl | ⟨c, s, rfl, hc⟩)
    · rfl
    · simp only [canonicalSegmentForms, maps_of_not_kana hc s]
  · rintro c s rfl hc ⟨rfl, hvu⟩
    obtain ⟨h1, h2⟩ := maps_of_kana hc s
    have hv : isVoiced c = true := (isVoiced_iff c hc).2 (Or.inr hvu)
    simp only [canonicalSegmentForms, h1, h2, if_true, hv]
    have hhead : ∀ f ∈ ungem (c :: s) right (Spec.sokuonOf c) (Spec.onbinOf c), devoiceHead f = .error .keyError := by
      intro f hf
      obtain ⟨t, rfl⟩ := ungeminated_head ((mem_ungem c s right f).1 hf)
      have : fromVoiced.get? c = none := by
        cases hg : fromVoiced.get? c with
        | none => rfl
        | some k => exact absurd ((fromVoiced_get? c k).1 hg) (not_voices_vu hvu)
      simp only [devoiceHead, Dict.getItem, this]; rfl
    have herr : mapE devoiceHead (ungem (c :: s) right (Spec.sokuonOf c) (Spec.onbinOf c)) = .error .keyError := by
      cases hl : ungem (c :: s) right (Spec.sokuonOf c) (Spec.onbinOf c) with
      | nil => have := ungem_ne_nil (c :: s) right (Spec.sokuonOf c) (Spec.onbinOf c); rw [hl] at this; simp at this
      | cons f fs => simp only [mapE, hhead f (by rw [hl]; simp)]; rfl
    exact (by
      show (mapE devoiceHead (ungem (c :: s) right (Spec.sokuonOf c) (Spec.onbinOf c)) >>= fun extra =>
        Except.ok (dedup (ungem (c :: s) right (Spec.sokuonOf c) (Spec.onbinOf c) ++ extra))) = _
      rw [herr]; rfl)
  · rintro c s rfl hc hnvu
    obtain ⟨h1, h2⟩ := maps_of_kana hc s
    simp only [canonicalSegmentForms, h1, h2]
    cases left with
    | false =>
      refine ⟨ungem (c :: s) right (Spec.sokuonOf c) (Spec.onbinOf c), by rfl, nodup_ungem _ _ _ _, ?_⟩
      intro form
      rw [mem_ungem]; simp [Spec.Canonical]
    | true =>
      simp only [if_true]
      by_cases hv : isVoiced c = true
      · simp only [hv, if_true]
        have hk : ∃ k, Spec.Voices k c := by
          rcases (isVoiced_iff c hc).1 hv with h | h
          · exact h
          · exact absurd ⟨rfl, h⟩ hnvu
        obtain ⟨k, hk⟩ := hk
        have hok : mapE devoiceHead (ungem (c :: s) right (Spec.sokuonOf c) (Spec.onbinOf c)) =
            .ok ((ungem (c :: s) right (Spec.sokuonOf c) (Spec.onbinOf c)).map (fun f => k :: f.tail)) := by
          apply mapE_ok
          intro f hf
          obtain ⟨t, rfl⟩ := ungeminated_head ((mem_ungem c s right f).1 hf)
          simp only [devoiceHead, Dict.getItem, (fromVoiced_get? c k).2 hk]; rfl
        refine ⟨dedup (ungem (c :: s) right (Spec.sokuonOf c) (Spec.onbinOf c) ++
          (ungem (c :: s) right (Spec.sokuonOf c) (Spec.onbinOf c)).map (fun f => k :: f.tail)), ?_, nodup_dedup _, ?_⟩
        · show (mapE devoiceHead (ungem (c :: s) right (Spec.sokuonOf c) (Spec.onbinOf c)) >>= fun extra =>
            Except.ok (dedup (ungem (c :: s) right (Spec.sokuonOf c) (Spec.onbinOf c) ++ extra))) = _
          rw [hok]; rfl
        · intro form
          rw [mem_dedup, List.mem_append, mem_ungem, List.mem_map]
          unfold Spec.Canonical
          apply or_congr Iff.rfl
          constructor
          · rintro ⟨f, hf, rfl⟩
            have hu := (mem_ungem c s right f).1 hf
            obtain ⟨t, rfl⟩ := ungeminated_head hu
            exact ⟨rfl, c, k, t, hu, hk, rfl⟩
          · rintro ⟨_, v, k', t, hu, hk', rfl⟩
            obtain ⟨t', e⟩ := ungeminated_head hu
            simp only [List.cons.injEq] at e
            obtain ⟨rfl, rfl⟩ := e
            have := voices_unique hk' hk
            subst this
            exact ⟨v :: t, (mem_ungem _ _ _ _).2 hu, rfl⟩
      · simp only [hv, Bool.false_eq_true, if_false]
        refine ⟨ungem (c :: s) right (Spec.sokuonOf c) (Spec.onbinOf c), by rfl, nodup_ungem _ _ _ _, ?_⟩
        intro form
        rw [mem_ungem]
        unfold Spec.Canonical
        constructor
        · exact Or.inl
        · rintro (h | ⟨_, v, k, t, hu, hk, rfl⟩)
          · exact h
          · obtain ⟨t', e⟩ := ungeminated_head hu
            simp only [List.cons.injEq] at e
            obtain ⟨rfl, rfl⟩ := e
            exact absurd ((isVoiced_iff v hc).2 (Or.inl ⟨k, hk⟩)) hv

/-- The unrestricted property fails: ゔ and ヴ are kana, but the call raises `KeyError`. -/
theorem C16_vu_raises (right : Bool) (s : Str) :
    canonicalSegmentForms (c!"ゔ" :: s) true right = .error .keyError ∧
    canonicalSegmentForms (c!"ヴ" :: s) true right = .error .keyError ∧
    Spec.IsKana c!"ゔ" ∧ Spec.IsKana c!"ヴ" :=
  ⟨(C16_canonical_segment_forms_partial _ true right).2.1 _ s rfl (by decide) ⟨rfl, by decide⟩,
   (C16_canonical_segment_forms_partial _ true right).2.1 _ s rfl (by decide) ⟨rfl, by decide⟩,
   by decide, by decide⟩

example : Spec.Canonical true true u!"がっ" u!"かく" ∧ ¬ (true = true ∧ Spec.IsVu c!"が") := by
  refine ⟨Or.inr ⟨rfl, c!"が", c!"か", u!"く", Or.inr ⟨rfl, c!"が", [], c!"く", by decide, by decide, by decide⟩,
    by decide, rfl⟩, by decide⟩

/-! ## C19: canonical_forms -/

/-- Left context unless first, right context unless last. -/
def Spec.InContext (segs form : List Str) : Prop :=
  form.length = segs.length ∧ ∀ i seg f, segs[i]? = some seg → form[i]? = some f →
    Spec.Canonical (decide (0 < i)) (decide (i + 1 < segs.length)) seg f

/-- The segments on which `canonical_forms` works: every segment starts with a kana, and the later
ones not with ゔ or ヴ. -/
def Spec.GoodSegments (segs : List Str) : Prop :=
  ∀ i seg, segs[i]? = some seg → ∃ c s, seg = c :: s ∧ Spec.IsKana c ∧ (0 < i → ¬ Spec.IsVu c)

theorem canonicalSets_ok (n i : Nat) (segs : List Str)
    (h : ∀ j seg, segs[j]? = some seg → ∃ c s, seg = c :: s ∧ Spec.IsKana c ∧ (0 < i + j → ¬ Spec.IsVu c)) :
    ∃ sets, canonicalSets n i segs = .ok sets ∧ sets.length = segs.length ∧
      ∀ j seg, segs[j]? = some seg → ∃ l, sets[j]? = some l ∧
        canonicalSegmentForms seg (decide (i + j > 0)) (decide ((i + j : Int) < (n : Int) - 1)) = .ok l := by
  induction segs generalizing i with
  | nil => exact ⟨[], rfl, rfl, by simp⟩
  | cons seg segs ih =>
    obtain ⟨c, s, e, hc, hv⟩ := h 0 seg rfl
    subst e
    have := (C16_canonical_segment_forms_partial (c :: s) (decide (i > 0)) (decide ((i : Int) < (n : Int) - 1))).2.2
      c s rfl hc (by simp only [decide_eq_true_eq]; rintro ⟨h1, h2⟩; exact hv h1 h2)
    obtain ⟨l, hl, _, _⟩ := this
    obtain ⟨sets, h1, h2, h3⟩ := ih (i + 1) (fun j seg hj => by
      have := h (j + 1) seg (by simpa using hj)
      rwa [show i + (j + 1) = i + 1 + j by omega] at this)
    refine ⟨l :: sets, ?_, by simp [h2], ?_⟩
    · simp only [canonicalSets, hl, h1]; rfl
    · intro j seg' hj
      cases j with
      | zero => simp at hj; subst hj; exact ⟨l, rfl, by simpa using hl⟩
      | succ j =>
        obtain ⟨l', h4, h5⟩ := h3 j seg' (by simpa using hj)
        refine ⟨l', by simpa using h4, ?_⟩
        rw [← h5]; congr 1
        · congr 1; rw [show i + (j + 1) = i + 1 + j by omega]
        · congr 1; simp; omega

theorem forall₂_iff_getElem {α β : Type} {R : α → β → Prop} {l : List α} {l' : List β} :
    List.Forall₂ R l l' ↔ l.length = l'.length ∧ ∀ (i : Nat) a b, l[i]? = some a → l'[i]? = some b → R a b := by
  constructor
  · intro h
    induction h with
    | nil => simp
    | cons hab _ ih =>
      refine ⟨by simp [ih.1], ?_⟩
      intro i a b ha hb
      cases i with
      | zero => simp at ha hb; subst ha; subst hb; exact hab
      | succ i => exact ih.2 i a b (by simpa using ha) (by simpa using hb)
  · induction l generalizing l' with
    | nil => rintro ⟨h, _⟩; cases l' <;> simp_all
    | cons a l ih =>
      rintro ⟨h, h2⟩
      cases l' with
      | nil => simp at h
      | cons b l' =>
        refine List.Forall₂.cons (h2 0 a b rfl rfl) (ih ⟨by simpa using h, fun i x y hx hy => ?_⟩)
        exact h2 (i + 1) x y (by simpa using hx) (by simpa using hy)

/-- For lists of the canonical forms of each segment, the product lists the combinations. -/
theorem product_inContext (segs : List Str) (sets : List (List Str)) (h2 : sets.length = segs.length)
    (hset : ∀ (j : Nat) seg l, segs[j]? = some seg → sets[j]? = some l → l.Nodup ∧
      ∀ form, form ∈ l ↔ Spec.Canonical (decide (0 < j)) (decide (j + 1 < segs.length)) seg form) :
    (product sets).Nodup ∧ ∀ form, form ∈ product sets ↔ Spec.InContext segs form := by
  constructor
  · apply nodup_product
    intro s hs
    obtain ⟨j, hj, rfl⟩ := List.getElem_of_mem hs
    have hj' : j < segs.length := by rw [← h2]; exact hj
    exact (hset j segs[j] sets[j] (List.getElem?_eq_getElem hj') (List.getElem?_eq_getElem hj)).1
  · intro form
    rw [mem_product, forall₂_iff_getElem]
    unfold Spec.InContext
    rw [h2]
    apply and_congr Iff.rfl
    constructor
    · intro hh i seg f hs hf
      have hi : i < sets.length := by
        rw [h2]; exact (List.getElem?_eq_some_iff.1 hs).1
      have hl : sets[i]? = some sets[i] := List.getElem?_eq_getElem hi
      exact ((hset i seg _ hs hl).2 f).1 (hh i f _ hf hl)
    · intro hh i f l hf hl
      have hi : i < segs.length := by
        rw [← h2]; exact (List.getElem?_eq_some_iff.1 hl).1
      have hs : segs[i]? = some segs[i] := List.getElem?_eq_getElem hi
      exact ((hset i _ l hs hl).2 f).2 (hh i _ f hs hf)

/-- Good segments have such lists, and `canonical_forms` makes them. -/
theorem sets_exist (segs : List Str) (h : Spec.GoodSegments segs) :
    ∃ sets : List (List Str), canonicalSets segs.length 0 segs = .ok sets ∧ sets.length = segs.length ∧
      ∀ (j : Nat) seg l, segs[j]? = some seg → sets[j]? = some l → l.Nodup ∧
        ∀ form, form ∈ l ↔ Spec.Canonical (decide (0 < j)) (decide (j + 1 < segs.length)) seg form := by
  obtain ⟨sets, h1, h2, h3⟩ := canonicalSets_ok segs.length 0 segs (fun j seg hj => by simpa using h j seg hj)
  refine ⟨sets, h1, h2, ?_⟩
  intro j seg l hj hl
  obtain ⟨l', h4, h5⟩ := h3 j seg hj
  rw [hl] at h4; cases h4
  obtain ⟨c, s, rfl, hc, hv⟩ := h j seg hj
  have e1 : decide (0 + j > 0) = decide (0 < j) := by simp
  have e2 : decide (((0 : Nat) : Int) + (j : Int) < (segs.length : Int) - 1) = decide (j + 1 < segs.length) := by
    rw [decide_eq_decide]; omega
  rw [e1, e2] at h5
  obtain ⟨l2, h6, h7, h8⟩ := (C16_canonical_segment_forms_partial (c :: s) (decide (0 < j))
    (decide (j + 1 < segs.length))).2.2 c s rfl hc (by simp only [decide_eq_true_eq]; rintro ⟨a, b⟩; exact hv a b)
  rw [h5] at h6; cases h6
  exact ⟨h7, h8⟩

/-- C19: on good segments (also none at all) `canonical_forms` lists exactly the context-respecting
combinations of canonical segment forms, without duplicates, including the input. -/
theorem C19_canonical_forms_exact (segs : List Str) (h : Spec.GoodSegments segs) :
    ∃ l, canonicalForms segs = .ok l ∧ l.Nodup ∧ segs ∈ l ∧ ∀ form, form ∈ l ↔ Spec.InContext segs form := by
  obtain ⟨sets, h1, h2, hset⟩ := sets_exist segs h
  obtain ⟨hnd, hmem⟩ := product_inContext segs sets h2 hset
  refine ⟨product sets, ?_, hnd, ?_, hmem⟩
  · simp only [canonicalForms, h1]; rfl
  · rw [hmem]
    refine ⟨rfl, ?_⟩
    intro i seg f h1 h2
    rw [h1] at h2; cases h2
    exact Or.inl (Or.inl rfl)

/-- C19: the number of forms is the product of the numbers of canonical forms of the segments in their contexts: `sets` lists those
forms, segment by segment and without duplicates. -/
theorem C19_canonical_forms_count (segs : List Str) (h : Spec.GoodSegments segs) (l : List (List Str))
    (hl : canonicalForms segs = .ok l) (sets : List (List Str)) (hlen : sets.length = segs.length)
    (hset : ∀ (j : Nat) seg s, segs[j]? = some seg → sets[j]? = some s → s.Nodup ∧
      ∀ form, form ∈ s ↔ Spec.Canonical (decide (0 < j)) (decide (j + 1 < segs.length)) seg form) :
    l.length = (sets.map List.length).foldr (· * ·) 1 := by
  obtain ⟨l', h1, h2, _, h3⟩ := C19_canonical_forms_exact segs h
  rw [hl] at h1
  cases h1
  obtain ⟨hnd, hmem⟩ := product_inContext segs sets hlen hset
  rw [← length_product sets]
  exact ((List.perm_ext_iff_of_nodup h2 hnd).2 (fun f => (h3 f).trans (hmem f).symm)).length_eq

theorem canonicalSets_error (n i : Nat) (segs : List Str) (j : Nat) (seg : Str) (hj : segs[j]? = some seg)
    (hbad : ∀ l, canonicalSegmentForms seg (decide (i + j > 0)) (decide ((i + j : Int) < (n : Int) - 1)) ≠ .ok l) :
    ∀ l, canonicalSets n i segs ≠ .ok l := by
  induction segs generalizing i j with
  | nil => simp at hj
  | cons s segs ih =>
    intro l hl
    simp only [canonicalSets] at hl
    cases h1 : canonicalSegmentForms s (decide (i > 0)) (decide ((i : Int) < (n : Int) - 1)) with
    | error e => rw [h1] at hl; cases hl
    | ok v =>
      cases h2 : canonicalSets n (i + 1) segs with
      | error e => rw [h1, h2] at hl; cases hl
      | ok rest =>
        cases j with
        | zero => simp at hj; subst hj; exact hbad v (by simpa using h1)
        | succ j =>
          refine ih (i + 1) j (by simpa using hj) ?_ rest h2
          intro l' hl'
          apply hbad l'
          rw [← hl']; congr 1
          · congr 1; rw [show i + (j + 1) = i + 1 + j by omega]
          · congr 1; simp; omega

/-- C19: conversely the call fails when some segment is not good. -/
theorem C19_canonical_forms_domain (segs : List Str) (l : List (List Str)) (hl : canonicalForms segs = .ok l) :
    Spec.GoodSegments segs := by
  have hs : ∃ sets, canonicalSets segs.length 0 segs = .ok sets := by
    simp only [canonicalForms] at hl
    cases h : canonicalSets segs.length 0 segs with
    | ok sets => exact ⟨sets, rfl⟩
    | error e => rw [h] at hl; cases hl
  obtain ⟨sets, hs⟩ := hs
  intro i seg hi
  have hgood : ∃ l, canonicalSegmentForms seg (decide (0 + i > 0)) (decide ((((0 : Nat) : Int) + (i : Int)) < (segs.length : Int) - 1)) = .ok l := by
    apply Classical.byContradiction
    intro hn
    exact canonicalSets_error segs.length 0 segs i seg hi (fun l hl => hn ⟨l, hl⟩) sets hs
  obtain ⟨l', hl'⟩ := hgood
  have hp := C16_canonical_segment_forms_partial seg (decide (0 + i > 0)) (decide ((((0 : Nat) : Int) + (i : Int)) < (segs.length : Int) - 1))
  cases seg with
  | nil => rw [hp.1 (Or.inl rfl)] at hl'; cases hl'
  | cons c s =>
    by_cases hc : Spec.IsKana c
    · refine ⟨c, s, rfl, hc, ?_⟩
      intro h0 hv
      rw [hp.2.1 c s rfl hc ⟨by simpa using h0, hv⟩] at hl'; cases hl'
    · rw [hp.1 (Or.inr ⟨c, s, rfl, hc⟩)] at hl'; cases hl'

example : Spec.GoodSegments [u!"がっ", u!"こう"] ∧ Spec.InContext [u!"がっ", u!"ごう"] [u!"がく", u!"こう"] := by
  constructor
  · intro i seg h
    match i with
    | 0 => simp at h; subst h; exact ⟨c!"が", u!"っ", rfl, by decide, by simp⟩
    | 1 => simp at h; subst h; exact ⟨c!"こ", u!"う", rfl, by decide, by decide⟩
    | i + 2 => simp at h
  · refine ⟨rfl, ?_⟩
    intro i seg f h h'
    match i with
    | 0 =>
      simp at h h'; subst h; subst h'
      exact Or.inl (Or.inr ⟨by simp, c!"が", [], c!"く", by decide, by decide, rfl⟩)
    | 1 =>
      simp at h h'; subst h; subst h'
      exact Or.inr ⟨by simp, c!"ご", c!"こ", u!"う", Or.inl rfl, by decide, rfl⟩
    | i + 2 => simp at h

/-! ## C17: surface_forms -/

/-- Domain of `onbin_variants`: at most one character, or a kana first. -/
def Spec.OnbinOk (seg : Str) : Prop := seg.length ≤ 1 ∨ ∃ c s, seg = c :: s ∧ Spec.IsKana c

theorem sokuon_getItem {c : Chr} (h : Spec.IsKana c) (s : Str) :
    sokuonMap.getItem (scriptType (c :: s)) = .ok (Spec.sokuonOf c) := by
  simp only [Dict.getItem, (maps_of_kana h s).1]

theorem onbinVariants_spec (seg : Str) :
    (Spec.OnbinOk seg → ∃ l, onbinVariants seg = .ok l ∧ l.Nodup ∧ ∀ f, f ∈ l ↔ Spec.OnbinForm seg f) ∧
    (¬ Spec.OnbinOk seg → onbinVariants seg = .error .keyError) := by
  constructor
  · intro h
    unfold onbinVariants
    by_cases hl : seg.length > 1
    · rw [if_pos hl]
      obtain ⟨c, s, rfl, hc⟩ : ∃ c s, seg = c :: s ∧ Spec.IsKana c := by
        rcases h with h | h
        · omega
        · exact h
      rw [sokuon_getItem hc s]
      refine ⟨_, rfl, nodup_dedup _, ?_⟩
      intro f
      rw [mem_dedup]
      simp only [List.mem_cons, List.not_mem_nil, or_false]
      unfold Spec.OnbinForm
      apply or_congr Iff.rfl
      obtain ⟨init, l, e⟩ : ∃ init l, s = init ++ [l] := by
        have : s ≠ [] := by rintro rfl; simp at hl
        exact ⟨s.dropLast, s.getLast this, (List.dropLast_concat_getLast this).symm⟩
      subst e
      have hd : (c :: (init ++ [l])).dropLast = c :: init := by
        rw [show c :: (init ++ [l]) = (c :: init) ++ [l] by simp, List.dropLast_concat]
      rw [hd]
      constructor
      · rintro rfl; exact ⟨c, init, l, by simp, by simp⟩
      · rintro ⟨c', init', l', h1, rfl⟩
        have h1' : c :: (init ++ [l]) = c' :: (init' ++ [l']) := by simpa using h1
        simp only [List.cons.injEq] at h1'
        obtain ⟨rfl, h2⟩ := h1'
        have := List.append_inj_left' h2 (by simp)
        rw [this]
    · rw [if_neg hl]
      refine ⟨_, rfl, by simp, ?_⟩
      intro f
      unfold Spec.OnbinForm
      simp only [List.mem_singleton]
      constructor
      · exact Or.inl
      · rintro (h | ⟨c, init, l, rfl, _⟩)
        · exact h
        · simp at hl
  · intro h
    unfold Spec.OnbinOk at h
    have hl : seg.length > 1 := by
      rcases Nat.lt_or_ge 1 seg.length with h' | h'
      · exact h'
      · exact absurd (Or.inl h') h
    unfold onbinVariants
    rw [if_pos hl]
    cases seg with
    | nil => simp at hl
    | cons c s =>
      have hc : ¬ Spec.IsKana c := fun hc => h (Or.inr ⟨c, s, rfl, hc⟩)
      simp only [Dict.getItem, maps_of_not_kana hc s]; rfl

theorem rendakuVariants_spec (seg : Str) :
    (∀ c s, seg = c :: s → Spec.IsKana c → ∃ l, rendakuVariants seg = .ok l ∧ l.Nodup ∧
      ∀ f, f ∈ l ↔ Spec.RendakuForm seg f) ∧
    (∀ c s, seg = c :: s → ¬ Spec.IsKana c → rendakuVariants seg = .error .keyError) ∧
    (seg = [] → rendakuVariants seg = .error .indexError) := by
  refine ⟨?_, ?_, ?_⟩
  · rintro c s rfl hc
    have : toVoiced.getItem c = .ok ((Dict.get? Spec.voicings c).getD []) := by
      simp only [Dict.getItem, toVoiced_get?, if_pos hc]
    simp only [rendakuVariants, this]
    refine ⟨_, rfl, nodup_dedup _, ?_⟩
    intro f
    rw [mem_dedup]
    simp only [List.mem_cons, List.mem_map]
    unfold Spec.RendakuForm
    apply or_congr Iff.rfl
    constructor
    · rintro ⟨v, hv, rfl⟩; exact ⟨c, v, s, rfl, (voices_iff c v).2 hv, rfl⟩
    · rintro ⟨k, v, t, e, hv, rfl⟩
      simp only [List.cons.injEq] at e
      obtain ⟨rfl, rfl⟩ := e
      exact ⟨v, (voices_iff _ _).1 hv, rfl⟩
  · rintro c s rfl hc
    simp only [rendakuVariants, Dict.getItem, toVoiced_get?, if_neg hc]; rfl
  · rintro rfl; rfl

/-- A segment starts with a kana. -/
def Spec.KanaStart (seg : Str) : Prop := ∃ c s, seg = c :: s ∧ Spec.IsKana c

theorem rendaku_exists (seg : Str) (h : Spec.KanaStart seg) : ∃ l, rendakuVariants seg = .ok l ∧ l.Nodup ∧
      ∀ f, f ∈ l ↔ Spec.RendakuForm seg f := by
  obtain ⟨c, s, e, hc⟩ := h
  exact (rendakuVariants_spec seg).1 c s e hc

/-- C17: on its domain `surface_forms` lists exactly the combinations of surface forms, without
duplicates. -/
theorem C17_surface_forms_exact (s0 : Str) (segs : List Str) (h0 : Spec.OnbinOk s0)
    (h : ∀ s ∈ segs, Spec.KanaStart s) :
    ∃ l, surfaceForms (s0 :: segs) = .ok l ∧ l.Nodup ∧ ∀ form, form ∈ l ↔
      ∃ f0 fs, form = f0 :: fs ∧ Spec.OnbinForm s0 f0 ∧ List.Forall₂ Spec.RendakuForm segs fs := by
  obtain ⟨l0, e0, n0, m0⟩ := (onbinVariants_spec s0).1 h0
  have hr : ∃ sets, mapE rendakuVariants segs = .ok sets ∧ (∀ s ∈ sets, s.Nodup) ∧
      ∀ fs, List.Forall₂ (fun a s => a ∈ s) fs sets ↔ List.Forall₂ Spec.RendakuForm segs fs := by
    clear e0 n0 m0 h0
    induction segs with
    | nil =>
      refine ⟨[], rfl, by simp, ?_⟩
      intro fs
      constructor
      · intro h; cases h; exact List.Forall₂.nil
      · intro h; cases h; exact List.Forall₂.nil
    | cons s segs ih =>
      obtain ⟨sets, h1, h2, h3⟩ := ih (fun x hx => h x (by simp [hx]))
      obtain ⟨l, hl, hn, hm⟩ := rendaku_exists s (h s (by simp))
      refine ⟨l :: sets, by simp only [mapE, hl, h1]; rfl, ?_, ?_⟩
      · intro x hx
        rcases List.mem_cons.1 hx with rfl | hx
        · exact hn
        · exact h2 x hx
      · intro fs
        constructor
        · intro hf; cases hf with
          | cons ha hr => exact List.Forall₂.cons ((hm _).1 ha) ((h3 _).1 hr)
        · intro hf; cases hf with
          | cons ha hr => exact List.Forall₂.cons ((hm _).2 ha) ((h3 _).2 hr)
  obtain ⟨sets, h1, h2, h3⟩ := hr
  refine ⟨product (l0 :: sets), by simp only [surfaceForms, e0, h1]; rfl, ?_, ?_⟩
  · apply nodup_product
    intro x hx
    rcases List.mem_cons.1 hx with rfl | hx
    · exact n0
    · exact h2 x hx
  · intro form
    rw [mem_product]
    constructor
    · intro hf
      cases hf with
      | cons ha hr => exact ⟨_, _, rfl, (m0 _).1 ha, (h3 _).1 hr⟩
    · rintro ⟨f0, fs, rfl, a, b⟩
      exact List.Forall₂.cons ((m0 _).2 a) ((h3 _).2 b)

/-- C17: outside the domain: no segments or an empty later segment give `IndexError`, a segment
without kana start `KeyError` (the first offender decides). -/
theorem C17_surface_forms_errors :
    surfaceForms [] = .error .indexError ∧
    (∀ s0 segs, ¬ Spec.OnbinOk s0 → surfaceForms (s0 :: segs) = .error .keyError) ∧
    (∀ s0 pre bad post, Spec.OnbinOk s0 → (∀ s ∈ pre, Spec.KanaStart s) → ¬ Spec.KanaStart bad →
      surfaceForms (s0 :: (pre ++ bad :: post)) =
        .error (if bad = [] then .indexError else .keyError)) := by
  refine ⟨rfl, ?_, ?_⟩
  · intro s0 segs h
    simp only [surfaceForms, (onbinVariants_spec s0).2 h]; rfl
  · intro s0 pre bad post h0 hpre hbad
    obtain ⟨l0, e0, _, _⟩ := (onbinVariants_spec s0).1 h0
    have hb : rendakuVariants bad = .error (if bad = [] then .indexError else .keyError) := by
      cases bad with
      | nil => simpa using (rendakuVariants_spec []).2.2 rfl
      | cons c s =>
        have hc : ¬ Spec.IsKana c := fun hc => hbad ⟨c, s, rfl, hc⟩
        simpa using (rendakuVariants_spec (c :: s)).2.1 c s rfl hc
    have := (mapE_error_iff (f := rendakuVariants) (l := pre ++ bad :: post)
      (e := if bad = [] then .indexError else .keyError)).2 ⟨pre, bad, post, rfl, hb, fun x hx => by
        obtain ⟨l, hl, _⟩ := rendaku_exists x (hpre x hx); exact ⟨l, hl⟩⟩
    simp only [surfaceForms, e0, this]; rfl

example : Spec.OnbinOk u!"がく" ∧ Spec.KanaStart u!"こう" ∧
    surfaceForms [u!"がく", u!"こう"] =
      .ok [[u!"がく", u!"こう"], [u!"がく", u!"ごう"], [u!"がっ", u!"こう"], [u!"がっ", u!"ごう"]] := by
  refine ⟨Or.inr ⟨_, _, rfl, by decide⟩, ⟨_, _, rfl, by decide⟩, by decide +kernel⟩

/-! ## C18: canonical_forms undoes surface_forms -/

theorem onbinForm_head {seg f : Str} (h : Spec.OnbinForm seg f) {c : Chr} {s : Str} (hs : seg = c :: s) :
    ∃ t, f = c :: t := by
  rcases h with rfl | ⟨c', init, l, h1, rfl⟩
  · exact ⟨s, hs⟩
  · rw [hs] at h1
    simp only [List.cons_append, List.cons.injEq] at h1
    exact ⟨init ++ [Spec.sokuonOf c'], by simp [h1.1]⟩

/-- C18: every reading is recovered from each of its surface forms, provided it has at least two
segments, every segment starts with a kana (a later one not with ゔ/ヴ), and its first segment, if
geminated, ended in one of the six onbin kana. -/
theorem C18_canonical_undoes_surface (s0 : Str) (segs : List Str) (hne : segs ≠ [])
    (hgood : Spec.GoodSegments (s0 :: segs)) (l : List (List Str))
    (hl : surfaceForms (s0 :: segs) = .ok l) (f0 : Str) (fs : List Str) (hf : f0 :: fs ∈ l)
    (honbin : f0 ≠ s0 → ∃ c init o, s0 = c :: init ++ [o] ∧ o ∈ Spec.onbinOf c) :
    ∃ l', canonicalForms (f0 :: fs) = .ok l' ∧ (s0 :: segs) ∈ l' := by
  obtain ⟨c0, t0, hs0, hc0, _⟩ := hgood 0 s0 rfl
  have hrest : ∀ s ∈ segs, ∃ c t, s = c :: t ∧ Spec.IsKana c ∧ ¬ Spec.IsVu c := by
    intro s hs
    obtain ⟨j, hj, rfl⟩ := List.getElem_of_mem hs
    obtain ⟨c, t, e, h1, h2⟩ := hgood (j + 1) segs[j] (by simp)
    exact ⟨c, t, e, h1, h2 (by omega)⟩
  obtain ⟨l1, e1, _, m1⟩ := C17_surface_forms_exact s0 segs (Or.inr ⟨c0, t0, hs0, hc0⟩)
    (fun s hs => by obtain ⟨c, t, e, h1, _⟩ := hrest s hs; exact ⟨c, t, e, h1⟩)
  rw [hl] at e1; cases e1
  obtain ⟨f0', fs', e, ho, hr⟩ := (m1 _).1 hf
  simp only [List.cons.injEq] at e
  obtain ⟨rfl, rfl⟩ := e
  have hlen : segs.length = fs.length := hr.length_eq
  have hr' := (forall₂_iff_getElem.1 hr).2
  have hgood' : Spec.GoodSegments (f0 :: fs) := by
    intro i seg hi
    cases i with
    | zero =>
      simp at hi; subst hi
      obtain ⟨t, e⟩ := onbinForm_head ho hs0
      exact ⟨c0, t, e, hc0, by simp⟩
    | succ i =>
      have hi' : fs[i]? = some seg := by simpa using hi
      have hlt : i < segs.length := by rw [hlen]; exact (List.getElem?_eq_some_iff.1 hi').1
      have hseg := hr' i segs[i] seg (List.getElem?_eq_getElem hlt) hi'
      obtain ⟨c, t, e, hc, hvu⟩ := hrest segs[i] (List.getElem_mem hlt)
      rcases hseg with h | ⟨k, v, t', h1, h2, h3⟩
      · exact ⟨c, t, by rw [h, e], hc, fun _ => hvu⟩
      · exact ⟨v, t', h3, (voices_kana h2).2, fun _ hv => not_voices_vu hv h2⟩
  obtain ⟨l', h1, _, _, h4⟩ := C19_canonical_forms_exact (f0 :: fs) hgood'
  refine ⟨l', h1, (h4 _).2 ⟨by simp [hlen], ?_⟩⟩
  intro i seg f hi hf
  cases i with
  | zero =>
    simp at hi hf; subst hi; subst hf
    rcases ho with rfl | ⟨c, init, l, h5, h6⟩
    · exact Or.inl (Or.inl rfl)
    · by_cases hsame : f0 = s0
      · subst hsame; exact Or.inl (Or.inl rfl)
      · obtain ⟨c', init', o, h7, h8⟩ := honbin hsame
        left; right
        have e : c :: (init ++ [l]) = c' :: (init' ++ [o]) := by
          have := h5.symm.trans h7; simpa using this
        simp only [List.cons.injEq] at e
        obtain ⟨rfl, e⟩ := e
        have := List.append_inj_left' e (by simp)
        subst this
        have hfs : fs ≠ [] := by
          rintro rfl
          exact hne (List.length_eq_zero_iff.1 (by simpa using hlen))
        refine ⟨?_, c, init, o, h6, h8, h7⟩
        simp only [List.length_cons, decide_eq_true_eq]
        have := List.length_pos_iff.2 hfs
        omega
  | succ i =>
    have hi' : fs[i]? = some seg := by simpa using hi
    have hf' : segs[i]? = some f := by simpa using hf
    rcases hr' i f seg hf' hi' with h | ⟨k, v, t', h1, h2, h3⟩
    · rw [h]; exact Or.inl (Or.inl rfl)
    · exact Or.inr ⟨by simp, v, k, t', Or.inl h3.symm, h2, h1⟩

/-- The hypothesis on the onbin kana is needed: なま・かし has the surface form なっ・かし, from which it
cannot be recovered. -/
theorem C18_needs_onbin :
    [u!"なっ", u!"かし"] ∈ ((surfaceForms [u!"なま", u!"かし"]).toOption.getD []) ∧
    [u!"なま", u!"かし"] ∉ ((canonicalForms [u!"なっ", u!"かし"]).toOption.getD []) := by decide +kernel

example : Spec.GoodSegments [u!"がく", u!"こう"] ∧
    [u!"がっ", u!"ごう"] ∈ ((surfaceForms [u!"がく", u!"こう"]).toOption.getD []) ∧
    (∃ c init o, u!"がく" = c :: init ++ [o] ∧ o ∈ Spec.onbinOf c) := by
  refine ⟨?_, by decide +kernel, c!"が", [], c!"く", by decide, by decide⟩
  intro i seg h
  match i with
  | 0 => simp at h; subst h; exact ⟨c!"が", u!"く", rfl, by decide, by simp⟩
  | 1 => simp at h; subst h; exact ⟨c!"こ", u!"う", rfl, by decide, by decide⟩
  | i + 2 => simp at h

end Cjk
