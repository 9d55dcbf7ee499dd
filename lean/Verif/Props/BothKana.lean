import Verif.Props.Alternations
import Verif.Props.LongVowels
import Verif.Props.ScriptStructure
/-!
# Alternations in hiragana and in katakana (C160)

The sound alternations are a matter of pronunciation, so a reading written in katakana has to undergo
the same ones as the reading written in hiragana.  In `cjktools/alternations.py` the two scripts are
served by separate entries of the tables, and the branch is taken on the first character of a segment.
-/

namespace Cjk
open Py

/-- No character of the text is katakana. -/
def Spec.NoKatakana (s : Str) : Prop := ∀ c ∈ s, ¬ (0x30a1 ≤ c ∧ c ≤ 0x30f6)
/-- No character of the text is hiragana. -/
def Spec.NoHiragana (s : Str) : Prop := ∀ c ∈ s, ¬ (0x3041 ≤ c ∧ c ≤ 0x3096)

instance (s : Str) : Decidable (Spec.NoKatakana s) := by unfold Spec.NoKatakana; infer_instance
instance (s : Str) : Decidable (Spec.NoHiragana s) := by unfold Spec.NoHiragana; infer_instance

/-- One character of `to_katakana`. -/
def kataChr (c : Chr) : Chr := if 0x3041 ≤ c ∧ c ≤ 0x3096 then c + 96 else c

theorem toKatakana_kata (s : Str) : toKatakana s = s.map kataChr := rfl

theorem kataChr_inj {c d : Chr} (hc : ¬ (0x30a1 ≤ c ∧ c ≤ 0x30f6)) (hd : ¬ (0x30a1 ≤ d ∧ d ≤ 0x30f6))
    (h : kataChr c = kataChr d) : c = d := by
  unfold kataChr at h
  split at h <;> split at h <;> omega

theorem toKatakana_inj {s t : Str} (hs : Spec.NoKatakana s) (ht : Spec.NoKatakana t)
    (h : toKatakana s = toKatakana t) : s = t := by
  induction s generalizing t with
  | nil => cases t with
    | nil => rfl
    | cons d t => simp [toKatakana] at h
  | cons c s ih =>
    cases t with
    | nil => simp [toKatakana] at h
    | cons d t =>
      simp only [toKatakana_kata, List.map_cons, List.cons.injEq] at h
      rw [kataChr_inj (hs c (by simp)) (ht d (by simp)) h.1,
        ih (fun x hx => hs x (by simp [hx])) (fun x hx => ht x (by simp [hx])) h.2]

theorem toHiragana_of_noKatakana {s : Str} (hs : Spec.NoKatakana s) : toHiragana s = s := by
  unfold toHiragana
  conv => rhs; rw [← List.map_id s]
  exact List.map_congr_left (fun c hc => if_neg (hs c hc))

theorem toKatakana_of_noHiragana {s : Str} (hs : Spec.NoHiragana s) : toKatakana s = s := by
  unfold toKatakana
  conv => rhs; rw [← List.map_id s]
  exact List.map_congr_left (fun c hc => if_neg (hs c hc))

theorem noKatakana_toHiragana (s : Str) : Spec.NoKatakana (toHiragana s) := by
  intro c hc
  obtain ⟨d, _, rfl⟩ := List.mem_map.1 hc
  split <;> omega

theorem dedup_map_on {α β : Type} [DecidableEq α] [DecidableEq β] (f : α → β) (l : List α)
    (h : ∀ x ∈ l, ∀ y ∈ l, f x = f y → x = y) : dedup (l.map f) = (dedup l).map f := by
  induction l with
  | nil => rfl
  | cons a l ih =>
    simp only [List.map_cons, dedup]
    rw [ih (fun x hx y hy => h x (by simp [hx]) y (by simp [hy])), List.filter_map]
    congr 2
    apply List.filter_congr
    intro x hx
    have hx' : x ∈ l := mem_dedup.1 hx
    simp only [Function.comp, ne_eq, decide_not]
    by_cases e : x = a
    · simp [e]
    · have : f x ≠ f a := fun e' => e (h x (by simp [hx']) a (by simp) e')
      simp [e, this]

/-! ### the tables -/

theorem kata_range_mem {c : Chr} (h : 0x3041 ≤ c ∧ c ≤ 0x3096) : c ∈ List.range' 0x3041 86 := by
  rw [List.mem_range'_1]; omega

theorem toVoiced_kata_range : ∀ c ∈ List.range' 0x3041 86,
    Dict.get? toVoiced (kataChr c) = (Dict.get? toVoiced c).map (List.map kataChr) := by decide +kernel
theorem fromVoiced_kata_range : ∀ c ∈ List.range' 0x3041 86,
    Dict.get? fromVoiced (kataChr c) = (Dict.get? fromVoiced c).map kataChr := by decide +kernel
theorem isVoiced_kata_range : ∀ c ∈ List.range' 0x3041 86, isVoiced (kataChr c) = isVoiced c := by decide +kernel
theorem toVoiced_hira_range : ∀ c ∈ List.range' 0x3041 86, ∀ l, Dict.get? toVoiced c = some l →
    Spec.NoKatakana l := by
  intro c hc l hl
  have : ∀ c ∈ List.range' 0x3041 86, Spec.NoKatakana ((Dict.get? toVoiced c).getD []) := by decide +kernel
  have := this c hc
  rwa [hl] at this
theorem fromVoiced_hira_range : ∀ c ∈ List.range' 0x3041 86, ∀ k, Dict.get? fromVoiced c = some k →
    ¬ (0x30a1 ≤ k ∧ k ≤ 0x30f6) := by
  intro c hc k hk
  have : ∀ c ∈ List.range' 0x3041 86, ¬ (0x30a1 ≤ (Dict.get? fromVoiced c).getD 0 ∧ (Dict.get? fromVoiced c).getD 0 ≤ 0x30f6) := by
    decide +kernel
  have := this c hc
  rwa [hk] at this

theorem isKana_ranges (c : Chr) : Spec.IsKana c ↔ (0x3041 ≤ c ∧ c ≤ 0x3096) ∨ (0x30a1 ≤ c ∧ c ≤ 0x30f6) := by
  rw [isKana_iff_keys, toVoiced_keys, List.mem_append, List.mem_range'_1, List.mem_range'_1]
  omega

theorem kataChr_hira {c : Chr} (h : 0x3041 ≤ c ∧ c ≤ 0x3096) : kataChr c = c + 96 := if_pos h
theorem kataChr_other {c : Chr} (h : ¬ (0x3041 ≤ c ∧ c ≤ 0x3096)) : kataChr c = c := if_neg h

theorem not_kana_of {c : Chr} (h1 : ¬ (0x3041 ≤ c ∧ c ≤ 0x3096)) (h2 : ¬ (0x30a1 ≤ c ∧ c ≤ 0x30f6)) :
    ¬ Spec.IsKana c := by rw [isKana_ranges]; omega

theorem toVoiced_kata {c : Chr} (h : ¬ (0x30a1 ≤ c ∧ c ≤ 0x30f6)) :
    Dict.get? toVoiced (kataChr c) = (Dict.get? toVoiced c).map (List.map kataChr) := by
  by_cases hc : 0x3041 ≤ c ∧ c ≤ 0x3096
  · exact toVoiced_kata_range c (kata_range_mem hc)
  · rw [kataChr_other hc, toVoiced_get?, if_neg (not_kana_of hc h)]; rfl

theorem fromVoiced_none {c : Chr} (h : ¬ Spec.IsKana c) : Dict.get? fromVoiced c = none := by
  cases hk : Dict.get? fromVoiced c with
  | none => rfl
  | some k => exact absurd (voices_kana ((fromVoiced_get? c k).1 hk)).2 h

theorem fromVoiced_kata {c : Chr} (h : ¬ (0x30a1 ≤ c ∧ c ≤ 0x30f6)) :
    Dict.get? fromVoiced (kataChr c) = (Dict.get? fromVoiced c).map kataChr := by
  by_cases hc : 0x3041 ≤ c ∧ c ≤ 0x3096
  · exact fromVoiced_kata_range c (kata_range_mem hc)
  · rw [kataChr_other hc, fromVoiced_none (not_kana_of hc h)]; rfl

theorem isVoiced_kata (c : Chr) : isVoiced (kataChr c) = isVoiced c := by
  by_cases hc : 0x3041 ≤ c ∧ c ≤ 0x3096
  · exact isVoiced_kata_range c (kata_range_mem hc)
  · rw [kataChr_other hc]

/-! ### devoicing -/

theorem devoiceHead_kata {s : Str} (hs : Spec.NoKatakana s) :
    devoiceHead (toKatakana s) = (devoiceHead s).map toKatakana := by
  cases s with
  | nil => rfl
  | cons c s =>
    have h := fromVoiced_kata (hs c (by simp))
    show (Dict.getItem fromVoiced (kataChr c) >>= fun k => Except.ok (k :: toKatakana s)) = _
    show _ = Except.map toKatakana (Dict.getItem fromVoiced c >>= fun k => Except.ok (k :: s))
    unfold Dict.getItem
    rw [h]
    cases Dict.get? fromVoiced c <;> rfl

theorem devoiceHead_noKatakana {s t : Str} (hs : Spec.NoKatakana s) (h : devoiceHead s = .ok t) :
    Spec.NoKatakana t := by
  cases s with
  | nil => cases h
  | cons c s =>
    have h' : (Dict.getItem fromVoiced c >>= fun k => Except.ok (k :: s)) = Except.ok t := h
    unfold Dict.getItem at h'
    cases hk : Dict.get? fromVoiced c with
    | none => rw [hk] at h'; cases h'
    | some k =>
      rw [hk] at h'
      have e : k :: s = t := by injection h'
      subst e
      intro x hx
      rcases List.mem_cons.1 hx with rfl | hx
      · by_cases hc : 0x3041 ≤ c ∧ c ≤ 0x3096
        · exact fromVoiced_hira_range c (kata_range_mem hc) _ hk
        · rw [fromVoiced_none (not_kana_of hc (hs c (by simp)))] at hk; cases hk
      · exact hs x (by simp [hx])

theorem mapE_map_comm {α β : Type} {f : α → Except PyErr β} {p : α → α} {q : β → β} {l : List α}
    (h : ∀ x ∈ l, f (p x) = (f x).map q) : mapE f (l.map p) = (mapE f l).map (List.map q) := by
  induction l with
  | nil => rfl
  | cons a l ih =>
    simp only [List.map_cons, mapE]
    rw [h a (by simp), ih (fun x hx => h x (by simp [hx]))]
    cases f a with
    | error e => rfl
    | ok b => cases mapE f l <;> rfl

theorem mapE_all {α β : Type} {f : α → Except PyErr β} {P : α → Prop} {Q : β → Prop}
    (h : ∀ x y, P x → f x = .ok y → Q y) {l : List α} (hl : ∀ x ∈ l, P x) {r : List β} (hr : mapE f l = .ok r) :
    ∀ y ∈ r, Q y := by
  induction l generalizing r with
  | nil => cases hr; intro y hy; cases hy
  | cons a l ih =>
    simp only [mapE] at hr
    cases ha : f a with
    | error e => rw [ha] at hr; cases hr
    | ok b =>
      cases hm : mapE f l with
      | error e => rw [ha, hm] at hr; cases hr
      | ok bs =>
        rw [ha, hm] at hr
        have e : b :: bs = r := by injection hr
        subst e
        intro y hy
        rcases List.mem_cons.1 hy with rfl | hy
        · exact h a _ (hl a (by simp)) ha
        · exact ih (fun x hx => hl x (by simp [hx])) hm y hy

/-! ### segments -/

theorem kata_dropLast (s : Str) : (toKatakana s).dropLast = toKatakana s.dropLast := by
  simp [toKatakana]

theorem noKatakana_snoc {s : Str} {c : Chr} (hs : Spec.NoKatakana s) (hc : ¬ (0x30a1 ≤ c ∧ c ≤ 0x30f6)) :
    Spec.NoKatakana (s.dropLast ++ [c]) := by
  intro x hx
  rcases List.mem_append.1 hx with hx | hx
  · exact hs x ((List.dropLast_sublist s).subset hx)
  · rw [List.mem_singleton.1 hx]; exact hc

theorem endsWith_kata {s : Str} (hs : Spec.NoKatakana s) :
    endsWith (toKatakana s) [c!"ッ"] = endsWith s [c!"っ"] := by
  rw [Bool.eq_iff_iff, endsWith_singleton, endsWith_singleton]
  constructor
  · rintro ⟨t, ht⟩
    have h0 : s ≠ [] := by rintro rfl; simp [toKatakana] at ht
    refine ⟨s.dropLast, ?_⟩
    have e := List.dropLast_append_getLast h0
    have hl : kataChr (s.getLast h0) = c!"ッ" := by
      rw [← e] at ht
      rw [toKatakana_kata, List.map_append] at ht
      simpa using (List.append_inj' ht rfl).2
    have hm := hs _ (List.getLast_mem h0)
    have : s.getLast h0 = c!"っ" := kataChr_inj hm (by decide) (hl.trans (by decide))
    rw [this] at e
    exact e.symm
  · rintro ⟨t, rfl⟩
    exact ⟨toKatakana t, by simp [toKatakana]⟩

theorem onbin_noKatakana : ∀ c ∈ u!"いちりきつく", ¬ (0x30a1 ≤ c ∧ c ≤ 0x30f6) := by decide

theorem ungem_kata {s : Str} (hs : Spec.NoKatakana s) (right : Bool) :
    ungem (toKatakana s) right c!"ッ" u!"イチリキツク" = (ungem s right c!"っ" u!"いちりきつく").map toKatakana := by
  unfold ungem
  rw [endsWith_kata hs, toKatakana_length]
  split
  · rw [← dedup_map_on]
    · congr 1
      simp only [List.map_append, List.map_cons, List.map_nil, List.map_map]
      congr 1
      simp [toKatakana]
    · have hall : ∀ x ∈ [s] ++ (u!"いちりきつく").map (fun c => s.dropLast ++ [c]), Spec.NoKatakana x := by
        intro x hx
        rcases List.mem_append.1 hx with hx | hx
        · rw [List.mem_singleton.1 hx]; exact hs
        · obtain ⟨c, hc, rfl⟩ := List.mem_map.1 hx
          exact noKatakana_snoc hs (onbin_noKatakana c hc)
      intro x hx y hy h
      exact toKatakana_inj (hall x hx) (hall y hy) h
  · rfl

theorem ungem_noKatakana {s : Str} (hs : Spec.NoKatakana s) (right : Bool) :
    ∀ x ∈ ungem s right c!"っ" u!"いちりきつく", Spec.NoKatakana x := by
  intro x hx
  unfold ungem at hx
  split at hx
  · rw [mem_dedup] at hx
    rcases List.mem_append.1 hx with hx | hx
    · rw [List.mem_singleton.1 hx]; exact hs
    · obtain ⟨c, hc, rfl⟩ := List.mem_map.1 hx
      exact noKatakana_snoc hs (onbin_noKatakana c hc)
  · rw [List.mem_singleton.1 hx]; exact hs

theorem csf_maps {c : Chr} {s : Str} (left right : Bool) {so : Chr} {on : Str}
    (h1 : sokuonMap.get? (scriptType (c :: s)) = some so) (h2 : onbinMap.get? (scriptType (c :: s)) = some on) :
    canonicalSegmentForms (c :: s) left right =
      if left then
        if isVoiced c then
          (mapE devoiceHead (ungem (c :: s) right so on)).map (fun e => dedup (ungem (c :: s) right so on ++ e))
        else .ok (ungem (c :: s) right so on)
      else .ok (ungem (c :: s) right so on) := by
  unfold canonicalSegmentForms
  simp only [h1, h2]
  cases left
  · rfl
  · simp only [if_true]
    split
    · show _ = Except.map _ (mapE devoiceHead (ungem (c :: s) right so on))
      cases h : mapE devoiceHead (ungem (c :: s) right so on) <;> (unfold ungem at h; rw [h]; rfl)
    · rfl

theorem csf_not_kana {c : Chr} (s : Str) (left right : Bool) (h : ¬ Spec.IsKana c) :
    canonicalSegmentForms (c :: s) left right = .error .valueError := by
  unfold canonicalSegmentForms
  simp only [maps_of_not_kana h s]

theorem maps_hira {c : Chr} (h : 0x3041 ≤ c ∧ c ≤ 0x3096) (s : Str) :
    sokuonMap.get? (scriptType (c :: s)) = some c!"っ" ∧ onbinMap.get? (scriptType (c :: s)) = some u!"いちりきつく" := by
  have hh : Spec.InScript .hiragana c := (by
    have : ∀ c ∈ List.range' 0x3041 86, Spec.InScript .hiragana c := by decide +kernel
    exact this c (kata_range_mem h))
  have := maps_of_kana (Or.inl hh) s
  simpa [Spec.sokuonOf, Spec.onbinOf, hh] using this

theorem maps_kata {c : Chr} (h : 0x3041 ≤ c ∧ c ≤ 0x3096) (s : Str) :
    sokuonMap.get? (scriptType (kataChr c :: s)) = some c!"ッ" ∧
    onbinMap.get? (scriptType (kataChr c :: s)) = some u!"イチリキツク" := by
  have hh : Spec.InScript .katakana (kataChr c) ∧ ¬ Spec.InScript .hiragana (kataChr c) := (by
    have : ∀ c ∈ List.range' 0x3041 86, Spec.InScript .katakana (kataChr c) ∧ ¬ Spec.InScript .hiragana (kataChr c) := by
      decide +kernel
    exact this c (kata_range_mem h))
  have := maps_of_kana (Or.inr hh.1) s
  simpa [Spec.sokuonOf, Spec.onbinOf, hh.2] using this

theorem csf_kata {seg : Str} (hs : Spec.NoKatakana seg) (left right : Bool) :
    canonicalSegmentForms (toKatakana seg) left right =
      (canonicalSegmentForms seg left right).map (List.map toKatakana) := by
  cases seg with
  | nil => cases left <;> cases right <;> rfl
  | cons c s =>
    have hc := hs c (by simp)
    have hcons : toKatakana (c :: s) = kataChr c :: toKatakana s := rfl
    by_cases hh : 0x3041 ≤ c ∧ c ≤ 0x3096
    · obtain ⟨a1, a2⟩ := maps_hira hh s
      obtain ⟨b1, b2⟩ := maps_kata hh (toKatakana s)
      rw [csf_maps left right a1 a2, hcons, csf_maps left right b1 b2, isVoiced_kata, ← hcons, ungem_kata hs]
      have hu := ungem_noKatakana hs right
      cases left
      · rfl
      · simp only [if_true]
        split
        · rw [mapE_map_comm (q := toKatakana) (fun x hx => devoiceHead_kata (hu x hx))]
          cases hm : mapE devoiceHead (ungem (c :: s) right c!"っ" u!"いちりきつく") with
          | error e => rfl
          | ok r =>
            have hr := mapE_all (fun x y => devoiceHead_noKatakana) hu hm
            show Except.ok _ = Except.ok _
            congr 1
            show dedup (List.map toKatakana _ ++ List.map toKatakana r) = List.map toKatakana (dedup (_ ++ r))
            rw [← List.map_append]
            apply dedup_map_on
            have hall : ∀ x ∈ ungem (c :: s) right c!"っ" u!"いちりきつく" ++ r, Spec.NoKatakana x := by
              intro x hx
              rcases List.mem_append.1 hx with hx | hx
              · exact hu x hx
              · exact hr x hx
            intro x hx y hy h
            exact toKatakana_inj (hall x hx) (hall y hy) h
        · rfl
    · have hk := not_kana_of hh hc
      rw [csf_not_kana s left right hk, hcons, kataChr_other hh, csf_not_kana _ left right hk]
      rfl

theorem csf_noKatakana {seg : Str} (hs : Spec.NoKatakana seg) (left right : Bool) {l : List Str}
    (hl : canonicalSegmentForms seg left right = .ok l) : ∀ x ∈ l, Spec.NoKatakana x := by
  cases seg with
  | nil => cases left <;> cases right <;> cases hl
  | cons c s =>
    have hc := hs c (by simp)
    by_cases hh : 0x3041 ≤ c ∧ c ≤ 0x3096
    · obtain ⟨a1, a2⟩ := maps_hira hh s
      rw [csf_maps left right a1 a2] at hl
      have hu := ungem_noKatakana hs right
      cases left
      · have e : ungem (c :: s) right c!"っ" u!"いちりきつく" = l := by injection hl
        subst e; exact hu
      · simp only [if_true] at hl
        split at hl
        · cases hm : mapE devoiceHead (ungem (c :: s) right c!"っ" u!"いちりきつく") with
          | error e => rw [hm] at hl; cases hl
          | ok r =>
            rw [hm] at hl
            have hr := mapE_all (fun x y => devoiceHead_noKatakana) hu hm
            have e : dedup (ungem (c :: s) right c!"っ" u!"いちりきつく" ++ r) = l := by injection hl
            subst e
            intro x hx
            rw [mem_dedup] at hx
            rcases List.mem_append.1 hx with hx | hx
            · exact hu x hx
            · exact hr x hx
        · have e : ungem (c :: s) right c!"っ" u!"いちりきつく" = l := by injection hl
          subst e; exact hu
    · rw [csf_not_kana s left right (not_kana_of hh hc)] at hl; cases hl

/-! ### sequences -/

theorem product_map {α β : Type} (f : α → β) (l : List (List α)) :
    product (l.map (List.map f)) = (product l).map (List.map f) := by
  induction l with
  | nil => rfl
  | cons s ss ih =>
    simp only [List.map_cons, product, ih]
    simp [List.flatMap_map, List.map_flatMap, List.map_map, Function.comp_def]

theorem canonicalSets_kata {segs : List Str} (hs : ∀ s ∈ segs, Spec.NoKatakana s) (n i : Nat) :
    canonicalSets n i (segs.map toKatakana) =
      (canonicalSets n i segs).map (List.map (List.map toKatakana)) := by
  induction segs generalizing i with
  | nil => rfl
  | cons s segs ih =>
    simp only [List.map_cons, canonicalSets]
    rw [csf_kata (hs s (by simp)), ih (fun x hx => hs x (by simp [hx])) (i + 1)]
    cases canonicalSegmentForms s (decide (i > 0)) (decide ((i : Int) < (n : Int) - 1)) with
    | error e => rfl
    | ok v => cases canonicalSets n (i + 1) segs <;> rfl

theorem canonicalForms_kata {segs : List Str} (hs : ∀ s ∈ segs, Spec.NoKatakana s) :
    canonicalForms (segs.map toKatakana) = (canonicalForms segs).map (List.map (List.map toKatakana)) := by
  unfold canonicalForms
  rw [List.length_map, canonicalSets_kata hs]
  cases canonicalSets segs.length 0 segs with
  | error e => rfl
  | ok v => show Except.ok _ = Except.ok _; congr 1; exact product_map toKatakana v

theorem rendaku_kata {seg : Str} (hs : Spec.NoKatakana seg) :
    rendakuVariants (toKatakana seg) = (rendakuVariants seg).map (List.map toKatakana) := by
  cases seg with
  | nil => rfl
  | cons c s =>
    have hc := hs c (by simp)
    have h := toVoiced_kata hc
    show (Dict.getItem toVoiced (kataChr c) >>= fun vs =>
        Except.ok (dedup (toKatakana (c :: s) :: vs.map (fun k => k :: toKatakana s)))) = _
    show _ = Except.map (List.map toKatakana) (Dict.getItem toVoiced c >>= fun vs =>
        Except.ok (dedup ((c :: s) :: vs.map (fun k => k :: s))))
    unfold Dict.getItem
    rw [h]
    cases hg : Dict.get? toVoiced c with
    | none => rfl
    | some vs =>
      show Except.ok _ = Except.ok _
      congr 1
      rw [← dedup_map_on]
      · congr 1
        simp only [List.map_cons, List.map_map, Function.comp_def]
        rfl
      · have hv : Spec.NoKatakana vs := by
          by_cases hh : 0x3041 ≤ c ∧ c ≤ 0x3096
          · exact toVoiced_hira_range c (kata_range_mem hh) _ hg
          · rw [toVoiced_get?, if_neg (not_kana_of hh hc)] at hg; cases hg
        have hall : ∀ x ∈ (c :: s) :: vs.map (fun k => k :: s), Spec.NoKatakana x := by
          intro x hx
          rcases List.mem_cons.1 hx with rfl | hx
          · exact hs
          · obtain ⟨k, hk, rfl⟩ := List.mem_map.1 hx
            intro y hy
            rcases List.mem_cons.1 hy with rfl | hy
            · exact hv _ hk
            · exact hs y (by simp [hy])
        intro x hx y hy h
        exact toKatakana_inj (hall x hx) (hall y hy) h

theorem onbin_kata {seg : Str} (hs : Spec.NoKatakana seg) :
    onbinVariants (toKatakana seg) = (onbinVariants seg).map (List.map toKatakana) := by
  unfold onbinVariants
  rw [toKatakana_length]
  by_cases hlen : seg.length > 1
  · rw [if_pos hlen, if_pos hlen]
    cases seg with
    | nil => simp at hlen
    | cons c s =>
      have hc := hs c (by simp)
      have hcons : toKatakana (c :: s) = kataChr c :: toKatakana s := rfl
      by_cases hh : 0x3041 ≤ c ∧ c ≤ 0x3096
      · have a1 := (maps_hira hh s).1
        have b1 := (maps_kata hh (toKatakana s)).1
        rw [← hcons] at b1
        unfold Dict.getItem
        rw [a1, b1]
        show Except.ok _ = Except.ok _
        congr 1
        rw [← dedup_map_on]
        · congr 1
          simp [toKatakana]
        · have hall : ∀ x ∈ [c :: s, (c :: s).dropLast ++ [c!"っ"]], Spec.NoKatakana x := by
            intro x hx
            rcases List.mem_cons.1 hx with rfl | hx
            · exact hs
            · rw [List.mem_singleton.1 hx]; exact noKatakana_snoc hs (by decide)
          intro x hx y hy h
          exact toKatakana_inj (hall x hx) (hall y hy) h
      · have hk := not_kana_of hh hc
        unfold Dict.getItem
        rw [hcons, kataChr_other hh, maps_of_not_kana hk, maps_of_not_kana hk]
        rfl
  · rw [if_neg hlen, if_neg hlen]; rfl

theorem surfaceForms_kata {segs : List Str} (hs : ∀ s ∈ segs, Spec.NoKatakana s) :
    surfaceForms (segs.map toKatakana) = (surfaceForms segs).map (List.map (List.map toKatakana)) := by
  cases segs with
  | nil => rfl
  | cons s segs =>
    simp only [List.map_cons, surfaceForms]
    rw [onbin_kata (hs s (by simp)),
      mapE_map_comm (q := List.map toKatakana) (fun x hx => rendaku_kata (hs x (by simp [hx])))]
    cases onbinVariants s with
    | error e => rfl
    | ok v =>
      cases mapE rendakuVariants segs with
      | error e => rfl
      | ok r =>
        show Except.ok _ = Except.ok _
        congr 1
        exact product_map toKatakana (v :: r)

/-! ### The other direction -/

theorem kata_of_hira {s : Str} (hs : Spec.NoHiragana s) : toKatakana (toHiragana s) = s := by
  rw [toKatakana_toHiragana, toKatakana_of_noHiragana hs]

/-- C160: one segment.  The canonical forms of a segment without katakana, written in katakana, are the
forms of the segment written in katakana; and a segment is refused in one syllabary exactly when it is
in the other. -/
theorem C160_canonical_segment (seg : Str) (hs : Spec.NoKatakana seg) (left right : Bool) :
    canonicalSegmentForms (toKatakana seg) left right =
      (canonicalSegmentForms seg left right).map (List.map toKatakana) := csf_kata hs left right

/-- C160: a segment without hiragana has the forms of its hiragana spelling, written in katakana; and
the other way round. -/
theorem C160_katakana_segment (seg : Str) (hs : Spec.NoHiragana seg) (left right : Bool) :
    canonicalSegmentForms seg left right =
      (canonicalSegmentForms (toHiragana seg) left right).map (List.map toKatakana) ∧
    canonicalSegmentForms (toHiragana seg) left right =
      (canonicalSegmentForms seg left right).map (List.map toHiragana) := by
  have h1 : canonicalSegmentForms seg left right =
      (canonicalSegmentForms (toHiragana seg) left right).map (List.map toKatakana) := by
    rw [← csf_kata (noKatakana_toHiragana seg), kata_of_hira hs]
  refine ⟨h1, ?_⟩
  rw [h1]
  cases h : canonicalSegmentForms (toHiragana seg) left right with
  | error e => rfl
  | ok l =>
    have hl := csf_noKatakana (noKatakana_toHiragana seg) left right h
    show Except.ok l = Except.ok ((l.map toKatakana).map toHiragana)
    rw [List.map_map]
    congr 1
    conv => lhs; rw [← List.map_id l]
    exact List.map_congr_left (fun x hx => by
      show x = toHiragana (toKatakana x)
      rw [toHiragana_toKatakana, toHiragana_of_noKatakana (hl x hx)])

/-- C160: sequences, in both directions of the alternation. -/
theorem C160_sequences (segs : List Str) (hs : ∀ s ∈ segs, Spec.NoKatakana s) :
    canonicalForms (segs.map toKatakana) = (canonicalForms segs).map (List.map (List.map toKatakana)) ∧
    surfaceForms (segs.map toKatakana) = (surfaceForms segs).map (List.map (List.map toKatakana)) ∧
    (∀ s ∈ segs, rendakuVariants (toKatakana s) = (rendakuVariants s).map (List.map toKatakana) ∧
      onbinVariants (toKatakana s) = (onbinVariants s).map (List.map toKatakana)) :=
  ⟨canonicalForms_kata hs, surfaceForms_kata hs, fun s h => ⟨rendaku_kata (hs s h), onbin_kata (hs s h)⟩⟩

/-- C160: sequences of segments without hiragana. -/
theorem C160_katakana_sequences (segs : List Str) (hs : ∀ s ∈ segs, Spec.NoHiragana s) :
    canonicalForms segs = (canonicalForms (segs.map toHiragana)).map (List.map (List.map toKatakana)) ∧
    surfaceForms segs = (surfaceForms (segs.map toHiragana)).map (List.map (List.map toKatakana)) := by
  have e : (segs.map toHiragana).map toKatakana = segs := by
    rw [List.map_map]
    conv => rhs; rw [← List.map_id segs]
    exact List.map_congr_left (fun s h => kata_of_hira (hs s h))
  have hn : ∀ s ∈ segs.map toHiragana, Spec.NoKatakana s := by
    intro s h
    obtain ⟨t, _, rfl⟩ := List.mem_map.1 h
    exact noKatakana_toHiragana t
  rw [← canonicalForms_kata hn, ← surfaceForms_kata hn, e]
  exact ⟨rfl, rfl⟩

/-- C160: a segment that mixes the syllabaries is read by its first character alone: a katakana segment
that ends in the hiragana っ is not unfolded, a katakana one is. -/
theorem C160_mixed :
    canonicalSegmentForms u!"ガっ" false true = .ok [u!"ガっ"] ∧
    (canonicalSegmentForms u!"ガッ" false true).map List.length = .ok 7 ∧
    (canonicalSegmentForms u!"がっ" false true).map List.length = .ok 7 := by decide +kernel

/-! ### Long vowels and iteration marks -/

theorem gstep_kata (prev : Option Chr) (c : Chr) :
    gstep (prev.map kataChr) (kataChr c) = (gstep prev c).map kataChr := by
  have hmark : ∀ c : Chr, kataChr c = c!"ー" ↔ c = c!"ー" := by
    intro c; rw [longMark_val]; unfold kataChr; split <;> omega
  cases prev with
  | none => rfl
  | some p =>
    by_cases hc : c = c!"ー"
    · subst hc
      have hm : kataChr c!"ー" = c!"ー" := (hmark _).2 rfl
      simp only [Option.map_some, gstep, hstep, hm, true_and]
      by_cases h1 : 0x3041 ≤ p ∧ p ≤ 0x3096
      · have h2 : 0x30a1 ≤ kataChr p ∧ kataChr p ≤ 0x30f6 := by rw [kataChr_hira h1]; omega
        have h3 : ¬ (0x30a1 ≤ p ∧ p ≤ 0x30f6) := by omega
        rw [if_pos h2, if_neg h3, if_pos h1, kataChr_hira h1, Nat.add_sub_cancel]
        rcases vowel_cases p with ⟨v, hv⟩ | hv <;> rw [hv] <;> rfl
      · rw [kataChr_other h1]
        by_cases h2 : 0x30a1 ≤ p ∧ p ≤ 0x30f6
        · rw [if_pos h2]
          rcases vowel_cases (p - 96) with ⟨v, hv⟩ | hv
          · rw [hv]
            show Except.ok (kataChr v) = Except.ok (kataChr (kataChr v))
            congr 1
            unfold kataChr
            split
            · rw [if_neg (by omega)]
            · rfl
          · rw [hv]; rfl
        · rw [if_neg h2, if_neg h1]
          show Except.ok _ = Except.ok _
          rw [hm]
    · have hc' : kataChr c ≠ c!"ー" := fun h => hc ((hmark c).1 h)
      simp only [Option.map_some, gstep, hstep]
      rw [if_neg (fun h => hc' h.1), if_neg (fun h => hc' h.1), if_neg (fun h => hc h.1), if_neg (fun h => hc h.1)]
      rfl

theorem walk_kataChr (prev : Option Chr) (s : Str) :
    walk gstep (prev.map kataChr) (s.map kataChr) = (walk gstep prev s).map (List.map kataChr) := by
  induction s generalizing prev with
  | nil => rfl
  | cons c s ih =>
    have := ih (some c)
    simp only [Option.map_some] at this
    simp only [List.map_cons, walk]
    rw [gstep_kata, this]
    cases gstep prev c with
    | error e => rfl
    | ok d => cases walk gstep (some c) s <;> rfl

/-- C160: expanding long vowels and writing in katakana can be done in either order, for every text
whatever its scripts. -/
theorem C160_long_vowels (s : Str) :
    expandLongVowels (toKatakana s) = (expandLongVowels s).map toKatakana := by
  rw [expandLongVowels_walk, expandLongVowels_walk]
  exact walk_kataChr none s

theorem findChr_kata (s : Str) : findChr c!"々" (toKatakana s) = findChr c!"々" s := by
  induction s with
  | nil => rfl
  | cons c s ih =>
    have : (kataChr c = c!"々") ↔ c = c!"々" := by
      have : c!"々" = 0x3005 := by decide
      rw [this]; unfold kataChr; split <;> omega
    rw [toKatakana_kata] at ih ⊢
    simp only [List.map_cons, findChr]
    rw [ih]
    by_cases h : c = c!"々"
    · rw [if_pos h, if_pos (this.2 h)]
    · rw [if_neg h, if_neg (fun h' => h (this.1 h'))]

/-- C160: likewise for iteration marks. -/
theorem C160_iteration_marks (fuel : Nat) (s : Str) :
    insertDuplicateLoop fuel (toKatakana s) = (insertDuplicateLoop fuel s).map toKatakana := by
  induction fuel generalizing s with
  | zero => rfl
  | succ fuel ih =>
    simp only [insertDuplicateLoop]
    rw [findChr_kata]
    cases h : findChr c!"々" s with
    | none => rfl
    | some i =>
      cases i with
      | zero => rfl
      | succ i =>
        simp only
        rw [← ih]
        congr 1
        have : (toKatakana s).getD i 0 = kataChr (s.getD i 0) := by
          simp only [toKatakana_kata, List.getD_eq_getElem?_getD, List.getElem?_map]
          cases s[i]? <;> rfl
        rw [this]
        simp [toKatakana_kata, List.map_take, List.map_drop]

/-- Cases with voicing, a geminate, a refused segment, a vowel to expand. -/
example : Spec.NoKatakana u!"がっ" ∧ Spec.NoHiragana u!"ガッ" ∧
    (canonicalSegmentForms u!"ガッ" true true).map List.length = .ok 14 ∧
    canonicalSegmentForms u!"ゔぁ" true true = .error .keyError ∧
    canonicalSegmentForms u!"ヴァ" true true = .error .keyError ∧
    expandLongVowels u!"がー" = .ok u!"があ" ∧ expandLongVowels u!"ガー" = .ok u!"ガア" ∧
    rendakuVariants u!"ほん" = .ok [u!"ほん", u!"ぼん", u!"ぽん"] ∧
    rendakuVariants u!"ホン" = .ok [u!"ホン", u!"ボン", u!"ポン"] := by decide +kernel

end Cjk
