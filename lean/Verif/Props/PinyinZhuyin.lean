import Verif.Props.PinyinTones
import Mathlib.Data.List.Forall2
/-!
# C179: from pinyin to zhuyin and back

The segmenter and the two tables are read from the same file.
-/

namespace Cjk
open Py

/-- Nothing but pinyin of the table comes out of a text without `#`, if the table has `er`. -/
theorem segments_known {syllables : List Str} {text : Str} {out : List (Str × Int)} (h : Spec.Segments (u!"r" :: syllables) text out)
    (her : u!"er" ∈ syllables) (hno : 0x23 ∉ text) : ∀ c ∈ out, c.1 ∈ syllables := by
  induction h with
  | nil => intro c hc; cases hc
  | syllable s tone rest t out hs _ _ _ _ ih =>
    intro c hc
    rcases List.mem_cons.1 hc with rfl | hc
    · show Spec.reported s ∈ _
      unfold Spec.reported
      split
      · exact her
      · rename_i hr
        rcases List.mem_cons.1 hs with h | h
        · exact absurd h hr
        · exact h
    · exact ih (fun h => hno (by simp [h])) c hc
  | hash rest out _ _ _ => exact absurd (by simp) hno
  | skip c rest out _ _ _ ih => exact ih (fun h => hno (by simp [h]))

/-- A `#` that belongs to no syllable gives an empty syllable. -/
theorem segments_empty_hash {syllables : List Str} {text : Str} {out : List (Str × Int)} (h : Spec.Segments syllables text out)
    (hs : ∀ s ∈ syllables, 0x23 ∉ s) (hyes : 0x23 ∈ text) : ∃ c ∈ out, c.1 = [] := by
  induction h with
  | nil => cases hyes
  | syllable s tone rest t out hmem _ htone _ _ ih =>
    have hr : 0x23 ∈ rest := by
      rcases List.mem_append.1 hyes with h | h
      · exact absurd h (hs s hmem)
      · rcases List.mem_append.1 h with h | h
        · cases htone with
          | none => cases h
          | digit d hd => simp only [List.mem_singleton] at h; omega
        · exact h
    obtain ⟨c, hc, he⟩ := ih hr
    exact ⟨c, List.mem_cons_of_mem _ hc, he⟩
  | hash rest out _ _ _ => exact ⟨_, List.mem_cons_self, rfl⟩
  | skip c rest out hc _ _ ih =>
    rcases List.mem_cons.1 hyes with h | h
    · exact absurd h.symm hc
    · exact ih h

theorem forall2_lookup {d : Dict Str Str} : ∀ (out : List (Str × Int)), (∀ c ∈ out, ∃ z, Dict.get? d c.1 = some z) →
    ∃ zs, List.Forall₂ (fun c z => Dict.get? d c.1 = some z) out zs
  | [], _ => ⟨[], .nil⟩
  | c :: out, h => by
    obtain ⟨z, hz⟩ := h c List.mem_cons_self
    obtain ⟨zs, hzs⟩ := forall2_lookup out (fun c hc => h c (List.mem_cons_of_mem _ hc))
    exact ⟨z :: zs, .cons hz hzs⟩

theorem forall2_turn {α β : Type} {R : α → β → Prop} {S : β → α → Prop} (h : ∀ a b, R a b → S b a) {l : List α} {m : List β}
    (hl : List.Forall₂ R l m) : List.Forall₂ S m l := by
  induction hl with
  | nil => exact .nil
  | cons h1 _ ih => exact .cons (h _ _ h1) ih

theorem tablePair_of_pinyin {lines : List Str} {p : Str} (h : p ∈ (Spec.tablePairs lines).map Prod.snd) :
    ∃ z, (z, p) ∈ Spec.tablePairs lines := by
  obtain ⟨⟨z, p'⟩, hm, rfl⟩ := List.mem_map.1 h
  exact ⟨z, hm⟩

/-- **C179** (there and back).  The table is one-to-one and has `er`.  For every text without `#`: each syllable that `segment_pinyin` finds has its zhuyin in
`pinyin_to_zhuyin_table`, `zhuyin_to_pinyin_table` leads back to the syllable, and the pinyin got back, joined, is what `strip_tones` makes of the text. -/
theorem C179_there_and_back (lower : Str → Str) (hlow : Spec.IsLower lower) (lines : List Str) (seg : List Str) (hseg : newSegmenter lines = .ok seg)
    (hz : ((Spec.tablePairs lines).map Prod.fst).Nodup) (hp : ((Spec.tablePairs lines).map Prod.snd).Nodup)
    (her : u!"er" ∈ (Spec.tablePairs lines).map Prod.snd) (text : Str) (hno : 0x23 ∉ Spec.normal lower text) :
    ∃ zp pz out zs, zhuyinToPinyinTable lines = .ok zp ∧ pinyinToZhuyinTable lines = .ok pz ∧ segmentPinyin lower seg text = .ok out ∧
      List.Forall₂ (fun c z => Dict.get? pz c.1 = some z) out zs ∧ List.Forall₂ (fun z c => Dict.get? zp z = some c.1) zs out ∧
      stripTones lower seg text = .ok (zs.flatMap (fun z => (Dict.get? zp z).getD [])) := by
  obtain ⟨zp, pz, h1, h2, h3⟩ := C70_inverse lines (newSegmenter_spec hseg).1 hz hp
  obtain ⟨out, ho⟩ := C69_total lower lines seg hseg text
  have hs := (C69_longest lower lines seg hseg text out).1 ho
  have hk := segments_known hs her hno
  obtain ⟨zs, hzs⟩ := forall2_lookup (d := pz) out (fun c hc => by
    obtain ⟨z, hm⟩ := tablePair_of_pinyin (hk c hc)
    exact ⟨z, (h3 z c.1).2.2 ((h3 z c.1).1.2 hm)⟩)
  have hback : List.Forall₂ (fun z c => Dict.get? zp z = some c.1) zs out := forall2_turn (fun c z hc => (h3 z c.1).2.1 hc) hzs
  refine ⟨zp, pz, out, zs, h1, h2, ho, hzs, hback, ?_⟩
  rw [C68_strip lower hlow seg text out ho]
  congr 1
  clear hzs hk hs ho
  induction hback with
  | nil => rfl
  | cons h1 _ ih => simp only [List.flatMap_cons, ih, h1, Option.getD_some]

/-- **C179** (`#`).  If no pinyin of the table contains a `#`, a text with a `#` gives a syllable that is not in the table. -/
theorem C179_hash (lower : Str → Str) (lines : List Str) (seg : List Str) (hseg : newSegmenter lines = .ok seg)
    (hno : ∀ p ∈ (Spec.tablePairs lines).map Prod.snd, 0x23 ∉ p) (text : Str)
    (hyes : 0x23 ∈ Spec.normal lower text) :
    ∃ pz out, pinyinToZhuyinTable lines = .ok pz ∧ segmentPinyin lower seg text = .ok out ∧ ∃ c ∈ out, Dict.getItem pz c.1 = .error .keyError := by
  obtain ⟨zp, pz, _, h2, _, h4⟩ := (C70_tables lines).1 (newSegmenter_spec hseg).1
  obtain ⟨out, ho⟩ := C69_total lower lines seg hseg text
  have hs := (C69_longest lower lines seg hseg text out).1 ho
  obtain ⟨c, hc, he⟩ := segments_empty_hash hs (by
    intro s hs
    rcases List.mem_cons.1 hs with rfl | hs
    · decide
    · exact hno s hs) hyes
  refine ⟨pz, out, h2, ho, c, hc, ?_⟩
  have : Dict.get? pz c.1 = none := by
    rw [h4, he]
    unfold Spec.lastValue
    rw [Option.map_eq_none_iff, List.find?_eq_none]
    intro x hx
    rw [List.mem_reverse, List.mem_map] at hx
    obtain ⟨⟨z, p⟩, hm, rfl⟩ := hx
    simp only [Prod.swap, decide_eq_true_eq]
    rintro rfl
    obtain ⟨_, hperm, _, hne, _⟩ := newSegmenter_spec hseg
    exact hne (hperm.mem_iff.2 (List.mem_cons_of_mem _ (List.mem_map_of_mem (f := Prod.snd) hm)))
  unfold Dict.getItem
  rw [this]

/-- **C179** (back and there).  Any sequence of zhuyin of the table with tones, spelled in pinyin with tone digits, is segmented into exactly this sequence: looking
up the syllables gives the zhuyin back.  The table is one-to-one, its pinyin contain no tone digits, and `r` is not one of them. -/
theorem C179_back_and_there (lower : Str → Str) (lines : List Str) (seg : List Str) (hseg : newSegmenter lines = .ok seg)
    (hz : ((Spec.tablePairs lines).map Prod.fst).Nodup) (hp : ((Spec.tablePairs lines).map Prod.snd).Nodup)
    (hd : ∀ p ∈ (Spec.tablePairs lines).map Prod.snd, ∀ c ∈ p, ¬ Spec.ToneDigit c) (hr : u!"r" ∉ (Spec.tablePairs lines).map Prod.snd) :
    ∃ zp pz, zhuyinToPinyinTable lines = .ok zp ∧ pinyinToZhuyinTable lines = .ok pz ∧
      ∀ zs : List (Str × Nat), (∀ z ∈ zs, (Dict.get? zp z.1).isSome ∧ z.2 ≤ 5) →
      ∀ text, Spec.normal lower text = Spec.toned (zs.map (fun z => ((Dict.get? zp z.1).getD [], z.2))) →
      ∃ out, segmentPinyin lower seg text = .ok out ∧
        List.Forall₂ (fun c (z : Str × Nat) => Dict.get? pz c.1 = some z.1 ∧ c.2 = (z.2 : Int)) out zs := by
  obtain ⟨zp, pz, h1, h2, h3⟩ := C70_inverse lines (newSegmenter_spec hseg).1 hz hp
  refine ⟨zp, pz, h1, h2, fun zs hzs text ht => ⟨_, C66_toned lower lines seg hseg hd _ ?_ text ht, ?_⟩⟩
  · intro p hp
    obtain ⟨z, hz, rfl⟩ := List.mem_map.1 hp
    obtain ⟨hs, h5⟩ := hzs z hz
    obtain ⟨p, hp⟩ := Option.isSome_iff_exists.1 hs
    refine ⟨Or.inr ?_, h5⟩
    rw [hp]
    exact List.mem_map_of_mem (f := Prod.snd) ((h3 z.1 p).1.1 hp)
  · clear ht
    induction zs with
    | nil => exact .nil
    | cons z zs ih =>
      refine .cons ?_ (ih (fun z hz => hzs z (List.mem_cons_of_mem _ hz)))
      obtain ⟨p, hp⟩ := Option.isSome_iff_exists.1 (hzs z List.mem_cons_self).1
      have hm := List.mem_map_of_mem (f := Prod.snd) ((h3 z.1 p).1.1 hp)
      have hne : p ≠ u!"r" := fun e => hr (e ▸ hm)
      refine ⟨?_, rfl⟩
      show Dict.get? pz (Spec.reported ((Dict.get? zp z.1).getD [])) = some z.1
      rw [hp, Option.getD_some]
      unfold Spec.reported
      rw [if_neg hne]
      exact (h3 z.1 p).2.2 hp

/-- Non-vacuity of C179. -/
example : Spec.RowsOk demoZhuyin ∧ ((Spec.tablePairs demoZhuyin).map Prod.fst).Nodup ∧ ((Spec.tablePairs demoZhuyin).map Prod.snd).Nodup ∧
    u!"er" ∈ (Spec.tablePairs demoZhuyin).map Prod.snd ∧ u!"r" ∉ (Spec.tablePairs demoZhuyin).map Prod.snd ∧
    0x23 ∉ Spec.normal (fun s => s.map Spec.lowerChr) u!"De5 niu2r" := by
  unfold Spec.RowsOk
  decide +kernel

end Cjk
