import Verif.Spec.Pinyin
import Verif.Model.Pinyin
import Verif.Py.ReGroup
import Verif.Props.Zhuyin
/-!
# Segmentation of pinyin (C66, C69, C78)
-/

namespace Cjk
open Py

theorem splitWs_mem_ne_nil (s : Str) : ∀ w ∈ splitWs s, w ≠ [] := by
  have aux : ∀ (s cur : Str), ∀ w ∈ splitWsAux cur s, w ≠ [] := by
    intro s
    induction s with
    | nil =>
      intro cur w hw
      rw [splitWsAux] at hw
      split at hw
      · cases hw
      · rename_i hc
        rw [List.mem_singleton] at hw
        subst hw
        intro e
        rw [List.reverse_eq_nil_iff] at e
        exact hc (by simp [e])
    | cons c s ih =>
      intro cur w hw
      rw [splitWsAux] at hw
      split at hw
      · split at hw
        · exact ih _ w hw
        · rename_i hc
          rcases List.mem_cons.1 hw with rfl | hw
          · intro e
            rw [List.reverse_eq_nil_iff] at e
            exact hc (by simp [e])
          · exact ih _ w hw
      · exact ih _ w hw
  exact aux s []

/-! ### The pattern -/

theorem run_litAlts (syls : List Str) (s : Str) (c : Caps) (hne : syls ≠ []) :
    (litAlts syls).run s c = (syls.filter (fun a => a.isPrefixOf s)).map (fun a => (s.drop a.length, c)) := by
  induction syls with
  | nil => exact absurd rfl hne
  | cons a l ih =>
    cases l with
    | nil =>
      rw [litAlts, Re.run_lit]
      cases h : a.isPrefixOf s <;> simp [h]
    | cons b l =>
      rw [litAlts.eq_3 _ _ (by simp), Re.run, Re.run_lit, ih (by simp)]
      rw [List.filter_cons (x := a)]
      cases h : a.isPrefixOf s <;> simp

theorem litAlts_nil_run {syls : List Str} {s : Str} {c : Caps} (hne : syls ≠ []) (h : ∀ a ∈ syls, ¬ a <+: s) :
    (litAlts syls).run s c = [] := by
  rw [run_litAlts _ _ _ hne]
  have : syls.filter (fun a => a.isPrefixOf s) = [] := by
    rw [List.filter_eq_nil_iff]
    intro a ha
    rw [List.isPrefixOf_iff_prefix]
    exact h a ha
  rw [this]; rfl

/-- With the syllables sorted, the alternative taken is the longest one. -/
theorem first_litAlts {syls : List Str} (hs : syls.Pairwise (fun a b => b.length ≤ a.length)) {a t : Str} (ha : a ∈ syls)
    (hmax : ∀ b ∈ syls, b <+: a ++ t → b.length ≤ a.length) (c : Caps) : (litAlts syls).first (a ++ t) c = some (t, c) := by
  unfold Re.first
  rw [run_litAlts _ _ _ (List.ne_nil_of_mem ha), List.head?_map]
  have hmem : a ∈ syls.filter (fun b => b.isPrefixOf (a ++ t)) := by
    rw [List.mem_filter, List.isPrefixOf_iff_prefix]
    exact ⟨ha, List.prefix_append _ _⟩
  have hpair := hs.filter (fun b => b.isPrefixOf (a ++ t))
  cases hf : syls.filter (fun b => b.isPrefixOf (a ++ t)) with
  | nil => rw [hf] at hmem; cases hmem
  | cons b l =>
    have hb : b ∈ syls.filter (fun b => b.isPrefixOf (a ++ t)) := by rw [hf]; simp
    rw [List.mem_filter, List.isPrefixOf_iff_prefix] at hb
    have h1 := hmax b hb.1 hb.2
    have h2 : a.length ≤ b.length := by
      rw [hf] at hmem hpair
      rw [List.pairwise_cons] at hpair
      rcases List.mem_cons.1 hmem with rfl | hm
      · exact Nat.le_refl _
      · exact hpair.1 a hm
    have h3 : b = a := by
      obtain ⟨u, hu⟩ := hb.2
      exact (List.append_inj hu (by omega)).1
    subst h3
    simp

/-- The captures of a syllable with its tone. -/
def pinyinCaps (s tone : Str) : Caps := Dict.set (Dict.set (Dict.set [] u!"pinyin" s) u!"tone" tone) u!"block" (s ++ tone)

theorem isToneDigit_iff (c : Nat) : isToneDigit c = true ↔ Spec.ToneDigit c := by
  simp [isToneDigit, Spec.ToneDigit]

theorem pinyinRe_syllable {syls : List Str} (hs : syls.Pairwise (fun a b => b.length ≤ a.length)) {a tone rest : Str} {t : Int}
    (ha : a ∈ syls) (hmax : ∀ b ∈ syls, b <+: a ++ (tone ++ rest) → b.length ≤ a.length) (ht : Spec.ToneText tone t)
    (hend : tone = [] → ∀ c, rest.head? = some c → ¬ Spec.ToneDigit c) :
    (pinyinRe syls).first ((a ++ tone) ++ rest) [] = some (rest, pinyinCaps a tone) := by
  unfold pinyinRe pinyinCaps
  refine Re.first_group' (Re.first_alt_left ?_)
  rw [List.append_assoc]
  refine Re.first_seq (Re.first_group' (first_litAlts hs ha hmax [])) ?_
  refine Re.first_group' ?_
  cases ht with
  | none =>
    unfold Re.opt
    rw [List.nil_append, Re.first_alt_right]
    · rfl
    · cases rest with
      | nil => rfl
      | cons x rest =>
        apply Re.run_chr_false
        have := hend rfl x rfl
        rw [← isToneDigit_iff] at this
        simpa using this
  | digit d hd =>
    refine Re.first_alt_left (Re.first_chr ?_)
    rw [isToneDigit_iff]
    unfold Spec.ToneDigit
    omega

theorem pinyinRe_hash {syls : List Str} (hne : syls ≠ []) {rest : Str} (h : ∀ s ∈ syls, ¬ s <+: 0x23 :: rest) :
    (pinyinRe syls).first ([0x23] ++ rest) [] = some (rest, Dict.set [] u!"block" [0x23]) := by
  unfold pinyinRe
  refine Re.first_group' ?_
  rw [Re.first_alt_right]
  · exact Re.first_lit [0x23] rest []
  · apply Re.run_seq_nil_left
    rw [Re.run, show [0x23] ++ rest = 0x23 :: rest from rfl, litAlts_nil_run hne h]; rfl

theorem pinyinRe_none {syls : List Str} (hne : syls ≠ []) {c : Nat} {rest : Str} (hc : c ≠ 0x23)
    (h : ∀ s ∈ syls, ¬ s <+: c :: rest) : (pinyinRe syls).first (c :: rest) [] = none := by
  rw [Re.first_eq_none]
  unfold pinyinRe
  rw [Re.run, Re.run, Re.run_seq_nil_left (by rw [Re.run, litAlts_nil_run hne h]; rfl), Re.run_lit_ne]
  · rfl
  · rintro ⟨u, hu⟩
    cases hu
    exact hc rfl

theorem pinyinRe_nil {syls : List Str} (hne : syls ≠ []) (hw : [] ∉ syls) : (pinyinRe syls).first [] [] = none := by
  rw [Re.first_eq_none]
  unfold pinyinRe
  rw [Re.run, Re.run, Re.run_seq_nil_left]
  · rfl
  · rw [Re.run, litAlts_nil_run hne]
    · rfl
    · rintro a ha ⟨u, hu⟩
      rw [List.append_eq_nil_iff] at hu
      rw [hu.1] at ha
      exact hw ha

theorem toneOf_tone {tone : Str} {t : Int} (h : Spec.ToneText tone t) : toneOf tone = .ok t := by
  cases h with
  | none => rfl
  | digit d hd =>
    have : d = 0 ∨ d = 1 ∨ d = 2 ∨ d = 3 ∨ d = 4 ∨ d = 5 := by omega
    rcases this with rfl | rfl | rfl | rfl | rfl | rfl <;> decide +kernel

theorem toneText_nonempty {a tone : Str} (hw : a ≠ []) : a ++ tone ≠ [] := by
  cases a with
  | nil => exact absurd rfl hw
  | cons x a => simp

/-- Every segmentation is what the code computes. -/
theorem segments_correct {syls : List Str} (hs : syls.Pairwise (fun a b => b.length ≤ a.length)) (hne : syls ≠ []) (hw : [] ∉ syls)
    {text : Str} {out : List (Str × Int)} (h : Spec.Segments syls text out) :
    correctMatches ((pinyinRe syls).finditer text) = .ok out := by
  induction h with
  | nil => rw [Re.finditer_nil _ (pinyinRe_nil hne hw)]; rfl
  | syllable s tone rest t out hmem hmax htone hend _ ih =>
    have hs0 : s ≠ [] := by rintro rfl; exact hw hmem
    have h1 := pinyinRe_syllable hs hmem hmax htone hend
    rw [← List.append_assoc, Re.finditer_match _ _ _ _ (toneText_nonempty hs0) h1, correctMatches]
    have e1 : Dict.get? (pinyinCaps s tone) u!"tone" = some tone := by
      unfold pinyinCaps; simp [Dict.get?_set]
    have e2 : Dict.get? (pinyinCaps s tone) u!"pinyin" = some s := by
      unfold pinyinCaps; simp [Dict.get?_set]
    simp only [e1, e2, Option.getD_some, toneOf_tone htone, ih]
    rfl
  | hash rest out hno _ ih =>
    have h1 := pinyinRe_hash hne hno
    rw [show 0x23 :: rest = [0x23] ++ rest from rfl, Re.finditer_match _ _ _ _ (by simp) h1, correctMatches]
    have e1 : Dict.get? (Dict.set [] u!"block" [0x23] : Caps) u!"tone" = none := by decide
    have e2 : Dict.get? (Dict.set [] u!"block" [0x23] : Caps) u!"pinyin" = none := by decide
    simp only [e1, e2, Option.getD_none, ih]
    rfl
  | skip c rest out hc hno _ ih =>
    rw [Re.finditer_skip _ _ _ (pinyinRe_none hne hc hno)]
    exact ih

/-- Any list of strings with an element that satisfies `p` has a longest one. -/
theorem exists_longest (l : List Str) (p : Str → Prop) (h : ∃ a ∈ l, p a) :
    ∃ a ∈ l, p a ∧ ∀ b ∈ l, p b → b.length ≤ a.length := by
  classical
  induction l with
  | nil => obtain ⟨a, h, _⟩ := h; cases h
  | cons x l ih =>
    by_cases hl : ∃ a ∈ l, p a
    · obtain ⟨a, h1, h2, h3⟩ := ih hl
      by_cases hx : p x ∧ a.length < x.length
      · refine ⟨x, by simp, hx.1, ?_⟩
        intro b hb hpb
        rcases List.mem_cons.1 hb with rfl | hb
        · exact Nat.le_refl _
        · have := h3 b hb hpb; omega
      · refine ⟨a, by simp [h1], h2, ?_⟩
        intro b hb hpb
        rcases List.mem_cons.1 hb with rfl | hb
        · by_cases hlt : a.length < b.length
          · exact absurd ⟨hpb, hlt⟩ hx
          · omega
        · exact h3 b hb hpb
    · obtain ⟨a, h1, h2⟩ := h
      rcases List.mem_cons.1 h1 with rfl | h1
      · refine ⟨a, by simp, h2, ?_⟩
        intro b hb hpb
        rcases List.mem_cons.1 hb with rfl | hb
        · exact Nat.le_refl _
        · exact absurd ⟨b, hb, hpb⟩ hl
      · exact absurd ⟨a, h1, h2⟩ hl

/-- Every text has a segmentation. -/
theorem segments_exists (syls : List Str) (hw : [] ∉ syls) (text : Str) : ∃ out, Spec.Segments syls text out := by
  generalize hn : text.length = n
  induction n using Nat.strongRecOn generalizing text with
  | ind n ih =>
    cases text with
    | nil => exact ⟨[], .nil⟩
    | cons c text =>
      simp only [List.length_cons] at hn
      by_cases h : ∃ s ∈ syls, s <+: c :: text
      · obtain ⟨s, hs, ⟨u, hu⟩, hmax⟩ := exists_longest syls (fun s => s <+: c :: text) h
        have hs0 : s ≠ [] := by rintro rfl; exact hw hs
        have hl := congrArg List.length hu
        simp only [List.length_append, List.length_cons] at hl
        have hpos : 0 < s.length := List.length_pos_iff.2 hs0
        rw [← hu] at hmax ⊢
        by_cases hd : ∃ d rest, d ≤ 5 ∧ u = (0x30 + d) :: rest
        · obtain ⟨d, rest, hd5, rfl⟩ := hd
          simp only [List.length_cons] at hl
          obtain ⟨out, ho⟩ := ih rest.length (by omega) rest rfl
          exact ⟨_, .syllable s [0x30 + d] rest d out hs hmax (.digit d hd5) (by intro h; cases h) ho⟩
        · obtain ⟨out, ho⟩ := ih u.length (by omega) u rfl
          refine ⟨_, .syllable s [] u 0 out hs hmax .none ?_ ho⟩
          intro _ x hx hdig
          cases u with
          | nil => cases hx
          | cons y u =>
            simp only [List.head?_cons, Option.some.injEq] at hx
            subst hx
            obtain ⟨h1, h2⟩ := hdig
            exact hd ⟨y - 0x30, u, by omega, by congr 1; omega⟩
      · have hno : ∀ s ∈ syls, ¬ s <+: c :: text := fun s hs hp => h ⟨s, hs, hp⟩
        obtain ⟨out, ho⟩ := ih text.length (by omega) text rfl
        by_cases hc : c = 0x23
        · subst hc
          exact ⟨_, .hash text out hno ho⟩
        · exact ⟨_, .skip c text out hc hno ho⟩

/-- A segmenter of the code: its syllables are those of the file and `r`, sorted. -/
theorem newSegmenter_spec {lines : List Str} {seg : List Str} (h : newSegmenter lines = .ok seg) :
    Spec.RowsOk lines ∧ seg.Perm ([0x72] :: (Spec.tablePairs lines).map Prod.snd) ∧
    seg.Pairwise (fun a b => b.length ≤ a.length) ∧ [] ∉ seg ∧ seg ≠ [] := by
  haveI : Decidable (Spec.RowsOk lines) := inferInstanceAs (Decidable (∀ r ∈ _, _))
  unfold newSegmenter getAllPinyin at h
  rw [collectPinyin_eq] at h
  by_cases hr : Spec.RowsOk lines
  · rw [if_pos hr] at h
    cases h
    have hp := longestFirst_perm ([u!"r"] ++ (Spec.tablePairs lines).map Prod.snd)
    refine ⟨hr, hp, longestFirst_sorted _, ?_, ?_⟩
    · intro hm
      rw [hp.mem_iff, List.singleton_append] at hm
      rcases List.mem_cons.1 hm with h | h
      · cases h
      · rw [List.mem_map] at h
        obtain ⟨⟨z, p⟩, h1, rfl⟩ := h
        unfold Spec.tablePairs at h1
        rw [List.mem_map] at h1
        obtain ⟨r, hrm, he⟩ := h1
        have hlen := hr r hrm
        unfold Spec.tableRows at hrm
        rw [List.mem_map] at hrm
        obtain ⟨l, _, rfl⟩ := hrm
        have hne : ∀ w ∈ splitWs l, w ≠ [] := splitWs_mem_ne_nil l
        match hsp : splitWs l, hlen with
        | [a, b], _ =>
          rw [hsp] at he hne
          cases he
          exact hne [] (by simp) rfl
    · intro e
      have := hp.length_eq
      rw [e] at this
      cases this
  · rw [if_neg hr] at h; cases h

theorem replaceChr_nil_filter (c : Nat) (s : Str) : replaceChr c [] s = s.filter (fun x => x ≠ c) := by
  induction s with
  | nil => rfl
  | cons x s ih =>
    unfold replaceChr at *
    rw [List.flatMap_cons, ih]
    by_cases h : x = c <;> simp [h]

theorem replaceChr_single (c d : Nat) (s : Str) : replaceChr c [d] s = s.map (fun x => if x = c then d else x) := by
  induction s with
  | nil => rfl
  | cons x s ih =>
    unfold replaceChr at *
    rw [List.flatMap_cons, ih]
    by_cases h : x = c <;> simp [h]

theorem normalize_eq (lower : Str → Str) (s : Str) : pinyinNormalize lower s = Spec.normal lower s := by
  unfold pinyinNormalize Spec.normal
  rw [replaceChr_nil_filter]
  exact replaceChr_single 0x76 0xfc _

/-- C69: `segment_pinyin` scans from left to right and takes the longest syllable of the table (or `r`) at each position, with its
tone digit; nothing else is ever returned. -/
theorem C69_longest (lower : Str → Str) (lines : List Str) (seg : List Str) (h : newSegmenter lines = .ok seg) (s : Str)
    (out : List (Str × Int)) : segmentPinyin lower seg s = .ok out ↔
      Spec.Segments ([0x72] :: (Spec.tablePairs lines).map Prod.snd) (Spec.normal lower s) out := by
  rw [← normalize_eq]
  obtain ⟨_, hp, hs, hw, hne⟩ := newSegmenter_spec h
  have conv : ∀ {a b : List Str} {t o}, (∀ x, x ∈ a ↔ x ∈ b) → Spec.Segments a t o → Spec.Segments b t o := by
    intro a b t o hab hseg
    induction hseg with
    | nil => exact .nil
    | syllable s tone rest t out hmem hmax htone hend _ ih =>
      exact .syllable s tone rest t out ((hab _).1 hmem) (fun s' h' => hmax s' ((hab _).2 h')) htone hend ih
    | hash rest out hno _ ih => exact .hash rest out (fun s hs => hno s ((hab _).2 hs)) ih
    | skip c rest out hc hno _ ih => exact .skip c rest out hc (fun s hs => hno s ((hab _).2 hs)) ih
  unfold segmentPinyin
  constructor
  · intro ho
    obtain ⟨o2, h2⟩ := segments_exists seg hw (pinyinNormalize lower s)
    have h3 := segments_correct hs hne hw h2
    rw [ho] at h3
    cases h3
    exact conv (fun x => hp.mem_iff) h2
  · intro ho
    exact segments_correct hs hne hw (conv (fun x => hp.mem_iff.symm) ho)

/-- C69: segmentation succeeds for every string. -/
theorem C69_total (lower : Str → Str) (lines : List Str) (seg : List Str) (h : newSegmenter lines = .ok seg) (s : Str) :
    ∃ out, segmentPinyin lower seg s = .ok out := by
  obtain ⟨_, hp, hs, hw, hne⟩ := newSegmenter_spec h
  obtain ⟨o2, h2⟩ := segments_exists seg hw (pinyinNormalize lower s)
  exact ⟨o2, segments_correct hs hne hw h2⟩

/-- C69: the order of the lines of the table, and repeated syllables, make no difference. -/
theorem C69_order (lower : Str → Str) (lines lines' : List Str) (seg seg' : List Str) (h : newSegmenter lines = .ok seg)
    (h' : newSegmenter lines' = .ok seg')
    (hsame : ∀ p, p ∈ (Spec.tablePairs lines).map Prod.snd ↔ p ∈ (Spec.tablePairs lines').map Prod.snd) (s : Str) :
    segmentPinyin lower seg s = segmentPinyin lower seg' s := by
  obtain ⟨out, ho⟩ := C69_total lower lines seg h s
  have conv : ∀ {a b : List Str} {t o}, (∀ x, x ∈ a ↔ x ∈ b) → Spec.Segments a t o → Spec.Segments b t o := by
    intro a b t o hab hseg
    induction hseg with
    | nil => exact .nil
    | syllable s tone rest t out hmem hmax htone hend _ ih =>
      exact .syllable s tone rest t out ((hab _).1 hmem) (fun s' h' => hmax s' ((hab _).2 h')) htone hend ih
    | hash rest out hno _ ih => exact .hash rest out (fun s hs => hno s ((hab _).2 hs)) ih
    | skip c rest out hc hno _ ih => exact .skip c rest out hc (fun s hs => hno s ((hab _).2 hs)) ih
  rw [ho, Eq.comm, C69_longest lower lines' seg' h']
  exact conv (fun x => by simp only [List.mem_cons, hsame]) ((C69_longest lower lines seg h s out).1 ho)

/-! ### Fully toned texts -/

theorem segments_toned {syls : List Str} (hd : ∀ s ∈ syls, ∀ c ∈ s, ¬ Spec.ToneDigit c) (l : List (Str × Nat))
    (hl : ∀ p ∈ l, p.1 ∈ syls ∧ p.2 ≤ 5) :
    Spec.Segments syls (Spec.toned l) (l.map (fun p => (Spec.reported p.1, (p.2 : Int)))) := by
  induction l with
  | nil => exact .nil
  | cons p l ih =>
    obtain ⟨s, d⟩ := p
    obtain ⟨h1, h2⟩ := hl (s, d) (by simp)
    rw [Spec.toned, List.append_assoc]
    refine .syllable s [0x30 + d] (Spec.toned l) d _ h1 ?_ (.digit d h2) (by intro h; cases h)
      (ih (fun q hq => hl q (by simp [hq])))
    intro s' hs' hpre
    by_cases hlen : s'.length ≤ s.length
    · exact hlen
    · exfalso
      obtain ⟨u, hu⟩ := hpre
      have hget : (0x30 + d) ∈ s' := by
        have h3 : s <+: s' := List.prefix_of_prefix_length_le (List.prefix_append _ _) ⟨u, hu⟩ (by omega)
        obtain ⟨v, rfl⟩ := h3
        rw [List.append_assoc] at hu
        have h4 := List.append_cancel_left hu
        cases v with
        | nil => simp at hlen
        | cons y v =>
          simp only [List.cons_append, List.nil_append, List.cons.injEq] at h4
          rw [h4.1]; simp
      exact hd s' hs' _ hget ⟨by omega, by omega⟩

/-- C66: for every sequence of syllables of the table (or `r`), each with a tone digit 0 to 5, and every text that is this sequence
after normalising, `segment_pinyin` gives exactly the sequence. -/
theorem C66_toned (lower : Str → Str) (lines : List Str) (seg : List Str) (h : newSegmenter lines = .ok seg)
    (hd : ∀ p ∈ (Spec.tablePairs lines).map Prod.snd, ∀ c ∈ p, ¬ Spec.ToneDigit c)
    (l : List (Str × Nat)) (hl : ∀ p ∈ l, (p.1 = [0x72] ∨ p.1 ∈ (Spec.tablePairs lines).map Prod.snd) ∧ p.2 ≤ 5)
    (text : Str) (ht : Spec.normal lower text = Spec.toned l) :
    segmentPinyin lower seg text = .ok (l.map (fun p => (Spec.reported p.1, (p.2 : Int)))) := by
  rw [C69_longest lower lines seg h, ht]
  apply segments_toned
  · intro s hs c hc
    rcases List.mem_cons.1 hs with rfl | hs
    · rw [List.mem_singleton] at hc
      subst hc
      unfold Spec.ToneDigit; omega
    · exact hd s hs c hc
  · intro p hp
    exact ⟨List.mem_cons.2 (hl p hp).1, (hl p hp).2⟩

theorem normalize_ascii {lower : Str → Str} (hlow : Spec.IsLower lower) (s : Str) (hs : ∀ c ∈ s, c < 128) :
    pinyinNormalize lower s = Spec.canon s := by
  unfold pinyinNormalize Spec.canon
  rw [hlow.ascii s hs, replaceChr_nil_filter, show (u!"ü" : Str) = [0xfc] from rfl, replaceChr_single, List.filter_map, List.map_map]
  have : (fun x => decide (x ≠ 0x20)) ∘ Spec.lowerChr = fun c => decide (c ≠ 0x20) := by
    funext c
    simp only [Function.comp, Spec.lowerChr]
    split <;> simp <;> omega
  rw [this]
  rfl

/-- C66: and so for every way to type an ASCII text: spaces anywhere, any mixture of upper and lower case, `v` for `ü`. -/
theorem C66_spelling (lower : Str → Str) (hlow : Spec.IsLower lower) (lines : List Str) (seg : List Str)
    (h : newSegmenter lines = .ok seg) (hd : ∀ p ∈ (Spec.tablePairs lines).map Prod.snd, ∀ c ∈ p, ¬ Spec.ToneDigit c)
    (l : List (Str × Nat)) (hl : ∀ p ∈ l, (p.1 = [0x72] ∨ p.1 ∈ (Spec.tablePairs lines).map Prod.snd) ∧ p.2 ≤ 5)
    (text : Str) (hascii : ∀ c ∈ text, c < 128) (ht : Spec.canon text = Spec.toned l) :
    segmentPinyin lower seg text = .ok (l.map (fun p => (Spec.reported p.1, (p.2 : Int)))) :=
  C66_toned lower lines seg h hd l hl text (by rw [← normalize_eq, normalize_ascii hlow text hascii, ht])

/-- The ASCII part of `str.lower` meets what is asked of `lower`. -/
theorem isLower_ascii : Spec.IsLower (fun s => s.map Spec.lowerChr) := by
  refine ⟨fun _ _ => rfl, ?_⟩
  intro s t h
  show t.map Spec.lowerChr = t
  have key : ∀ c ∈ t, Spec.lowerChr c = c := by
    intro c hc
    unfold Spec.lowerChr
    rcases h c hc with h | rfl
    · rw [List.mem_map] at h
      obtain ⟨x, _, rfl⟩ := h
      unfold Spec.lowerChr
      split
      · split <;> omega
      · rfl
    · rfl
  rw [List.map_congr_left key, List.map_id']

example : newSegmenter demoZhuyin = .ok [u!"niu", u!"dai", u!"ni", u!"de", u!"er", u!"r"] := by decide +kernel
example : ∀ p ∈ (Spec.tablePairs demoZhuyin).map Prod.snd, ∀ c ∈ p, ¬ Spec.ToneDigit c := by
  unfold Spec.ToneDigit; decide +kernel
example : Spec.canon u!"De5 NIU2 r0" = Spec.toned [(u!"de", 5), (u!"niu", 2), (u!"r", 0)] := by decide +kernel
example : segmentPinyin (fun s => s.map Spec.lowerChr) [u!"niu", u!"dai", u!"ni", u!"de", u!"er", u!"r"] u!"De5 NIU2 r0" =
    .ok [(u!"de", 5), (u!"niu", 2), (u!"er", 0)] := by decide +kernel
/- Without tones the longest match can go wrong, as the skipped test of the code says. -/
example : segmentPinyin (fun s => s.map Spec.lowerChr) [u!"niu", u!"den", u!"dai", u!"ni", u!"de", u!"er", u!"r"] u!"deniu2" =
    .ok [(u!"den", 0)] := by decide +kernel

/-! ### `is_pinyin` -/

theorem rePlus_ne_nil (r : Re) (fuel : Nat) (s : Str) : rePlus r (fuel + 1) s ≠ [] ↔ r.run s [] ≠ [] := by
  rw [rePlus]
  cases r.run s [] with
  | nil => simp
  | cons m ms => simp

/-- C78: exactly when `is_pinyin` says yes: the normalised string begins with a syllable (or a `#`). -/
theorem C78_exact (lower : Str → Str) (lines : List Str) (seg : List Str) (h : newSegmenter lines = .ok seg) (s : Str) :
    isPinyin lower seg s = true ↔ (Spec.normal lower s).head? = some 0x23 ∨ [0x72] <+: Spec.normal lower s ∨
      ∃ p ∈ (Spec.tablePairs lines).map Prod.snd, p <+: Spec.normal lower s := by
  rw [← normalize_eq]
  obtain ⟨_, hp, hs, hw, hne⟩ := newSegmenter_spec h
  have e1 : isPinyin lower seg s = true ↔ (pinyinRe seg).run (pinyinNormalize lower s) [] ≠ [] := by
    rw [← rePlus_ne_nil _ (pinyinNormalize lower s).length]
    simp [isPinyin]
  rw [e1]
  generalize pinyinNormalize lower s = n
  have e2 : (∃ p ∈ seg, p <+: n) ↔ [0x72] <+: n ∨ ∃ p ∈ (Spec.tablePairs lines).map Prod.snd, p <+: n := by
    simp only [hp.mem_iff, List.mem_cons]
    constructor
    · rintro ⟨p, rfl | h, hx⟩
      · exact Or.inl hx
      · exact Or.inr ⟨p, h, hx⟩
    · rintro (h | ⟨p, h, hx⟩)
      · exact ⟨_, Or.inl rfl, h⟩
      · exact ⟨p, Or.inr h, hx⟩
  rw [← e2]
  constructor
  · intro hr
    by_cases hex : ∃ p ∈ seg, p <+: n
    · exact Or.inr hex
    · left
      cases n with
      | nil => exact absurd (Re.first_eq_none.1 (pinyinRe_nil hne hw)) hr
      | cons c n =>
        by_cases hc : c = 0x23
        · subst hc; rfl
        · exact absurd (Re.first_eq_none.1 (pinyinRe_none hne hc (fun s hs hp => hex ⟨s, hs, hp⟩))) hr
  · intro hx hnil
    rw [← Re.first_eq_none] at hnil
    by_cases hex : ∃ p ∈ seg, p <+: n
    · obtain ⟨out, ho⟩ := segments_exists seg hw n
      cases ho with
      | nil =>
        obtain ⟨p, hp1, u, hu⟩ := hex
        rw [List.append_eq_nil_iff] at hu
        rw [hu.1] at hp1
        exact hw hp1
      | syllable s tone rest t out hmem hmax htone hend _ =>
        have := pinyinRe_syllable hs hmem hmax htone hend
        rw [List.append_assoc] at this
        rw [this] at hnil
        cases hnil
      | hash rest out hno _ => obtain ⟨p, hp1, hp2⟩ := hex; exact hno p hp1 hp2
      | skip c rest out hc hno _ => obtain ⟨p, hp1, hp2⟩ := hex; exact hno p hp1 hp2
    · rcases hx with hx | hx
      · cases n with
        | nil => cases hx
        | cons c n =>
          simp only [List.head?_cons, Option.some.injEq] at hx
          subst hx
          have := pinyinRe_hash hne (rest := n) (fun s hs hp => hex ⟨s, hs, hp⟩)
          rw [List.singleton_append, hnil] at this
          cases this
      · exact hex hx

/-- C78 (partial): every string that consists of syllables with optional tones is accepted.  The full statement is an equivalence,
and that is false (see below). -/
theorem C78_accepts_partial (lower : Str → Str) (lines : List Str) (seg : List Str) (h : newSegmenter lines = .ok seg) (s : Str)
    (hs : Spec.AllPinyin ([0x72] :: (Spec.tablePairs lines).map Prod.snd) (Spec.normal lower s)) : isPinyin lower seg s = true := by
  rw [C78_exact lower lines seg h]
  right
  have key : ∃ p ∈ [0x72] :: (Spec.tablePairs lines).map Prod.snd, p <+: Spec.normal lower s := by
    generalize Spec.normal lower s = n at hs
    cases hs with
    | one s tone t hm _ => exact ⟨s, hm, List.prefix_append _ _⟩
    | more s tone rest t hm _ _ => exact ⟨s, hm, by rw [List.append_assoc]; exact List.prefix_append _ _⟩
  obtain ⟨p, h1, h2⟩ := key
  rcases List.mem_cons.1 h1 with rfl | h1
  · exact Or.inl h2
  · exact Or.inr ⟨p, h1, h2⟩

theorem allPinyin_chars {syls : List Str} {s : Str} (h : Spec.AllPinyin syls s) :
    ∀ c ∈ s, Spec.ToneDigit c ∨ ∃ p ∈ syls, c ∈ p := by
  have tone : ∀ {tone : Str} {t : Int}, Spec.ToneText tone t → ∀ c ∈ tone, Spec.ToneDigit c := by
    intro tone t h c hc
    cases h with
    | none => cases hc
    | digit d hd => rw [List.mem_singleton] at hc; subst hc; exact ⟨by omega, by omega⟩
  induction h with
  | one s tn t hm ht =>
    intro c hc
    rcases List.mem_append.1 hc with hc | hc
    · exact Or.inr ⟨s, hm, hc⟩
    · exact Or.inl (tone ht c hc)
  | more s tn rest t hm ht _ ih =>
    intro c hc
    rcases List.mem_append.1 hc with hc | hc
    · rcases List.mem_append.1 hc with hc | hc
      · exact Or.inr ⟨s, hm, hc⟩
      · exact Or.inl (tone ht c hc)
    · exact ih c hc

/-- C78 as stated is false: `is_pinyin` looks only at the beginning, so it accepts "de!". -/
theorem C78_accepts_refuted : ∃ seg, newSegmenter demoZhuyin = .ok seg ∧ isPinyin (fun s => s.map Spec.lowerChr) seg u!"de!" = true ∧
    ¬ Spec.AllPinyin ([0x72] :: (Spec.tablePairs demoZhuyin).map Prod.snd) (Spec.normal (fun s => s.map Spec.lowerChr) u!"de!") := by
  refine ⟨_, rfl, by decide +kernel, ?_⟩
  intro h
  have := allPinyin_chars h 0x21 (by decide +kernel)
  rcases this with h | h
  · unfold Spec.ToneDigit at h; omega
  · revert h; decide +kernel

end Cjk
