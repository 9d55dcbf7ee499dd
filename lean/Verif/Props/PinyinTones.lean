import Verif.Props.Pinyin
/-!
# Tones and conversion (C67, C68, C79)
-/

namespace Cjk
open Py

/-! ### Applying a tone (C67) -/

theorem vowelIndex_none {c : Nat} (h : ¬ Spec.IsVowel c) : vowelIndex c = none := by
  unfold Spec.IsVowel at h
  simp only [not_or] at h
  obtain ⟨h1, h2, h3, h4, h5, h6⟩ := h
  simp only [vowelIndex, pinyinVowels, findChr]
  simp [Ne.symm h1, Ne.symm h2, Ne.symm h3, Ne.symm h4, Ne.symm h5, Ne.symm h6]

/-- The marked form of a vowel in the table of the code. -/
theorem vowel_mark {c : Nat} (h : Spec.IsVowel c) (t : Int) (h0 : 0 ≤ t) (h4 : t ≤ 4) :
    ∃ i marked m, vowelIndex c = some i ∧ Dict.getItem toneToVowels t = .ok marked ∧ Py.getItem marked i = .ok m ∧
      (t = 0 → m = c) ∧ (t ≠ 0 → (m, c, t) ∈ Spec.marks) := by
  have ht : t = 0 ∨ t = 1 ∨ t = 2 ∨ t = 3 ∨ t = 4 := by omega
  unfold Spec.IsVowel at h
  rcases h with rfl | rfl | rfl | rfl | rfl | rfl <;> rcases ht with rfl | rfl | rfl | rfl | rfl <;>
    exact ⟨_, _, _, rfl, rfl, rfl, by decide, by decide⟩

theorem applyToneLoop_used (t : Int) (s : Str) : applyToneLoop t true s = .ok s := by
  induction s with
  | nil => rfl
  | cons c s ih =>
    rw [applyToneLoop]
    simp only [if_true, ih]
    rfl

theorem applyToneLoop_skip (t : Int) (a s : Str) (h : ∀ c ∈ a, ¬ Spec.IsVowel c) :
    applyToneLoop t false (a ++ s) = (applyToneLoop t false s).map (fun r => a ++ r) := by
  induction a with
  | nil => rw [List.nil_append]; cases applyToneLoop t false s <;> rfl
  | cons c a ih =>
    rw [List.cons_append, applyToneLoop, vowelIndex_none (h c (by simp)), ih (fun x hx => h x (by simp [hx]))]
    simp only [Bool.false_eq_true, if_false]
    cases applyToneLoop t false s <;> rfl

theorem applyToneLoop_vowel (t : Int) (h0 : 0 ≤ t) (h4 : t ≤ 4) (v : Nat) (hv : Spec.IsVowel v) (b : Str) :
    ∃ m, applyToneLoop t false (v :: b) = .ok (m :: b) ∧ (t = 0 → m = v) ∧ (t ≠ 0 → (m, v, t) ∈ Spec.marks) := by
  obtain ⟨i, marked, m, e1, e2, e3, e4, e5⟩ := vowel_mark hv t h0 h4
  refine ⟨m, ?_, e4, e5⟩
  rw [applyToneLoop]
  simp only [Bool.false_eq_true, if_false, e1, e2, e3, applyToneLoop_used]
  rfl

/-- The first vowel of a string. -/
theorem first_vowel (s : Str) : (∀ c ∈ s, ¬ Spec.IsVowel c) ∨
    ∃ a v b, s = a ++ v :: b ∧ (∀ c ∈ a, ¬ Spec.IsVowel c) ∧ Spec.IsVowel v := by
  induction s with
  | nil => left; simp
  | cons c s ih =>
    by_cases hc : Spec.IsVowel c
    · exact Or.inr ⟨[], c, s, rfl, by simp, hc⟩
    · rcases ih with h | ⟨a, v, b, rfl, h1, h2⟩
      · left
        intro x hx
        rcases List.mem_cons.1 hx with rfl | hx
        · exact hc
        · exact h x hx
      · refine Or.inr ⟨c :: a, v, b, rfl, ?_, h2⟩
        intro x hx
        rcases List.mem_cons.1 hx with rfl | hx
        · exact hc
        · exact h1 x hx

/-- C67: exactly what applying a tone does: the first vowel behind the first character gets the mark; nothing else changes. -/
theorem C67_exact (c : Nat) (s : Str) (t : Int) (h0 : 0 ≤ t) (h5 : t ≤ 5) :
    ((t = 0 ∨ t = 5 ∨ ∀ x ∈ s, ¬ Spec.IsVowel x) → applyTone (c :: s) t = .ok (c :: s)) ∧
    (∀ a v b, s = a ++ v :: b → (∀ x ∈ a, ¬ Spec.IsVowel x) → Spec.IsVowel v → t ≠ 0 → t ≠ 5 →
      ∃ m, applyTone (c :: s) t = .ok (c :: a ++ m :: b) ∧ (m, v, t) ∈ Spec.marks) := by
  constructor
  · intro h
    unfold applyTone
    simp only
    have key : ∀ t', (0 ≤ t' ∧ t' ≤ 4 ∧ (t' = 0 ∨ ∀ x ∈ s, ¬ Spec.IsVowel x)) → applyToneLoop t' false s = .ok s := by
      rintro t' ⟨h1, h2, h3⟩
      rcases first_vowel s with hn | ⟨a, v, b, rfl, ha, hv⟩
      · have := applyToneLoop_skip t' s [] hn
        rw [List.append_nil] at this
        rw [this]
        simp [applyToneLoop, Except.map]
      · rcases h3 with rfl | h3
        · obtain ⟨m, hm, h4, _⟩ := applyToneLoop_vowel 0 (by omega) (by omega) v hv b
          rw [applyToneLoop_skip 0 a _ ha, hm, h4 rfl]
          rfl
        · exact absurd hv (h3 v (by simp))
    rw [key]
    · rfl
    · split
      · exact ⟨by omega, by omega, Or.inl rfl⟩
      · rcases h with h | h | h
        · exact ⟨by omega, by omega, Or.inl h⟩
        · exact absurd h ‹_›
        · exact ⟨by omega, by omega, Or.inr h⟩
  · rintro a v b rfl ha hv ht0 ht5
    obtain ⟨m, hm, _, h4⟩ := applyToneLoop_vowel t h0 (by omega) v hv b
    refine ⟨m, ?_, h4 ht0⟩
    unfold applyTone
    simp only [if_neg ht5, applyToneLoop_skip t a _ ha, hm]
    rfl

theorem unmarkChr_mark {m v : Nat} {t : Int} (h : (m, v, t) ∈ Spec.marks) : Spec.unmarkChr m = v ∧ Spec.markTone m = some t := by
  have : ∀ x ∈ Spec.marks, Spec.unmarkChr x.1 = x.2.1 ∧ Spec.markTone x.1 = some x.2.2 := by decide +kernel
  exact this _ h

theorem unmarkChr_vowel {v : Nat} (h : Spec.IsVowel v) : Spec.unmarkChr v = v := by
  unfold Spec.IsVowel at h
  rcases h with rfl | rfl | rfl | rfl | rfl | rfl <;> decide +kernel

/-- C67: applying a tone to a syllable keeps the length, changes at most one character, and that from a plain vowel to the same vowel
with the mark of this tone; tones 0 and 5 change nothing; removing the marks gives back the syllable. -/
theorem C67_preserves (s : Str) (hs : s ≠ []) (t : Int) (h0 : 0 ≤ t) (h5 : t ≤ 5) :
    ∃ r, applyTone s t = .ok r ∧ r.length = s.length ∧ Spec.unmark r = Spec.unmark s ∧ (t = 0 ∨ t = 5 → r = s) ∧
      (r = s ∨ ∃ a v m b, s = a ++ v :: b ∧ r = a ++ m :: b ∧ (m, v, t) ∈ Spec.marks) := by
  cases s with
  | nil => exact absurd rfl hs
  | cons c s =>
    obtain ⟨h1, h2⟩ := C67_exact c s t h0 h5
    by_cases ht : t = 0 ∨ t = 5
    · refine ⟨c :: s, h1 (by rcases ht with h | h <;> simp [h]), rfl, rfl, fun _ => rfl, Or.inl rfl⟩
    · rcases first_vowel s with hn | ⟨a, v, b, rfl, ha, hv⟩
      · exact ⟨c :: s, h1 (Or.inr (Or.inr hn)), rfl, rfl, fun _ => rfl, Or.inl rfl⟩
      · obtain ⟨m, hm, hmark⟩ := h2 a v b rfl ha hv (fun h => ht (Or.inl h)) (fun h => ht (Or.inr h))
        refine ⟨_, hm, by simp, ?_, fun h => absurd h ht, Or.inr ⟨c :: a, v, m, b, rfl, rfl, hmark⟩⟩
        simp [Spec.unmark, (unmarkChr_mark hmark).1, unmarkChr_vowel hv]

/-- The tone that can be read off a string: that of its first marked character. -/
def Spec.readTone (s : Str) : Option Int := s.findSome? Spec.markTone

/-- C67 (partial): if the syllable has a vowel behind its first character, and no marks yet, the tone can be read off the result (0 and
5 leave no mark).  The full statement is without the condition on the vowel, and false (see below). -/
theorem C67_recover_partial (c : Nat) (s : Str) (hv : ∃ v ∈ s, Spec.IsVowel v) (hm : ∀ x ∈ c :: s, Spec.markTone x = none)
    (t : Int) (h0 : 0 ≤ t) (h5 : t ≤ 5) :
    ∃ r, applyTone (c :: s) t = .ok r ∧ Spec.readTone r = if t = 0 ∨ t = 5 then none else some t := by
  have none_of : ∀ l : Str, (∀ x ∈ l, Spec.markTone x = none) → ∀ l', Spec.readTone (l ++ l') = Spec.readTone l' := by
    intro l hl l'
    unfold Spec.readTone
    rw [List.findSome?_append, List.findSome?_eq_none_iff.2 hl]; rfl
  obtain ⟨h1, h2⟩ := C67_exact c s t h0 h5
  by_cases ht : t = 0 ∨ t = 5
  · refine ⟨c :: s, h1 (by rcases ht with h | h <;> simp [h]), ?_⟩
    rw [if_pos ht]
    exact List.findSome?_eq_none_iff.2 hm
  · rcases first_vowel s with hn | ⟨a, v, b, rfl, ha, hv'⟩
    · obtain ⟨v, h3, h4⟩ := hv
      exact absurd h4 (hn v h3)
    · obtain ⟨m, hm2, hmark⟩ := h2 a v b rfl ha hv' (fun h => ht (Or.inl h)) (fun h => ht (Or.inr h))
      refine ⟨_, hm2, ?_⟩
      rw [if_neg ht, none_of (c :: a) (fun x hx => hm x (by
        rcases List.mem_cons.1 hx with rfl | hx
        · simp
        · simp [hx]))]
      simp [Spec.readTone, (unmarkChr_mark hmark).2]

/-- C67 as stated is false: a syllable whose only vowel is its first character loses its tone. -/
theorem C67_recover_refuted : applyTone u!"e" 4 = .ok u!"e" ∧ applyTone u!"e" 0 = .ok u!"e" ∧ applyTone u!"an" 4 = .ok u!"an" := by
  decide +kernel

example : applyTone u!"niu" 2 = .ok u!"níu" := by decide +kernel
example : (∃ v ∈ u!"iu", Spec.IsVowel v) ∧ ∀ x ∈ u!"niu", Spec.markTone x = none :=
  ⟨⟨0x69, by decide +kernel, by unfold Spec.IsVowel; decide +kernel⟩, by decide +kernel⟩
/- The mark goes to the wrong vowel when the first character is one. -/
example : applyTone u!"ai" 4 = .ok u!"aì" := by decide +kernel

/-! ### `strip_tones` and `from_ascii` (C68) -/

theorem normalize_idem {lower : Str → Str} (hlow : Spec.IsLower lower) (s : Str) :
    pinyinNormalize lower (pinyinNormalize lower s) = pinyinNormalize lower s := by
  have h1 : lower (pinyinNormalize lower s) = pinyinNormalize lower s := by
    apply hlow.stable s
    intro c hc
    unfold pinyinNormalize at hc
    rw [show (u!"ü" : Str) = [0xfc] from rfl, replaceChr_single, replaceChr_nil_filter, List.mem_map] at hc
    obtain ⟨x, hx, rfl⟩ := hc
    split
    · exact Or.inr rfl
    · exact Or.inl (List.mem_filter.1 hx).1
  have h2 : ∀ c ∈ pinyinNormalize lower s, c ≠ 0x20 ∧ c ≠ 0x76 := by
    intro c hc
    unfold pinyinNormalize at hc
    rw [show (u!"ü" : Str) = [0xfc] from rfl, replaceChr_single, replaceChr_nil_filter, List.mem_map] at hc
    obtain ⟨x, hx, rfl⟩ := hc
    have := (List.mem_filter.1 hx).2
    simp only [ne_eq, decide_not, Bool.not_eq_true', decide_eq_false_iff_not] at this
    split <;> omega
  generalize hn : pinyinNormalize lower s = n at h1 h2
  unfold pinyinNormalize
  rw [h1, show (u!"ü" : Str) = [0xfc] from rfl, replaceChr_single, replaceChr_nil_filter,
    List.filter_eq_self.2 (fun c hc => by simpa using (h2 c hc).1)]
  have : ∀ c ∈ n, (if c = 0x76 then 0xfc else c) = c := fun c hc => if_neg (h2 c hc).2
  rw [List.map_congr_left this, List.map_id']

theorem segment_normalize {lower : Str → Str} (hlow : Spec.IsLower lower) (seg : List Str) (s : Str) :
    segmentPinyin lower seg (pinyinNormalize lower s) = segmentPinyin lower seg s := by
  unfold segmentPinyin
  rw [normalize_idem hlow]

/-- C68: `strip_tones(x)` is the concatenation of the syllables of `segment_pinyin(x)`. -/
theorem C68_strip (lower : Str → Str) (hlow : Spec.IsLower lower) (seg : List Str) (s : Str) (out : List (Str × Int))
    (h : segmentPinyin lower seg s = .ok out) : stripTones lower seg s = .ok (out.flatMap Prod.fst) := by
  unfold stripTones
  rw [segment_normalize hlow, h]
  simp [List.flatMap]

theorem segments_tone_range {syls : List Str} {text : Str} {out : List (Str × Int)} (h : Spec.Segments syls text out) :
    ∀ p ∈ out, 0 ≤ p.2 ∧ p.2 ≤ 5 := by
  induction h with
  | nil => simp
  | syllable s tone rest t out _ _ ht _ _ ih =>
    intro p hp
    rcases List.mem_cons.1 hp with rfl | hp
    · cases ht with
      | none => simp
      | digit d hd => simp; omega
    · exact ih p hp
  | hash rest out _ _ ih =>
    intro p hp
    rcases List.mem_cons.1 hp with rfl | hp
    · simp
    · exact ih p hp
  | skip c rest out _ _ _ ih => exact ih

/-- An empty syllable is reported exactly for a `#`. -/
theorem segments_hash {syls : List Str} (hw : [] ∉ syls) (hh : ∀ s ∈ syls, 0x23 ∉ s) {text : Str} {out : List (Str × Int)}
    (h : Spec.Segments syls text out) : (∃ p ∈ out, p.1 = []) ↔ 0x23 ∈ text := by
  induction h with
  | nil => simp
  | syllable s tone rest t out hm _ ht _ _ ih =>
    have h1 : Spec.reported s ≠ [] := by
      unfold Spec.reported
      split
      · simp
      · rintro rfl; exact hw hm
    have h2 : 0x23 ∉ tone := by
      cases ht with
      | none => simp
      | digit d hd => simp; omega
    simp only [List.mem_append, hh s hm, h2, false_or]
    rw [← ih]
    constructor
    · rintro ⟨p, hp, he⟩
      rcases List.mem_cons.1 hp with rfl | hp
      · exact absurd he h1
      · exact ⟨p, hp, he⟩
    · rintro ⟨p, hp, he⟩; exact ⟨p, by simp [hp], he⟩
  | hash rest out _ _ ih => simp
  | skip c rest out hc _ _ ih => simp [ih, Ne.symm hc]

theorem applyTones_ok (out : List (Str × Int)) (h : ∀ p ∈ out, p.1 ≠ [] ∧ 0 ≤ p.2 ∧ p.2 ≤ 5) :
    ∃ r, applyTones out = .ok r ∧ r.length = (out.flatMap Prod.fst).length ∧ Spec.unmark r = Spec.unmark (out.flatMap Prod.fst) := by
  induction out with
  | nil => exact ⟨[], rfl, rfl, rfl⟩
  | cons p out ih =>
    obtain ⟨s, t⟩ := p
    obtain ⟨h1, h2, h3⟩ := h (s, t) (by simp)
    obtain ⟨r, hr, hlr, hur⟩ := ih (fun p hp => h p (by simp [hp]))
    obtain ⟨r', hr', hlr', hur', _⟩ := C67_preserves s h1 t h2 h3
    refine ⟨r' ++ r, ?_, ?_, ?_⟩
    · rw [applyTones, hr', hr]; rfl
    · simp [List.flatMap_cons, hlr, hlr']
    · unfold Spec.unmark at *
      rw [List.map_append, hur, hur', List.flatMap_cons, List.map_append]

theorem applyTones_error (out : List (Str × Int)) (hr : ∀ p ∈ out, 0 ≤ p.2 ∧ p.2 ≤ 5) (h : ∃ p ∈ out, p.1 = []) :
    applyTones out = .error .indexError := by
  induction out with
  | nil => obtain ⟨_, h, _⟩ := h; cases h
  | cons p out ih =>
    obtain ⟨s, t⟩ := p
    rw [applyTones]
    cases s with
    | nil => rfl
    | cons c s =>
      obtain ⟨r', hr', _⟩ := C67_preserves (c :: s) (by simp) t (hr (c :: s, t) (by simp)).1 (hr (c :: s, t) (by simp)).2
      rw [hr']
      simp only
      rw [ih (fun p hp => hr p (by simp [hp]))]
      · rfl
      · obtain ⟨p, hp, he⟩ := h
        rcases List.mem_cons.1 hp with rfl | hp
        · cases he
        · exact ⟨p, hp, he⟩

/-- C68: `from_ascii(x)` is `strip_tones(x)` up to tone marks, for every text without `#` (and syllables without `#`); with a `#` it
raises IndexError. -/
theorem C68_from_ascii (lower : Str → Str) (hlow : Spec.IsLower lower) (lines : List Str) (seg : List Str)
    (h : newSegmenter lines = .ok seg) (hh : ∀ p ∈ (Spec.tablePairs lines).map Prod.snd, 0x23 ∉ p) (s : Str) :
    (0x23 ∉ Spec.normal lower s → ∃ r q, fromAscii lower seg s = .ok r ∧ stripTones lower seg s = .ok q ∧
      r.length = q.length ∧ Spec.unmark r = Spec.unmark q) ∧
    (0x23 ∈ Spec.normal lower s → fromAscii lower seg s = .error .indexError) := by
  obtain ⟨out, ho⟩ := C69_total lower lines seg h s
  have hseg := (C69_longest lower lines seg h s out).1 ho
  obtain ⟨_, hp, _, hw, _⟩ := newSegmenter_spec h
  have hw2 : ([] : Str) ∉ [0x72] :: (Spec.tablePairs lines).map Prod.snd := by rw [← hp.mem_iff]; exact hw
  have hh2 : ∀ s ∈ [0x72] :: (Spec.tablePairs lines).map Prod.snd, 0x23 ∉ s := by
    intro s hs
    rcases List.mem_cons.1 hs with rfl | hs
    · simp
    · exact hh s hs
  have hiff := segments_hash hw2 hh2 hseg
  have hrange := segments_tone_range hseg
  constructor
  · intro hno
    rw [← hiff] at hno
    obtain ⟨r, h1, h2, h3⟩ := applyTones_ok out (fun p hp => ⟨fun e => hno ⟨p, hp, e⟩, hrange p hp⟩)
    refine ⟨r, _, ?_, C68_strip lower hlow seg s out ho, h2, h3⟩
    unfold fromAscii
    rw [segment_normalize hlow, ho]
    exact h1
  · intro hyes
    unfold fromAscii
    rw [segment_normalize hlow, ho]
    exact applyTones_error out hrange (hiff.2 hyes)

/-! ### `from_hanzi` -/

theorem fromHanziLoop_append (lower : Str → Str) (seg : List Str) (table : Dict Str (List Str)) (i u : Bool) (f : Nat → Str) (s : Str)
    (h : ∀ c ∈ s, fromHanziChar lower seg table i u c = .ok (f c)) : fromHanziLoop lower seg table i u s = .ok (s.flatMap f) := by
  induction s with
  | nil => rfl
  | cons c s ih =>
    rw [fromHanziLoop, h c (by simp), ih (fun x hx => h x (by simp [hx]))]
    rfl

/-- C68 (partial): with numbered tones (`inline=False`), a known hanzi becomes its first reading and any other character is passed
through unchanged.  The full statement is for all settings, and false for the others (see below). -/
theorem C68_hanzi_partial (lower : Str → Str) (seg : List Str) (table : Dict Str (List Str))
    (hr : ∀ k rs, Dict.get? table k = some rs → rs ≠ []) (s : Str) :
    fromHanzi lower seg table false true s =
      .ok (s.flatMap (fun c => match Dict.get? table [c] with | some (r :: _) => r | _ => [c])) := by
  apply fromHanziLoop_append
  intro c _
  unfold fromHanziChar
  cases hc : Dict.get? table [c] with
  | none => rfl
  | some rs =>
    cases rs with
    | nil => exact absurd rfl (hr _ _ hc)
    | cons r rs => rfl

/-- C68: with tone marks, `from_hanzi` is `from_ascii` of the first reading of each hanzi, one after the other; without tones it is
`strip_tones` of it (whatever `inline` says). -/
theorem C68_hanzi_known (lower : Str → Str) (seg : List Str) (table : Dict Str (List Str)) (s : Str) (f g : Nat → Str)
    (h : ∀ c ∈ s, ∃ r rs, Dict.get? table [c] = some (r :: rs) ∧ fromAscii lower seg r = .ok (f c) ∧ stripTones lower seg r = .ok (g c)) :
    fromHanzi lower seg table true true s = .ok (s.flatMap f) ∧
    ∀ inline, fromHanzi lower seg table inline false s = .ok (s.flatMap g) := by
  refine ⟨?_, fun inline => ?_⟩
  · apply fromHanziLoop_append
    intro c hc
    obtain ⟨r, rs, h1, h2, h3⟩ := h c hc
    unfold fromHanziChar
    rw [h1]
    exact h2
  · apply fromHanziLoop_append
    intro c hc
    obtain ⟨r, rs, h1, h2, h3⟩ := h c hc
    unfold fromHanziChar
    rw [h1]
    exact h3

/-- C68: a character that is neither in the table nor the beginning of a syllable is dropped with tone marks and without tones. -/
theorem C68_unknown_dropped (lower : Str → Str) (hlow : Spec.IsLower lower) (lines : List Str) (seg : List Str)
    (h : newSegmenter lines = .ok seg) (table : Dict Str (List Str)) (c : Nat) (hc : c ≠ 0x23)
    (hn : Spec.normal lower [c] = [c]) (hno : [c] ∉ [0x72] :: (Spec.tablePairs lines).map Prod.snd)
    (ht : Dict.get? table [c] = none) :
    fromHanzi lower seg table true true [c] = .ok [] ∧ fromHanzi lower seg table true false [c] = .ok [] := by
  have hseg : segmentPinyin lower seg [c] = .ok [] := by
    rw [C69_longest lower lines seg h, hn]
    refine .skip c [] [] hc ?_ .nil
    rintro s hs ⟨u, hu⟩
    obtain ⟨_, hp, _, hw, _⟩ := newSegmenter_spec h
    cases s with
    | nil => exact hw (hp.mem_iff.2 hs)
    | cons x s =>
      simp only [List.cons_append, List.cons.injEq, List.append_eq_nil_iff] at hu
      obtain ⟨rfl, rfl, rfl⟩ := hu
      exact hno hs
  have h1 : fromAscii lower seg [c] = .ok [] := by
    unfold fromAscii; rw [segment_normalize hlow, hseg]; rfl
  have h2 : stripTones lower seg [c] = .ok [] := C68_strip lower hlow seg [c] [] hseg
  constructor
  · have := fromHanziLoop_append lower seg table true true (fun _ => []) [c] (by
      intro x hx
      rw [List.mem_singleton] at hx
      subst hx
      unfold fromHanziChar
      rw [ht]; exact h1)
    simpa [fromHanzi] using this
  · have := fromHanziLoop_append lower seg table false false (fun _ => []) [c] (by
      intro x hx
      rw [List.mem_singleton] at hx
      subst hx
      unfold fromHanziChar
      rw [ht]; exact h2)
    simpa [fromHanzi] using this

/-- C68 as stated is false: punctuation between hanzi disappears. -/
theorem C68_hanzi_refuted : ∃ seg table, newSegmenter demoZhuyin = .ok seg ∧ newPinyinTable [u!"你 ni3\n"] = .ok table ∧
    fromHanzi (fun s => s.map Spec.lowerChr) seg table true true u!"你。" = .ok u!"nǐ" :=
  ⟨_, _, rfl, rfl, by decide +kernel⟩

example : ∀ p ∈ (Spec.tablePairs demoZhuyin).map Prod.snd, 0x23 ∉ p := by decide +kernel
example : fromAscii (fun s => s.map Spec.lowerChr) [u!"niu", u!"dai", u!"ni", u!"de", u!"er", u!"r"] u!"de5niu2 Dai4" = .ok u!"deníudài" := by
  decide +kernel
example : Spec.normal (fun s => s.map Spec.lowerChr) u!"。" = u!"。" ∧ u!"。" ∉ [0x72] :: (Spec.tablePairs demoZhuyin).map Prod.snd := by
  decide +kernel

/-! ### The hanzi table (C79) -/

/-- The entries of the table file. -/
def Spec.hanziRows (lines : List Str) : List (Str × List Str) :=
  (Spec.tableRows lines).map (fun r => (r.headD [], r.tail))

theorem pinyinTableLoop_ok (lines : List Str) (t : Dict Str (List Str)) (h : ∀ r ∈ Spec.tableRows lines, r ≠ []) :
    pinyinTableLoop t lines = .ok ((Spec.hanziRows lines).foldl (fun t p => Dict.set t p.1 p.2) t) := by
  induction lines generalizing t with
  | nil => rfl
  | cons l lines ih =>
    rw [pinyinTableLoop.eq_2, startsWith_hash, splitWs_rstrip]
    by_cases hl : l.head? = some 0x23
    · have e : Spec.tableRows (l :: lines) = Spec.tableRows lines := by simp [Spec.tableRows, hl]
      have e2 : Spec.hanziRows (l :: lines) = Spec.hanziRows lines := by simp [Spec.hanziRows, e]
      simp only [hl, decide_true, if_true, e2]
      exact ih t (by rw [← e]; exact h)
    · have e : Spec.tableRows (l :: lines) = splitWs l :: Spec.tableRows lines := by simp [Spec.tableRows, hl]
      simp only [hl, decide_false, Bool.false_eq_true, if_false]
      rw [e] at h
      cases hs : splitWs l with
      | nil => exact absurd hs (h _ (by simp))
      | cons k rs =>
        have e2 : Spec.hanziRows (l :: lines) = (k, rs) :: Spec.hanziRows lines := by simp [Spec.hanziRows, e, hs]
        simp only [e2, List.foldl_cons]
        exact ih _ (fun r hr => h r (by simp [hr]))

theorem pinyinTableLoop_error (lines : List Str) (t : Dict Str (List Str)) (h : ∃ r ∈ Spec.tableRows lines, r = []) :
    pinyinTableLoop t lines = .error .indexError := by
  induction lines generalizing t with
  | nil => obtain ⟨_, h, _⟩ := h; cases h
  | cons l lines ih =>
    rw [pinyinTableLoop.eq_2, startsWith_hash, splitWs_rstrip]
    by_cases hl : l.head? = some 0x23
    · have e : Spec.tableRows (l :: lines) = Spec.tableRows lines := by simp [Spec.tableRows, hl]
      simp only [hl, decide_true, if_true]
      exact ih t (by rw [← e]; exact h)
    · have e : Spec.tableRows (l :: lines) = splitWs l :: Spec.tableRows lines := by simp [Spec.tableRows, hl]
      simp only [hl, decide_false, Bool.false_eq_true, if_false]
      rw [e] at h
      cases hs : splitWs l with
      | nil => rfl
      | cons k rs =>
        obtain ⟨r, hr, he⟩ := h
        rcases List.mem_cons.1 hr with rfl | hr
        · rw [hs] at he; cases he
        · exact ih _ ⟨r, hr, he⟩

/-- C79: the hanzi table maps each hanzi to the readings of its last line and has no other keys; it is read iff no line is blank, and
IndexError is raised otherwise. -/
theorem C79_table (lines : List Str) :
    ((∀ r ∈ Spec.tableRows lines, r ≠ []) → ∃ t, newPinyinTable lines = .ok t ∧ ∀ k, Dict.get? t k = Spec.lastValue k (Spec.hanziRows lines)) ∧
    ((∃ r ∈ Spec.tableRows lines, r = []) → newPinyinTable lines = .error .indexError) := by
  unfold newPinyinTable
  refine ⟨fun h => ⟨_, pinyinTableLoop_ok lines [] h, fun k => ?_⟩, pinyinTableLoop_error lines []⟩
  rw [get?_foldl_set]; simp [Dict.get?]

example : newPinyinTable [u!"# hanzi\n", u!"你 ni3\n", u!"了 le5 liao3\n", u!"你 ni2\n"] =
    .ok [(u!"你", [u!"ni2"]), (u!"了", [u!"le5", u!"liao3"])] := by decide +kernel
example : newPinyinTable [u!"你 ni3\n", u!"\n"] = .error .indexError := by decide +kernel

end Cjk
