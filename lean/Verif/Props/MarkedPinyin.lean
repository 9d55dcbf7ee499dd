import Verif.Props.Pinyin
import Verif.Props.PinyinTones
import Mathlib.Data.List.Forall2
/-!
# C169: what can be read off a text with tone marks
-/

namespace Cjk
open Py

/-- Two tone digits that mean the same: 0 and 5 are both the neutral tone. -/
def Spec.SameTone (t t' : Int) : Prop := t = t' ∨ ((t = 0 ∨ t = 5) ∧ (t' = 0 ∨ t' = 5))

/-- No character of the syllable carries a tone mark already. -/
def Spec.Unmarked (s : Str) : Prop := ∀ c ∈ s, Spec.markTone c = none

/-- The syllable has a vowel behind its first character. -/
def Spec.LaterVowel (s : Str) : Prop := ∃ v ∈ s.tail, Spec.IsVowel v

theorem unmark_unmarked {s : Str} (h : Spec.Unmarked s) : Spec.unmark s = s := by
  have aux : ∀ c, Spec.markTone c = none → Spec.unmarkChr c = id c := by
    intro c hc
    unfold Spec.markTone at hc
    unfold Spec.unmarkChr
    cases hf : Spec.marks.find? (fun m => m.1 = c) with
    | none => rfl
    | some m => rw [hf] at hc; cases hc
  unfold Spec.unmark
  have : s.map Spec.unmarkChr = s.map id := by
    apply List.map_congr_left
    intro c hc
    exact aux c (h c hc)
  rw [this, List.map_id]

theorem applyTone_same {s s' : Str} (hs : s ≠ []) (hs' : s' ≠ []) (hu : Spec.Unmarked s) (hu' : Spec.Unmarked s')
    {t t' : Int} (h0 : 0 ≤ t) (h5 : t ≤ 5) (h0' : 0 ≤ t') (h5' : t' ≤ 5) :
    applyTone s t = applyTone s' t' ↔ s = s' ∧ (Spec.LaterVowel s → Spec.SameTone t t') := by
  have hss : applyTone s t = applyTone s' t' → s = s' := by
    intro h
    obtain ⟨r, hr, _, hru, _⟩ := C67_preserves s hs t h0 h5
    obtain ⟨r', hr', _, hru', _⟩ := C67_preserves s' hs' t' h0' h5'
    rw [hr, hr'] at h
    cases h
    rw [← unmark_unmarked hu, ← unmark_unmarked hu', ← hru, ← hru']
  have main : ∀ (c : Nat) (s : Str), Spec.Unmarked (c :: s) →
      (applyTone (c :: s) t = applyTone (c :: s) t' ↔ (Spec.LaterVowel (c :: s) → Spec.SameTone t t')) := by
    intro c s hu
    rcases first_vowel s with hn | ⟨a, v, b, rfl, ha, hv⟩
    · rw [(C67_exact c s t h0 h5).1 (Or.inr (Or.inr hn)), (C67_exact c s t' h0' h5').1 (Or.inr (Or.inr hn))]
      refine ⟨fun _ ⟨w, hw, hv⟩ => absurd hv (hn w hw), fun _ => rfl⟩
    · have hlv : Spec.LaterVowel (c :: (a ++ v :: b)) := ⟨v, by simp, hv⟩
      have hvm : Spec.markTone v = none := hu v (by simp)
      have one : ∀ t : Int, 0 ≤ t → t ≤ 5 → ∃ m, applyTone (c :: (a ++ v :: b)) t = .ok (c :: a ++ m :: b) ∧
          (((t = 0 ∨ t = 5) ∧ m = v) ∨ (¬ (t = 0 ∨ t = 5) ∧ (m, v, t) ∈ Spec.marks)) := by
        intro t h0 h5
        by_cases hz : t = 0 ∨ t = 5
        · refine ⟨v, ?_, Or.inl ⟨hz, rfl⟩⟩
          exact (C67_exact c _ t h0 h5).1 (by rcases hz with h | h <;> simp [h])
        · obtain ⟨m, hm, hk⟩ := (C67_exact c _ t h0 h5).2 a v b rfl ha hv (fun h => hz (Or.inl h)) (fun h => hz (Or.inr h))
          exact ⟨m, hm, Or.inr ⟨hz, hk⟩⟩
      obtain ⟨m, hm, hk⟩ := one t h0 h5
      obtain ⟨m', hm', hk'⟩ := one t' h0' h5'
      rw [hm, hm']
      constructor
      · intro h _
        have hmm : m = m' := by
          simp only [Except.ok.injEq, List.cons_append, List.cons.injEq, true_and] at h
          have := List.append_cancel_left h
          simpa using this
        subst hmm
        rcases hk with ⟨hz, rfl⟩ | ⟨hz, hk⟩
        · rcases hk' with ⟨hz', _⟩ | ⟨_, hk'⟩
          · exact Or.inr ⟨hz, hz'⟩
          · rw [(unmarkChr_mark hk').2] at hvm; cases hvm
        · rcases hk' with ⟨_, rfl⟩ | ⟨_, hk'⟩
          · rw [(unmarkChr_mark hk).2] at hvm; cases hvm
          · have := (unmarkChr_mark hk).2
            rw [(unmarkChr_mark hk').2] at this
            exact Or.inl (Option.some.inj this).symm
      · intro h
        rcases h hlv with rfl | ⟨hz, hz'⟩
        · rw [← hm, ← hm']
        · rcases hk with ⟨_, rfl⟩ | ⟨h1, _⟩
          · rcases hk' with ⟨_, rfl⟩ | ⟨h1, _⟩
            · rfl
            · exact absurd hz' h1
          · exact absurd hz h1
  constructor
  · intro h
    have e := hss h
    subst e
    refine ⟨rfl, ?_⟩
    cases s with
    | nil => exact absurd rfl hs
    | cons c s => exact (main c s hu).mp h
  · rintro ⟨rfl, h⟩
    cases s with
    | nil => exact absurd rfl hs
    | cons c s => exact (main c s hu).mpr h

/-- The words, each with the tone that was typed, as `segment_pinyin` reports them. -/
def Spec.spoken (l : List (Str × Nat)) : List (Str × Int) := l.map (fun p => (Spec.reported p.1, (p.2 : Int)))

theorem fromAscii_toned {lower : Str → Str} (hlow : Spec.IsLower lower) {lines : List Str} {seg : List Str} (h : newSegmenter lines = .ok seg)
    (hd : ∀ p ∈ (Spec.tablePairs lines).map Prod.snd, ∀ c ∈ p, ¬ Spec.ToneDigit c)
    {l : List (Str × Nat)} (hl : ∀ p ∈ l, (p.1 = [0x72] ∨ p.1 ∈ (Spec.tablePairs lines).map Prod.snd) ∧ p.2 ≤ 5)
    {text : Str} (ht : Spec.normal lower text = Spec.toned l) : fromAscii lower seg text = applyTones (Spec.spoken l) := by
  unfold fromAscii
  rw [segment_normalize hlow, C66_toned lower lines seg h hd l hl text ht]
  rfl

theorem applyTones_cons_ok {p : Str × Int} {l : List (Str × Int)} {r u : Str} (h : applyTone p.1 p.2 = .ok r) (hl : applyTones l = .ok u) :
    applyTones (p :: l) = .ok (r ++ u) := by
  obtain ⟨s, t⟩ := p
  simp only at h
  simp [applyTones, h, hl, Except.map]

theorem applyTones_same (l l' : List (Str × Int)) (hl : ∀ p ∈ l, p.1 ≠ [] ∧ Spec.Unmarked p.1 ∧ 0 ≤ p.2 ∧ p.2 ≤ 5)
    (hl' : ∀ p ∈ l', p.1 ≠ [] ∧ Spec.Unmarked p.1 ∧ 0 ≤ p.2 ∧ p.2 ≤ 5)
    (hlen : l.map (fun p => p.1.length) = l'.map (fun p => p.1.length)) :
    applyTones l = applyTones l' ↔
      List.Forall₂ (fun p q => p.1 = q.1 ∧ (Spec.LaterVowel p.1 → Spec.SameTone p.2 q.2)) l l' := by
  induction l generalizing l' with
  | nil =>
    cases l' with
    | nil => simp
    | cons q l' => cases hlen
  | cons p l ih =>
    cases l' with
    | nil => cases hlen
    | cons q l' =>
      simp only [List.map_cons, List.cons.injEq] at hlen
      obtain ⟨p1, p2, p3, p4⟩ := hl p (by simp)
      obtain ⟨q1, q2, q3, q4⟩ := hl' q (by simp)
      have ih := ih l' (fun x hx => hl x (by simp [hx])) (fun x hx => hl' x (by simp [hx])) hlen.2
      obtain ⟨r, hr, hrl, _⟩ := C67_preserves p.1 p1 p.2 p3 p4
      obtain ⟨r', hr', hrl', _⟩ := C67_preserves q.1 q1 q.2 q3 q4
      obtain ⟨u, hu, _⟩ := applyTones_ok l (fun x hx => ⟨(hl x (by simp [hx])).1, (hl x (by simp [hx])).2.2⟩)
      obtain ⟨u', hu', _⟩ := applyTones_ok l' (fun x hx => ⟨(hl' x (by simp [hx])).1, (hl' x (by simp [hx])).2.2⟩)
      rw [List.forall₂_cons, ← ih, ← applyTone_same p1 q1 p2 q2 p3 p4 q3 q4, applyTones_cons_ok hr hu, applyTones_cons_ok hr' hu', hr, hr', hu, hu']
      constructor
      · intro h
        have := List.append_inj (Except.ok.inj h) (by rw [hrl, hrl', hlen.1])
        exact ⟨by rw [this.1], by rw [this.2]⟩
      · rintro ⟨h1, h2⟩
        rw [Except.ok.inj h1, Except.ok.inj h2]

theorem reported_unmarked {lines : List Str} (hm : ∀ p ∈ (Spec.tablePairs lines).map Prod.snd, Spec.Unmarked p) {s : Str}
    (hs : s = [0x72] ∨ s ∈ (Spec.tablePairs lines).map Prod.snd) : Spec.Unmarked (Spec.reported s) := by
  unfold Spec.reported
  split
  · intro c hc
    simp only [List.mem_cons, List.not_mem_nil, or_false] at hc
    rcases hc with rfl | rfl <;> decide +kernel
  · rcases hs with h | h
    · contradiction
    · exact hm s h

theorem spoken_ok {lines : List Str} (hne : ∀ p ∈ (Spec.tablePairs lines).map Prod.snd, p ≠ [])
    (hm : ∀ p ∈ (Spec.tablePairs lines).map Prod.snd, Spec.Unmarked p)
    {l : List (Str × Nat)} (hl : ∀ p ∈ l, (p.1 = [0x72] ∨ p.1 ∈ (Spec.tablePairs lines).map Prod.snd) ∧ p.2 ≤ 5) :
    ∀ p ∈ Spec.spoken l, p.1 ≠ [] ∧ Spec.Unmarked p.1 ∧ 0 ≤ p.2 ∧ p.2 ≤ 5 := by
  intro p hp
  unfold Spec.spoken at hp
  rw [List.mem_map] at hp
  obtain ⟨q, hq, rfl⟩ := hp
  obtain ⟨h1, h2⟩ := hl q hq
  refine ⟨?_, reported_unmarked hm h1, by simp, by simp; omega⟩
  simp only [Spec.reported]
  split
  · simp
  · rcases h1 with h | h
    · contradiction
    · exact hne _ h

theorem table_ne_nil {lines : List Str} {seg : List Str} (h : newSegmenter lines = .ok seg) : ∀ p ∈ (Spec.tablePairs lines).map Prod.snd, p ≠ [] := by
  obtain ⟨_, hp, _, hw, _⟩ := newSegmenter_spec h
  rintro p hp2 rfl
  exact hw (hp.mem_iff.2 (List.mem_cons_of_mem _ hp2))

/-- **C169** (the letters).  If `from_ascii` turns two toned texts into the same text, then their syllables are made of the same letters. -/
theorem C169_letters (lower : Str → Str) (hlow : Spec.IsLower lower) (lines : List Str) (seg : List Str) (h : newSegmenter lines = .ok seg)
    (hd : ∀ p ∈ (Spec.tablePairs lines).map Prod.snd, ∀ c ∈ p, ¬ Spec.ToneDigit c)
    (hm : ∀ p ∈ (Spec.tablePairs lines).map Prod.snd, Spec.Unmarked p) (l l' : List (Str × Nat))
    (hl : ∀ p ∈ l, (p.1 = [0x72] ∨ p.1 ∈ (Spec.tablePairs lines).map Prod.snd) ∧ p.2 ≤ 5)
    (hl' : ∀ p ∈ l', (p.1 = [0x72] ∨ p.1 ∈ (Spec.tablePairs lines).map Prod.snd) ∧ p.2 ≤ 5)
    (text text' : Str) (ht : Spec.normal lower text = Spec.toned l) (ht' : Spec.normal lower text' = Spec.toned l')
    (heq : fromAscii lower seg text = fromAscii lower seg text') :
    l.flatMap (fun p => Spec.reported p.1) = l'.flatMap (fun p => Spec.reported p.1) := by
  have key : ∀ l : List (Str × Nat), (∀ p ∈ l, (p.1 = [0x72] ∨ p.1 ∈ (Spec.tablePairs lines).map Prod.snd) ∧ p.2 ≤ 5) →
      ∃ r, applyTones (Spec.spoken l) = .ok r ∧ Spec.unmark r = l.flatMap (fun p => Spec.reported p.1) := by
    intro l hl
    have hok := spoken_ok (table_ne_nil h) hm hl
    obtain ⟨r, hr, _, hu⟩ := applyTones_ok (Spec.spoken l) (fun p hp => ⟨(hok p hp).1, (hok p hp).2.2⟩)
    refine ⟨r, hr, ?_⟩
    rw [hu, unmark_unmarked]
    · unfold Spec.spoken
      rw [List.flatMap_map]
    · intro c hc
      rw [List.mem_flatMap] at hc
      obtain ⟨p, hp, hc⟩ := hc
      exact (hok p hp).2.1 c hc
  rw [fromAscii_toned hlow h hd hl ht, fromAscii_toned hlow h hd hl' ht'] at heq
  obtain ⟨r, hr, hu⟩ := key l hl
  obtain ⟨r', hr', hu'⟩ := key l' hl'
  rw [hr, hr'] at heq
  rw [← hu, ← hu', Except.ok.inj heq]

/-- **C169** (partial).  Where the syllables are known to end at the same places, two toned texts become the same text exactly if the syllables
are the same and each tone that can be seen is the same: the tone of a syllable can be seen if there is a vowel behind its first character.
Missing: the places where syllables end cannot be told (`C169_join_refuted`). -/
theorem C169_breaks_partial (lower : Str → Str) (hlow : Spec.IsLower lower) (lines : List Str) (seg : List Str) (h : newSegmenter lines = .ok seg)
    (hd : ∀ p ∈ (Spec.tablePairs lines).map Prod.snd, ∀ c ∈ p, ¬ Spec.ToneDigit c)
    (hm : ∀ p ∈ (Spec.tablePairs lines).map Prod.snd, Spec.Unmarked p) (l l' : List (Str × Nat))
    (hl : ∀ p ∈ l, (p.1 = [0x72] ∨ p.1 ∈ (Spec.tablePairs lines).map Prod.snd) ∧ p.2 ≤ 5)
    (hl' : ∀ p ∈ l', (p.1 = [0x72] ∨ p.1 ∈ (Spec.tablePairs lines).map Prod.snd) ∧ p.2 ≤ 5)
    (hlen : l.map (fun p => (Spec.reported p.1).length) = l'.map (fun p => (Spec.reported p.1).length))
    (text text' : Str) (ht : Spec.normal lower text = Spec.toned l) (ht' : Spec.normal lower text' = Spec.toned l') :
    fromAscii lower seg text = fromAscii lower seg text' ↔
      List.Forall₂ (fun p q : Str × Nat => Spec.reported p.1 = Spec.reported q.1 ∧
        (Spec.LaterVowel (Spec.reported p.1) → Spec.SameTone p.2 q.2)) l l' := by
  rw [fromAscii_toned hlow h hd hl ht, fromAscii_toned hlow h hd hl' ht',
    applyTones_same _ _ (spoken_ok (table_ne_nil h) hm hl) (spoken_ok (table_ne_nil h) hm hl')
      (by unfold Spec.spoken; rw [List.map_map, List.map_map]; exact hlen)]
  unfold Spec.spoken
  rw [List.forall₂_map_left_iff, List.forall₂_map_right_iff]

/-- **C169** (partial, one syllable).  A single syllable with a vowel behind its first character and its tone can be read off the result. -/
theorem C169_syllable_partial (lower : Str → Str) (hlow : Spec.IsLower lower) (lines : List Str) (seg : List Str)
    (h : newSegmenter lines = .ok seg) (hd : ∀ p ∈ (Spec.tablePairs lines).map Prod.snd, ∀ c ∈ p, ¬ Spec.ToneDigit c)
    (hm : ∀ p ∈ (Spec.tablePairs lines).map Prod.snd, Spec.Unmarked p) (s s' : Str) (d d' : Nat)
    (hs : s ∈ (Spec.tablePairs lines).map Prod.snd) (hs' : s' ∈ (Spec.tablePairs lines).map Prod.snd) (hd5 : d ≤ 5) (hd5' : d' ≤ 5)
    (hv : Spec.LaterVowel s) (text text' : Str) (ht : Spec.normal lower text = Spec.toned [(s, d)])
    (ht' : Spec.normal lower text' = Spec.toned [(s', d')]) (heq : fromAscii lower seg text = fromAscii lower seg text') :
    s = Spec.reported s' ∧ Spec.SameTone d d' := by
  have hl : ∀ p ∈ [(s, d)], (p.1 = [0x72] ∨ p.1 ∈ (Spec.tablePairs lines).map Prod.snd) ∧ p.2 ≤ 5 := by simp [hd5]; exact Or.inr (by simpa using hs)
  have hl' : ∀ p ∈ [(s', d')], (p.1 = [0x72] ∨ p.1 ∈ (Spec.tablePairs lines).map Prod.snd) ∧ p.2 ≤ 5 := by
    simp [hd5']; exact Or.inr (by simpa using hs')
  have hr : Spec.reported s = s := by
    unfold Spec.reported
    rw [if_neg]
    rintro rfl
    obtain ⟨v, hv, _⟩ := hv
    simp at hv
  have hlet := C169_letters lower hlow lines seg h hd hm _ _ hl hl' text text' ht ht' heq
  simp only [List.flatMap_cons, List.flatMap_nil, List.append_nil, hr] at hlet
  have := (C169_breaks_partial lower hlow lines seg h hd hm _ _ hl hl' (by simp [hr, ← hlet]) text text' ht ht').1 heq
  rw [List.forall₂_cons] at this
  exact ⟨hlet, this.1.2 (by rw [hr]; exact hv)⟩

theorem applyTone_join {p : Str} (hp : Spec.LaterVowel p) (q : Str) {t : Int} (h0 : 0 ≤ t) (h5 : t ≤ 5) :
    ∃ r, applyTone p t = .ok r ∧ applyTone (p ++ q) t = .ok (r ++ q) := by
  cases p with
  | nil => obtain ⟨v, hv, _⟩ := hp; cases hv
  | cons c s =>
    rcases first_vowel s with hn | ⟨a, v, b, rfl, ha, hv⟩
    · obtain ⟨v, hv, hv2⟩ := hp; exact absurd hv2 (hn v hv)
    · by_cases hz : t = 0 ∨ t = 5
      · refine ⟨_, (C67_exact c _ t h0 h5).1 (by rcases hz with h | h <;> simp [h]), ?_⟩
        exact (C67_exact c _ t h0 h5).1 (by rcases hz with h | h <;> simp [h])
      · have n0 : t ≠ 0 := fun h => hz (Or.inl h)
        have n5 : t ≠ 5 := fun h => hz (Or.inr h)
        obtain ⟨m, hm, hk⟩ := (C67_exact c _ t h0 h5).2 a v b rfl ha hv n0 n5
        obtain ⟨m', hm', hk'⟩ := (C67_exact c (a ++ v :: b ++ q) t h0 h5).2 a v (b ++ q) (by simp) ha hv n0 n5
        have : m = m' := by
          have h1 : ∀ x ∈ Spec.marks, ∀ y ∈ Spec.marks, x.2 = y.2 → x.1 = y.1 := by decide +kernel
          exact h1 _ hk _ hk' rfl
        subst this
        refine ⟨_, hm, ?_⟩
        rw [List.cons_append, hm']
        simp

/-- **C169** (refuted).  Whenever two syllables written together make up a third one, as `xi` and `an` make up `xian`, the syllable cannot be told
from the two of them with a neutral tone on the second: no apostrophe is written. -/
theorem C169_join_refuted (lower : Str → Str) (hlow : Spec.IsLower lower) (lines : List Str) (seg : List Str) (h : newSegmenter lines = .ok seg)
    (hd : ∀ p ∈ (Spec.tablePairs lines).map Prod.snd, ∀ c ∈ p, ¬ Spec.ToneDigit c) (p q : Str)
    (hp : p ∈ (Spec.tablePairs lines).map Prod.snd) (hq : q ∈ (Spec.tablePairs lines).map Prod.snd)
    (hpq : p ++ q ∈ (Spec.tablePairs lines).map Prod.snd) (hv : Spec.LaterVowel p) (hr : q ≠ u!"r") (d : Nat) (hd5 : d ≤ 5)
    (text text' : Str) (ht : Spec.normal lower text = Spec.toned [(p, d), (q, 5)]) (ht' : Spec.normal lower text' = Spec.toned [(p ++ q, d)]) :
    fromAscii lower seg text = fromAscii lower seg text' := by
  have hl : ∀ x ∈ [(p, d), (q, 5)], (x.1 = [0x72] ∨ x.1 ∈ (Spec.tablePairs lines).map Prod.snd) ∧ x.2 ≤ 5 := by
    intro x hx
    simp only [List.mem_cons, List.not_mem_nil, or_false] at hx
    rcases hx with rfl | rfl
    · exact ⟨Or.inr hp, hd5⟩
    · exact ⟨Or.inr hq, by simp⟩
  have hl' : ∀ x ∈ [(p ++ q, d)], (x.1 = [0x72] ∨ x.1 ∈ (Spec.tablePairs lines).map Prod.snd) ∧ x.2 ≤ 5 := by
    intro x hx
    simp only [List.mem_cons, List.not_mem_nil, or_false] at hx
    subst hx
    exact ⟨Or.inr hpq, hd5⟩
  rw [fromAscii_toned hlow h hd hl ht, fromAscii_toned hlow h hd hl' ht']
  have len : 2 ≤ p.length := by
    obtain ⟨v, hv, _⟩ := hv
    cases p with
    | nil => cases hv
    | cons c s => cases s with
      | nil => cases hv
      | cons _ _ => simp
  have r1 : Spec.reported p = p := by
    unfold Spec.reported; rw [if_neg]; rintro rfl; simp at len
  have r2 : Spec.reported (p ++ q) = p ++ q := by
    unfold Spec.reported; rw [if_neg]; intro e
    have := congrArg List.length e
    simp at this; omega
  have r3 : Spec.reported q = q := by
    unfold Spec.reported; rw [if_neg]; exact hr
  obtain ⟨r, h1, h2⟩ := applyTone_join hv q (t := (d : Int)) (by omega) (by omega)
  have h3 : applyTone q 5 = .ok q := by
    cases q with
    | nil => exact absurd rfl (table_ne_nil h _ hq)
    | cons c s => exact (C67_exact c s 5 (by omega) (by omega)).1 (by simp)
  have e1 : applyTones (Spec.spoken [(p, d), (q, 5)]) = .ok (r ++ (q ++ [])) := by
    simp only [Spec.spoken, List.map_cons, List.map_nil, r1, r3]
    exact applyTones_cons_ok h1 (applyTones_cons_ok h3 rfl)
  have e2 : applyTones (Spec.spoken [(p ++ q, d)]) = .ok (r ++ q ++ []) := by
    simp only [Spec.spoken, List.map_cons, List.map_nil, r2]
    exact applyTones_cons_ok h2 rfl
  rw [e1, e2, List.append_assoc]

/-- A table with `xi`, `an` and `xian`. -/
def xianTable : List Str := [u!"ㄒㄧ xi\n", u!"ㄢ an\n", u!"ㄒㄧㄢ xian\n", u!"ㄋㄧ ni\n"]

/-- **C169** (refuted on a table).  西安 and 先 come out alike. -/
theorem C169_refuted : ∃ seg, newSegmenter xianTable = .ok seg ∧
    fromAscii (fun s => s.map Spec.lowerChr) seg u!"Xi1 an1" = .ok u!"xīan" ∧
    fromAscii (fun s => s.map Spec.lowerChr) seg u!"xian1" = .ok u!"xīan" := by
  refine ⟨_, rfl, ?_, ?_⟩ <;> decide +kernel

/-! The hypotheses are met by this table and by texts with these syllables. -/

example : ∀ p ∈ (Spec.tablePairs xianTable).map Prod.snd, ∀ c ∈ p, ¬ Spec.ToneDigit c := by
  unfold Spec.ToneDigit; decide +kernel
example : ∀ p ∈ (Spec.tablePairs xianTable).map Prod.snd, Spec.Unmarked p := by
  unfold Spec.Unmarked; decide +kernel
example : u!"xi" ++ u!"an" ∈ (Spec.tablePairs xianTable).map Prod.snd ∧ Spec.LaterVowel u!"xi" :=
  ⟨by decide +kernel, c!"i", by decide, by unfold Spec.IsVowel; decide⟩
example : Spec.normal (fun s => s.map Spec.lowerChr) u!"Xi1 an5" = Spec.toned [(u!"xi", 1), (u!"an", 5)] := by decide +kernel

end Cjk
