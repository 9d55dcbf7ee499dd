import Verif.Props.Tanaka
/-!
# When a word keeps its text (C117)
-/

namespace Py

/-- The value of digits, least significant first. -/
def revValue (r : Str) : Nat := r.foldr (fun c a => a * 10 + (c - 0x30)) 0

theorem revValue_pos {r : Str} (h : ∀ c ∈ r, AsciiDigit c) (hx : ∃ c ∈ r, c ≠ 0x30) : 0 < revValue r := by
  induction r with
  | nil => obtain ⟨c, hc, _⟩ := hx; cases hc
  | cons d r ih =>
    have hd := h d (by simp)
    unfold AsciiDigit at hd
    show 0 < revValue r * 10 + (d - 0x30)
    obtain ⟨c, hc, hne⟩ := hx
    rcases List.mem_cons.1 hc with rfl | hc
    · omega
    · have := ih (fun c hc => h c (by simp [hc])) ⟨c, hc, hne⟩
      omega

/-- Digits without a leading zero are those of their value. -/
theorem revDigits_revValue {r : Str} (h : ∀ c ∈ r, AsciiDigit c) (hne : r ≠ []) (hz : r.getLast? ≠ some 0x30 ∨ r.length = 1) :
    revDigits (revValue r) = r := by
  induction r with
  | nil => exact absurd rfl hne
  | cons d r ih =>
    have hd := h d (by simp)
    unfold AsciiDigit at hd
    have hv : revValue (d :: r) = revValue r * 10 + (d - 0x30) := rfl
    cases r with
    | nil =>
      rw [hv]
      show revDigits (0 * 10 + (d - 0x30)) = [d]
      rw [revDigits, dif_pos (by omega)]
      congr 1; omega
    | cons e r =>
      have hz' : (e :: r).getLast? ≠ some 0x30 := by
        rcases hz with hz | hz
        · rwa [List.getLast?_cons_cons] at hz
        · simp at hz
      have hpos : 0 < revValue (e :: r) := by
        refine revValue_pos (fun c hc => h c (by simp [List.mem_cons.1 hc])) ?_
        refine ⟨(e :: r).getLast (by simp), List.getLast_mem _, ?_⟩
        intro hl
        exact hz' (by rw [List.getLast?_eq_some_getLast (by simp), hl])
      have ih' := ih (fun c hc => h c (by simp [List.mem_cons.1 hc])) (by simp) (Or.inl hz')
      rw [hv, revDigits, dif_neg (by omega)]
      rw [show (revValue (e :: r) * 10 + (d - 0x30)) / 10 = revValue (e :: r) by omega, ih',
        show 0x30 + (revValue (e :: r) * 10 + (d - 0x30)) % 10 = d by omega]

theorem revDigits_last {n : Nat} (h : 0 < n) : (revDigits n).getLast? ≠ some 0x30 := by
  induction n using Nat.strongRecOn with
  | ind n ih =>
    rw [revDigits]
    split
    · simp; omega
    · rename_i h10
      rw [List.getLast?_cons]
      have := ih (n / 10) (by omega) (by omega)
      cases hl : (revDigits (n / 10)).getLast? with
      | none => exact absurd (List.getLast?_eq_none_iff.1 hl) (revDigits_ne_nil _)
      | some x => rw [hl] at this; simpa using this

theorem revDigits_length {n : Nat} (h : 10 ≤ n) : 2 ≤ (revDigits n).length := by
  rw [revDigits, dif_neg (by omega)]
  have := List.length_pos_iff.2 (revDigits_ne_nil (n / 10))
  simp only [List.length_cons]
  omega

theorem showNat_foldl {s : Str} (h : ∀ c ∈ s, AsciiDigit c) (hne : s ≠ []) (hz : s.head? ≠ some 0x30 ∨ s.length = 1) :
    showNat (s.foldl (fun a c => a * 10 + (c - 0x30)) 0) = s := by
  have : s.foldl (fun a c => a * 10 + (c - 0x30)) 0 = revValue s.reverse := by
    unfold revValue; rw [List.foldr_reverse]
  rw [this]
  unfold showNat
  rw [revDigits_revValue (by simpa using h) (by simpa using hne) (by simpa using hz), List.reverse_reverse]

end Py

namespace Cjk
open Py

/-- A sense number as `str` writes it: ASCII digits, at least two of them, not all zero, and a zero in front only of a single digit. -/
def Spec.SenseDigits (s : Str) : Prop :=
  (∀ c ∈ s, 0x30 ≤ c ∧ c ≤ 0x39) ∧ 2 ≤ s.length ∧ (∃ c ∈ s, c ≠ 0x30) ∧ (2 < s.length → s.head? ≠ some 0x30)

theorem senseDigits_show {n : Nat} (h : 0 < n) : Spec.SenseDigits (showNat02 n) := by
  refine ⟨showNat02_digits n, ?_⟩
  unfold showNat02
  have hne := showNat_ne_nil n
  have hhead : (showNat n).head? ≠ some 0x30 := by
    unfold showNat; rw [List.head?_reverse]; exact revDigits_last h
  have hex : ∃ c ∈ showNat n, c ≠ 0x30 := by
    cases hs : showNat n with
    | nil => exact absurd hs hne
    | cons c s =>
      rw [hs] at hhead
      exact ⟨c, by simp, by simpa using hhead⟩
  split
  · rename_i h10
    have hl : (showNat n).length = 1 := by unfold showNat; rw [revDigits, dif_pos h10]; rfl
    refine ⟨by simp [hl], ?_, ?_⟩
    · obtain ⟨c, hc, hx⟩ := hex
      exact ⟨c, by simp [hc], hx⟩
    · intro hlt; simp [hl] at hlt
  · rename_i h10
    refine ⟨?_, hex, fun _ => hhead⟩
    unfold showNat
    rw [List.length_reverse]
    exact revDigits_length (by omega)

theorem show_senseDigits {s : Str} (h : Spec.SenseDigits s) : showNat02 (s.foldl (fun a c => a * 10 + (c - 0x30)) 0) = s ∧
    0 < s.foldl (fun a c => a * 10 + (c - 0x30)) 0 := by
  obtain ⟨h1, h2, h3, h4⟩ := h
  have hpos : 0 < s.foldl (fun a c => a * 10 + (c - 0x30)) 0 := by
    have : s.foldl (fun a c => a * 10 + (c - 0x30)) 0 = revValue s.reverse := by
      unfold revValue; rw [List.foldr_reverse]
    rw [this]
    exact revValue_pos (fun c hc => h1 c (by simpa using hc)) (by simpa using h3)
  refine ⟨?_, hpos⟩
  match s, h1, h2, h3, h4, hpos with
  | [a, b], h1, _, _, _, hpos =>
    have ha := h1 a (by simp)
    have hb := h1 b (by simp)
    by_cases ha0 : a = 0x30
    · subst ha0
      show showNat02 ((0 * 10 + (0x30 - 0x30)) * 10 + (b - 0x30)) = _
      rw [show (0 * 10 + (0x30 - 0x30)) * 10 + (b - 0x30) = b - 0x30 by omega, showNat02, if_pos (by omega)]
      have : showNat (b - 0x30) = [b] := by
        unfold showNat
        rw [revDigits, dif_pos (by omega), List.reverse_singleton]
        congr 1; omega
      rw [this]
    · have hv : 10 ≤ List.foldl (fun x c => x * 10 + (c - 0x30)) 0 [a, b] := by
        show 10 ≤ (0 * 10 + (a - 0x30)) * 10 + (b - 0x30)
        omega
      rw [showNat02, if_neg (by omega), showNat_foldl h1 (by simp) (Or.inl (by simpa using ha0))]
  | a :: b :: c :: t, h1, _, _, h4, _ =>
    have ha0 := h4 (by simp)
    have ha := h1 a (by simp)
    have hge : ∀ (l : Str) (acc : Nat), 10 ≤ acc → 10 ≤ l.foldl (fun x c => x * 10 + (c - 0x30)) acc := by
      intro l
      induction l with
      | nil => intro acc h; exact h
      | cons x l ih => intro acc h; exact ih _ (show 10 ≤ acc * 10 + (x - 0x30) by omega)
    have hv : 10 ≤ List.foldl (fun x c => x * 10 + (c - 0x30)) 0 (a :: b :: c :: t) := by
      refine hge (c :: t) _ ?_
      show 10 ≤ (0 * 10 + (a - 0x30)) * 10 + (b - 0x30)
      have : a ≠ 0x30 := by simpa using ha0
      omega
    rw [showNat02, if_neg (by omega), showNat_foldl h1 (by simp) (Or.inl ha0)]

/-- C117: exactly which texts a word keeps: those without a legacy tag whose sense number, if any, is written in the standard way. -/
theorem C117_keeps_text (text : Str) (w : Tanaka) (h : Tanaka.fromText text = .ok w) :
    w.toText = text ↔ ∃ p : Spec.WordParts, p.Ok ∧ text = p.text ∧ p.legacy = none ∧ ∀ s, p.sense = some s → Spec.SenseDigits s := by
  have hok := wordOk_of_fromText h
  constructor
  · intro ht
    refine ⟨wordToParts w, wordToParts_ok hok, by rw [← ht]; exact toText_eq hok, rfl, ?_⟩
    intro s hs
    simp only [wordToParts] at hs
    cases hw : w.sense with
    | none => rw [hw] at hs; cases hs
    | some i =>
      rw [hw] at hs
      simp only at hs
      split at hs
      · cases hs
      · cases hs
        have := hok.2.2.2 i hw
        unfold showInt02
        rw [if_neg (by omega)]
        exact senseDigits_show (by omega)
  · rintro ⟨p, hp, rfl, hl, hs⟩
    obtain ⟨sense, h1, h2⟩ := C60_parse p hp
    rw [h1] at h
    cases h
    rw [toText_eq hok]
    congr 1
    obtain ⟨hw, rd, lg, sn, dp, ex⟩ := p
    dsimp only at hl hs h2
    subst hl
    unfold wordToParts
    dsimp only
    congr 1
    cases sn with
    | none =>
      cases sense with
      | none => rfl
      | some i => obtain ⟨s, hs', _⟩ := (h2 i).1 rfl; cases hs'
    | some s =>
      have hsd := hs s rfl
      obtain ⟨e1, e2⟩ := show_senseDigits hsd
      have hval : pyInt 10 s = .ok ((s.foldl (fun a c => a * 10 + (c - 0x30)) 0 : Nat) : Int) :=
        pyInt_of_digits (by intro hn; rw [hn] at hsd; exact absurd hsd.2.1 (by simp)) hsd.1
      have := (h2 _).2 ⟨s, rfl, hval⟩
      rw [this]
      dsimp only
      rw [if_neg (by omega)]
      unfold showInt02
      rw [if_neg (by omega), Int.natAbs_natCast, e1]

/-- C117: in particular the text of every word is kept. -/
theorem C117_stable (w : Tanaka) (h : Spec.WordOk w) : ∃ v, Tanaka.fromText w.toText = .ok v ∧ v.toText = w.toText := by
  refine ⟨_, C60_write_read w h, ?_⟩
  unfold Tanaka.toText Tanaka.readingText Tanaka.senseText Tanaka.displayText
  dsimp only
  congr 1
  congr 1
  congr 1
  cases hs : w.sense with
  | none => simp
  | some i =>
    by_cases hi : i = 0
    · subst hi; simp
    · simp [hi]

/-- Kept, and not kept: a sense of one digit, with too many zeros or in other digits, and a legacy tag. -/
example : (Tanaka.fromText u!"掛ける(かける)[09]{かけ}~").map Tanaka.toText = .ok u!"掛ける(かける)[09]{かけ}~" ∧
    (Tanaka.fromText u!"掛ける[9]").map Tanaka.toText = .ok u!"掛ける[09]" ∧ (Tanaka.fromText u!"掛ける[009]").map Tanaka.toText = .ok u!"掛ける[09]" ∧
    (Tanaka.fromText u!"掛ける[１２]").map Tanaka.toText = .ok u!"掛ける[12]" ∧ (Tanaka.fromText u!"掛ける|2[12]").map Tanaka.toText = .ok u!"掛ける[12]" := by
  decide +kernel

example : Spec.SenseDigits u!"09" ∧ Spec.SenseDigits u!"120" ∧ ¬ Spec.SenseDigits u!"00" ∧ ¬ Spec.SenseDigits u!"012" := by
  refine ⟨⟨by decide, by decide, ⟨c!"9", by decide, by decide⟩, by decide⟩, ⟨by decide, by decide, ⟨c!"1", by decide, by decide⟩, by decide⟩, ?_, ?_⟩
  · rintro ⟨_, _, ⟨c, hc, hx⟩, _⟩
    simp only [List.mem_cons, List.not_mem_nil, or_false, or_self] at hc
    exact hx hc
  · rintro ⟨_, _, _, h⟩
    exact h (by decide) rfl

end Cjk
