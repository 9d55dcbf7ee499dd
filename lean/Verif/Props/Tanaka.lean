import Verif.Spec.Tatoeba
import Verif.Model.Tatoeba
import Verif.Py.ReGroup
/-!
# Words and sentence indices (C60 to C64)
-/

namespace Cjk
open Py

theorem inBrackets_eq (a b : Nat) (o : Option Str) : Spec.inBrackets a b o = brack a b o := by
  cases o <;> simp [Spec.inBrackets, brack]

theorem isHeadChr_iff (c : Nat) : isHeadChr c = true ↔ c ≠ 0x28 ∧ c ≠ 0x5b ∧ c ≠ 0x7b ∧ c ≠ 0x7c ∧ c ≠ 0x7e := by
  simp [isHeadChr, and_assoc]

/-- The example mark. -/
def exText (b : Bool) : Str := if b then [0x7e] else []

theorem wordParts_text (w : Spec.WordParts) :
    w.text = w.headword ++ (brack 0x28 0x29 w.reading ++ (marked 0x7c w.legacy ++ (brack 0x5b 0x5d w.sense ++
      (brack 0x7b 0x7d w.display ++ exText w.isExample)))) := by
  unfold Spec.WordParts.text
  rw [inBrackets_eq, inBrackets_eq, inBrackets_eq]
  cases w.legacy <;> simp [exText, marked, List.append_assoc]

theorem wordRe_eq : wordRe = .seq (.group u!"headword" (Re.plus isHeadChr))
    (.seq (Re.optBrack 0x28 0x29 u!"reading" (notChr 0x29)) (.seq (Re.optMarked 0x7c isDigit)
      (.seq (Re.optBrack 0x5b 0x5d u!"sense" isDigit) (.seq (Re.optBrack 0x7b 0x7d u!"display" (notChr 0x7d))
        (.seq (Re.opt (.group u!"example" (Re.lit u!"~"))) .eol))))) := rfl

/-- The captures of a match with given parts. -/
def wordCaps (w : Spec.WordParts) : Caps :=
  capture u!"example" (capture u!"display" (capture u!"sense" (capture u!"reading" (Dict.set [] u!"headword" w.headword)
    w.reading) w.sense) w.display) (if w.isExample then some u!"~" else none)

theorem brack_head (a b : Nat) (o : Option Str) (t : Str) (x : Nat) (h : (brack a b o ++ t).head? = some x) :
    x = a ∨ t.head? = some x := by
  cases o with
  | none => exact Or.inr h
  | some u => left; simp only [brack, List.cons_append, List.head?_cons, Option.some.injEq] at h; exact h.symm

theorem marked_head (a : Nat) (o : Option Str) (t : Str) (x : Nat) (h : (marked a o ++ t).head? = some x) :
    x = a ∨ t.head? = some x := by
  cases o with
  | none => exact Or.inr h
  | some u => left; simp only [marked, List.cons_append, List.head?_cons, Option.some.injEq] at h; exact h.symm

theorem ex_head (b : Bool) (x : Nat) (h : (exText b).head? = some x) : x = 0x7e := by
  cases b <;> simp [exText] at h
  exact h.symm

theorem partOk_notChr {b : Nat} {o : Option Str} (h : Spec.PartOk b o) :
    ∀ u, o = some u → u ≠ [] ∧ ∀ x ∈ u, notChr b x = true := by
  intro u hu
  obtain ⟨h1, h2⟩ := h u hu
  exact ⟨h1, fun x hx => by simpa [notChr] using h2 x hx⟩

/-- Parsing a text with good parts finds these parts. -/
theorem wordRe_first (w : Spec.WordParts) (h : w.Ok) : wordRe.first w.text [] = some ([], wordCaps w) := by
  obtain ⟨hh, hr, hl, hs, hd⟩ := h
  rw [wordParts_text, wordRe_eq]
  have head4 : ∀ x, (exText w.isExample).head? = some x → x = 0x7e := fun x => ex_head _ x
  have head3 : ∀ x, (brack 0x7b 0x7d w.display ++ exText w.isExample).head? = some x → x = 0x7b ∨ x = 0x7e := by
    intro x hx
    rcases brack_head _ _ _ _ x hx with h | h
    · exact Or.inl h
    · exact Or.inr (head4 x h)
  have head2 : ∀ x, (brack 0x5b 0x5d w.sense ++ (brack 0x7b 0x7d w.display ++ exText w.isExample)).head? = some x →
      x = 0x5b ∨ x = 0x7b ∨ x = 0x7e := by
    intro x hx
    rcases brack_head _ _ _ _ x hx with h | h
    · exact Or.inl h
    · exact Or.inr (head3 x h)
  have head1 : ∀ x, (marked 0x7c w.legacy ++ (brack 0x5b 0x5d w.sense ++ (brack 0x7b 0x7d w.display ++ exText w.isExample))).head? =
      some x → x = 0x7c ∨ x = 0x5b ∨ x = 0x7b ∨ x = 0x7e := by
    intro x hx
    rcases marked_head _ _ _ x hx with h | h
    · exact Or.inl h
    · exact Or.inr (head2 x h)
  have head0 : ∀ x, (brack 0x28 0x29 w.reading ++ (marked 0x7c w.legacy ++ (brack 0x5b 0x5d w.sense ++ (brack 0x7b 0x7d w.display ++
      exText w.isExample)))).head? = some x → isHeadChr x = false := by
    intro x hx
    have : x = 0x28 ∨ x = 0x7c ∨ x = 0x5b ∨ x = 0x7b ∨ x = 0x7e := by
      rcases brack_head _ _ _ _ x hx with h | h
      · exact Or.inl h
      · exact Or.inr (head1 x h)
    rcases this with rfl | rfl | rfl | rfl | rfl <;> rfl
  refine Re.first_seq (Re.first_group' (Re.first_plus w.headword _ [] hh.1 (fun x hx => (isHeadChr_iff x).2 (hh.2 x hx)) head0)) ?_
  refine Re.first_seq (Re.first_optBrack w.reading _ _ (by decide) (partOk_notChr hr) ?_) ?_
  · intro _ hx
    have := head1 _ hx
    omega
  refine Re.first_seq (Re.first_optMarked w.legacy _ _ hl ?_ ?_) ?_
  · intro _ hx
    have := head2 _ hx
    omega
  · intro x hx
    rcases head2 _ hx with rfl | rfl | rfl <;> decide +kernel
  refine Re.first_seq (Re.first_optBrack w.sense _ _ (by decide +kernel) hs ?_) ?_
  · intro _ hx
    have := head3 _ hx
    omega
  refine Re.first_seq (Re.first_optBrack w.display _ _ (by decide) (partOk_notChr hd) ?_) ?_
  · intro _ hx
    have := head4 _ hx
    omega
  unfold wordCaps
  cases w.isExample with
  | false =>
    refine Re.first_seq (s1 := []) (c1 := capture u!"example" _ none) ?_ (Re.first_eol_nil _)
    rfl
  | true =>
    refine Re.first_seq (s1 := []) (c1 := capture u!"example" _ (some u!"~")) ?_ (Re.first_eol_nil _)
    rfl

theorem wordCaps_get (w : Spec.WordParts) :
    Dict.get? (wordCaps w) u!"headword" = some w.headword ∧ Dict.get? (wordCaps w) u!"reading" = w.reading ∧
    Dict.get? (wordCaps w) u!"sense" = w.sense ∧ Dict.get? (wordCaps w) u!"display" = w.display ∧
    (Dict.get? (wordCaps w) u!"example").isSome = w.isExample := by
  unfold wordCaps
  simp only [get?_capture, Dict.get?_set]
  cases w.isExample <;> simp

/-- The word that a text with given parts denotes. -/
def partsWord (w : Spec.WordParts) (sense : Option Int) : Tanaka := ⟨w.headword, w.reading, sense, w.display, w.isExample⟩

/-- What `from_text` does with the captures of a match. -/
theorem fromText_of_caps {text t : Str} {w : Spec.WordParts} (h : wordRe.first text [] = some (t, wordCaps w)) (hs : Spec.NumberOk w.sense) :
    ∃ sense, Tanaka.fromText text = .ok (partsWord w sense) ∧
      (∀ i, sense = some i ↔ ∃ s, w.sense = some s ∧ pyInt 10 s = .ok i) ∧ ∀ i, sense = some i → 0 ≤ i := by
  obtain ⟨e1, e2, e3, e4, e5⟩ := wordCaps_get w
  unfold Tanaka.fromText Re.pyMatch
  rw [h]
  simp only [Option.map_some, e1, e2, e3, e4, e5, Option.getD_some]
  cases hsn : w.sense with
  | none => exact ⟨none, rfl, by simp, by simp⟩
  | some s =>
    obtain ⟨n, hn⟩ := pyInt_isDigit (hs s hsn).1 (hs s hsn).2
    simp only [hn]
    refine ⟨some (n : Int), rfl, ?_, ?_⟩
    · intro i
      constructor
      · rintro ⟨⟩; exact ⟨s, rfl, hn⟩
      · rintro ⟨s', hs', hi⟩
        simp only [Option.some.injEq] at hs'
        subst hs'
        rw [hn] at hi
        cases hi; rfl
    · rintro i ⟨⟩; omega

/-- C60: a text with well-formed parts, a legacy tag included, is parsed into these parts. -/
theorem C60_parse (w : Spec.WordParts) (h : w.Ok) :
    ∃ sense, Tanaka.fromText w.text = .ok ⟨w.headword, w.reading, sense, w.display, w.isExample⟩ ∧
      ∀ i, sense = some i ↔ ∃ s, w.sense = some s ∧ pyInt 10 s = .ok i := by
  obtain ⟨sense, h1, h2, _⟩ := fromText_of_caps (wordRe_first w h) h.2.2.2.1
  exact ⟨sense, h1, h2⟩

/-- Every match of the expression comes from parts. -/
theorem wordRe_mem {text t : Str} {c : Caps} (h : (t, c) ∈ wordRe.run text []) :
    ∃ w : Spec.WordParts, w.Ok ∧ text = w.text ++ t ∧ (t = [] ∨ t = [0x0a]) ∧ c = wordCaps w := by
  rw [wordRe_eq] at h
  obtain ⟨s1, c1, h1, h⟩ := Re.mem_run_seq h
  obtain ⟨s2, c2, h2, h⟩ := Re.mem_run_seq h
  obtain ⟨s3, c3, h3, h⟩ := Re.mem_run_seq h
  obtain ⟨s4, c4, h4, h⟩ := Re.mem_run_seq h
  obtain ⟨s5, c5, h5, h⟩ := Re.mem_run_seq h
  obtain ⟨s6, c6, h6, h7⟩ := Re.mem_run_seq h
  obtain ⟨hw, rfl, hne, hall, rfl⟩ := Re.mem_run_group_plus h1
  obtain ⟨rd, rfl, hrd, rfl⟩ := Re.mem_run_optBrack h2
  obtain ⟨lg, rfl, hlg, rfl⟩ := Re.mem_run_optMarked h3
  obtain ⟨sn, rfl, hsn, rfl⟩ := Re.mem_run_optBrack h4
  obtain ⟨dp, rfl, hdp, rfl⟩ := Re.mem_run_optBrack h5
  obtain ⟨ex, rfl, rfl⟩ : ∃ ex : Bool, s5 = exText ex ++ s6 ∧ c6 = capture u!"example" (capture u!"display" (capture u!"sense"
      (capture u!"reading" (Dict.set [] u!"headword" hw) rd) sn) dp) (if ex then some u!"~" else none) := by
    unfold Re.opt at h6
    rw [Re.run, List.mem_append] at h6
    rcases h6 with h6 | h6
    · obtain ⟨c', h6', rfl⟩ := Re.mem_run_group h6
      obtain ⟨rfl, rfl⟩ := Re.mem_run_lit1 h6'
      exact ⟨true, rfl, by simp [capture]⟩
    · simp only [Re.run_eps, List.mem_singleton, Prod.mk.injEq] at h6
      obtain ⟨rfl, rfl⟩ := h6
      exact ⟨false, rfl, rfl⟩
  obtain ⟨ht, rfl, rfl⟩ : (s6 = [] ∨ s6 = [0x0a]) ∧ t = s6 ∧ c = capture u!"example" (capture u!"display" (capture u!"sense"
      (capture u!"reading" (Dict.set [] u!"headword" hw) rd) sn) dp) (if ex then some u!"~" else none) := by
    simp only [Re.run] at h7
    split at h7
    · rename_i hs
      simp only [List.mem_singleton, Prod.mk.injEq] at h7
      exact ⟨hs, h7.1, h7.2⟩
    · simp at h7
  have notc : ∀ {b : Nat} {o : Option Str}, (∀ u, o = some u → u ≠ [] ∧ ∀ x ∈ u, notChr b x = true) → Spec.PartOk b o := by
    intro b o h u hu
    exact ⟨(h u hu).1, fun x hx => by simpa [notChr] using (h u hu).2 x hx⟩
  refine ⟨⟨hw, rd, lg, sn, dp, ex⟩, ⟨⟨hne, fun x hx => (isHeadChr_iff x).1 (hall x hx)⟩, notc hrd, hlg, hsn, notc hdp⟩, ?_, ht, rfl⟩
  rw [wordParts_text]
  simp [List.append_assoc]

/-- C60: a word is only read from a text of this form, up to one final newline; `from_text` raises nothing but InvalidEntryError. -/
theorem C60_sound (text : Str) :
    (∀ v, Tanaka.fromText text = .ok v → ∃ w : Spec.WordParts, w.Ok ∧ (text = w.text ∨ text = w.text ++ [0x0a]) ∧
      v.headword = w.headword ∧ v.reading = w.reading ∧ v.display = w.display ∧ v.isExample = w.isExample ∧
      (∀ i, v.sense = some i ↔ ∃ s, w.sense = some s ∧ pyInt 10 s = .ok i) ∧ ∀ i, v.sense = some i → 0 ≤ i) ∧
    ∀ e, Tanaka.fromText text = .error e → e = .invalidEntryError := by
  cases hf : wordRe.first text [] with
  | none =>
    have : Tanaka.fromText text = .error .invalidEntryError := by
      unfold Tanaka.fromText Re.pyMatch; rw [hf]; rfl
    rw [this]
    simp
  | some x =>
    obtain ⟨t, c⟩ := x
    obtain ⟨w, hok, htext, ht, rfl⟩ := wordRe_mem (Re.first_mem hf)
    obtain ⟨sense, h1, h2, h3⟩ := fromText_of_caps hf hok.2.2.2.1
    rw [h1]
    refine ⟨?_, by intro e he; cases he⟩
    rintro v ⟨⟩
    refine ⟨w, hok, ?_, rfl, rfl, rfl, rfl, h2, h3⟩
    rcases ht with rfl | rfl
    · left; simpa using htext
    · exact Or.inr htext

/-! ### Round trips -/

/-- A word object whose fields can be written. -/
def Spec.WordOk (w : Tanaka) : Prop :=
  Spec.HeadwordOk w.headword ∧ Spec.PartOk 0x29 w.reading ∧ Spec.PartOk 0x7d w.display ∧ ∀ i, w.sense = some i → 0 ≤ i

/-- The text of a word, as parts. -/
def wordToParts (w : Tanaka) : Spec.WordParts :=
  ⟨w.headword, w.reading, none, (match w.sense with | none => none | some i => if i = 0 then none else some (showInt02 i)),
    w.display, w.isExample⟩

theorem readingText_eq {w : Tanaka} (h : Spec.PartOk 0x29 w.reading) : w.readingText = Spec.inBrackets 0x28 0x29 w.reading := by
  unfold Tanaka.readingText
  cases hr : w.reading with
  | none => rfl
  | some r =>
    have := (h r hr).1
    cases r with
    | nil => exact absurd rfl this
    | cons x r => rfl

theorem displayText_eq {w : Tanaka} (h : Spec.PartOk 0x7d w.display) : w.displayText = Spec.inBrackets 0x7b 0x7d w.display := by
  unfold Tanaka.displayText
  cases hr : w.display with
  | none => rfl
  | some r =>
    have := (h r hr).1
    cases r with
    | nil => exact absurd rfl this
    | cons x r => rfl

theorem toText_eq {w : Tanaka} (h : Spec.WordOk w) : w.toText = (wordToParts w).text := by
  unfold Tanaka.toText Spec.WordParts.text wordToParts
  simp only [List.append_nil]
  congr 1
  congr 1
  · congr 1
    · congr 1
      exact readingText_eq h.2.1
    · unfold Tanaka.senseText
      cases w.sense with
      | none => rfl
      | some i =>
        simp only
        split <;> rfl
  · exact displayText_eq h.2.2.1

theorem wordToParts_ok {w : Tanaka} (h : Spec.WordOk w) : (wordToParts w).Ok := by
  refine ⟨h.1, h.2.1, (by intro s hs; cases hs), ?_, h.2.2.1⟩
  intro s hs
  simp only [wordToParts] at hs
  cases hw : w.sense with
  | none => rw [hw] at hs; cases hs
  | some i =>
    rw [hw] at hs
    simp only at hs
    split at hs
    · cases hs
    · simp only [Option.some.injEq] at hs
      subst hs
      have := h.2.2.2 i hw
      unfold showInt02
      rw [if_neg (by omega)]
      exact ⟨showNat02_ne_nil _, fun c hc => isDigit_ascii (showNat02_digits _ c hc)⟩

/-- Writing and reading: everything but the sense 0 comes back. -/
theorem C60_write_read (w : Tanaka) (h : Spec.WordOk w) :
    Tanaka.fromText w.toText = .ok { w with sense := if w.sense = some 0 then none else w.sense } := by
  rw [toText_eq h]
  obtain ⟨sense, h1, h2⟩ := C60_parse (wordToParts w) (wordToParts_ok h)
  rw [h1]
  have : sense = if w.sense = some 0 then none else w.sense := by
    cases hw : w.sense with
    | none =>
      simp only [wordToParts, hw] at h2
      cases sense with
      | none => simp
      | some i => exact absurd ((h2 i).1 rfl) (by simp)
    | some i =>
      by_cases hi : i = 0
      · subst hi
        simp only [wordToParts, hw, if_true] at h2
        cases sense with
        | none => simp
        | some i => exact absurd ((h2 i).1 rfl) (by simp)
      · simp only [wordToParts, hw, if_neg hi] at h2
        rw [if_neg (by simpa using hi)]
        refine (h2 i).2 ⟨_, rfl, ?_⟩
        have h0 := h.2.2.2 i hw
        unfold showInt02
        rw [if_neg (by omega), pyInt_showNat02]
        congr 1
        omega
  rw [this]
  rfl

/-- C60 (partial): for every word with well-formed fields and a sense other than 0, parsing its text gives the word back, field by
field.  The full statement includes the sense 0, for which it is false (see below). -/
theorem C60_roundtrip_partial (w : Tanaka) (h : Spec.WordOk w) (h0 : w.sense ≠ some 0) : Tanaka.fromText w.toText = .ok w := by
  rw [C60_write_read w h, if_neg h0]

theorem wordOk_of_fromText {text : Str} {w : Tanaka} (h : Tanaka.fromText text = .ok w) : Spec.WordOk w := by
  obtain ⟨p, hok, _, e1, e2, e3, _, _, e6⟩ := (C60_sound text).1 w h
  exact ⟨by rw [e1]; exact hok.1, by rw [e2]; exact hok.2.1, by rw [e3]; exact hok.2.2.2.2, e6⟩

/-- C60 (partial): for every text that parses with a sense other than 0, parsing the text of the word gives the same word. -/
theorem C60_reparse_partial (text : Str) (w : Tanaka) (h : Tanaka.fromText text = .ok w) (h0 : w.sense ≠ some 0) :
    Tanaka.fromText w.toText = .ok w := C60_roundtrip_partial w (wordOk_of_fromText h) h0

/-- C60 as stated is false for the sense 0, which is written as no sense at all. -/
theorem C60_roundtrip_refuted : ∃ w, Tanaka.fromText u!"の[00]" = .ok w ∧ w.sense = some 0 ∧ w.toText = u!"の" ∧
    ∃ v, Tanaka.fromText w.toText = .ok v ∧ v.eq w = false := by
  refine ⟨⟨u!"の", none, some 0, none, false⟩, by decide +kernel, rfl, by decide +kernel, ⟨u!"の", none, none, none, false⟩,
    by decide +kernel, by decide +kernel⟩

example : Spec.WordOk ⟨u!"掛ける", some u!"かける", some 11, some u!"かけ", true⟩ := by
  refine ⟨⟨by decide, by decide +kernel⟩, ?_, ?_, ?_⟩
  · rintro _ ⟨⟩; exact ⟨by decide, by decide +kernel⟩
  · rintro _ ⟨⟩; exact ⟨by decide, by decide +kernel⟩
  · rintro _ ⟨⟩; decide

example : Tanaka.fromText u!"掛ける(かける)|1[11]{かけ}~" = .ok ⟨u!"掛ける", some u!"かける", some 11, some u!"かけ", true⟩ := by decide +kernel

/-! ### Equality (C61) -/

/-- C61: `==` on words is an equivalence, `!=` is its negation, and an omitted display counts as the headword. -/
theorem C61_equivalence :
    (∀ v : Tanaka, v.eq v = true) ∧ (∀ v w : Tanaka, v.eq w = w.eq v) ∧
    (∀ u v w : Tanaka, u.eq v = true → v.eq w = true → u.eq w = true) ∧ (∀ v w : Tanaka, v.ne w = !(v.eq w)) ∧
    (∀ (h : Str) (r : Option Str) (s : Option Int) (x : Bool), Tanaka.eq ⟨h, r, s, none, x⟩ ⟨h, r, s, some h, x⟩ = true) := by
  refine ⟨?_, ?_, ?_, fun _ _ => rfl, ?_⟩
  · intro v; simp [Tanaka.eq]
  · intro v w
    rw [Bool.eq_iff_iff]
    simp only [Tanaka.eq, Bool.and_eq_true, beq_iff_eq]
    constructor <;> rintro ⟨⟨⟨⟨h1, h2⟩, h3⟩, h4⟩, h5⟩ <;> exact ⟨⟨⟨⟨h1.symm, h2.symm⟩, h3.symm⟩, h4.symm⟩, h5.symm⟩
  · intro u v w
    simp only [Tanaka.eq, Bool.and_eq_true, beq_iff_eq]
    rintro ⟨⟨⟨⟨h1, h2⟩, h3⟩, h4⟩, h5⟩ ⟨⟨⟨⟨g1, g2⟩, g3⟩, g4⟩, g5⟩
    exact ⟨⟨⟨⟨h1.trans g1, h2.trans g2⟩, h3.trans g3⟩, h4.trans g4⟩, h5.trans g5⟩
  · intro h r s x; simp [Tanaka.eq, Tanaka.resolveDisplay]

/-- C61: exactly when two words are equal. -/
theorem C61_eq_iff (v w : Tanaka) : v.eq w = true ↔
    v.headword = w.headword ∧ v.reading = w.reading ∧ v.sense = w.sense ∧ v.isExample = w.isExample ∧
      (v.display = w.display ∨ (v.display = none ∧ w.display = some w.headword) ∨ (w.display = none ∧ v.display = some v.headword)) := by
  simp only [Tanaka.eq, Bool.and_eq_true, beq_iff_eq, Tanaka.resolveDisplay]
  constructor
  · rintro ⟨⟨⟨⟨h1, h2⟩, h3⟩, h4⟩, h5⟩
    refine ⟨h1, h4, h2, h3, ?_⟩
    cases hv : v.display <;> cases hw : w.display <;> rw [hv, hw] at h5 <;> simp at h5 ⊢
    · rw [← h5, h1]
    · rw [h5, h1]
    · exact h5
  · rintro ⟨h1, h2, h3, h4, h5⟩
    refine ⟨⟨⟨⟨h1, h3⟩, h4⟩, h2⟩, ?_⟩
    rcases h5 with h | ⟨h, h'⟩ | ⟨h, h'⟩
    · rw [h, h1]
    · rw [h, h']; simpa using h1
    · rw [h, h']; simpa using h1

/-- C61: so reparsing a word gives an equal word. -/
theorem C61_reparse_eq (text : Str) (w : Tanaka) (h : Tanaka.fromText text = .ok w) (h0 : w.sense ≠ some 0) :
    ∃ v, Tanaka.fromText w.toText = .ok v ∧ v.eq w = true := ⟨w, C60_reparse_partial text w h h0, C61_equivalence.1 w⟩

/-! ### Sentences (C62) -/

theorem parseWords_eq_ok {parts : List Str} : ∀ {ws : List Tanaka}, parseWords parts = .ok ws ↔
    (parts.filter (fun p => !p.isEmpty)).map Tanaka.fromText = ws.map Except.ok := by
  induction parts with
  | nil => intro ws; cases ws <;> simp [parseWords]
  | cons p parts ih =>
    intro ws
    rw [parseWords]
    cases p with
    | nil => simpa using ih
    | cons x p =>
      simp only [List.isEmpty_cons, Bool.false_eq_true, if_false]
      rw [List.filter_cons_of_pos (by rfl), List.map_cons]
      cases hf : Tanaka.fromText (x :: p) with
      | error e => cases ws <;> simp
      | ok w =>
        simp only
        cases hp : parseWords parts with
        | error e =>
          cases ws with
          | nil => simp
          | cons w' ws =>
            simp only [reduceCtorEq, List.map_cons, List.cons.injEq, false_iff, not_and]
            intro _ h
            rw [← ih, hp] at h
            cases h
        | ok ws1 =>
          have := ih.1 hp
          cases ws with
          | nil => simp
          | cons w' ws =>
            simp only [Except.ok.injEq, List.cons.injEq, List.map_cons]
            constructor
            · rintro ⟨rfl, rfl⟩; exact ⟨rfl, this⟩
            · rintro ⟨rfl, h⟩
              refine ⟨rfl, ?_⟩
              have h2 := ih.2 h
              rw [hp] at h2
              cases h2; rfl

theorem parseWords_error {parts : List Str} {e : PyErr} (h : parseWords parts = .error e) :
    e = .invalidEntryError ∧ ∃ p ∈ parts, p ≠ [] ∧ Tanaka.fromText p = .error .invalidEntryError := by
  induction parts with
  | nil => cases h
  | cons p parts ih =>
    rw [parseWords] at h
    cases p with
    | nil =>
      obtain ⟨h1, q, h2, h3⟩ := ih h
      exact ⟨h1, q, by simp [h2], h3⟩
    | cons x p =>
      simp only [List.isEmpty_cons, Bool.false_eq_true, if_false] at h
      cases hf : Tanaka.fromText (x :: p) with
      | error e' =>
        rw [hf] at h
        cases h
        have := (C60_sound (x :: p)).2 e hf
        subst this
        exact ⟨rfl, x :: p, by simp, by simp, hf⟩
      | ok w =>
        rw [hf] at h
        simp only at h
        cases hp : parseWords parts with
        | error e' =>
          rw [hp] at h
          cases h
          obtain ⟨h1, q, h2, h3⟩ := ih hp
          exact ⟨h1, q, by simp [h2], h3⟩
        | ok ws => rw [hp] at h; cases h

/-- C62: a sentence is read exactly into the words of its non-empty pieces between spaces, in order. -/
theorem C62_pieces (pieces : List Str) (hne : pieces ≠ []) (hsp : ∀ p ∈ pieces, 0x20 ∉ p) (ws : List Tanaka) :
    parseSentence (join [0x20] pieces) = .ok ws ↔
      (pieces.filter (fun p => !p.isEmpty)).map Tanaka.fromText = ws.map Except.ok := by
  unfold parseSentence
  rw [splitChr_join 0x20 pieces hne hsp]
  exact parseWords_eq_ok

/-- C62: InvalidEntryError is the only exception, raised iff some non-empty piece is not a word. -/
theorem C62_error (pieces : List Str) (hne : pieces ≠ []) (hsp : ∀ p ∈ pieces, 0x20 ∉ p) (e : PyErr) :
    parseSentence (join [0x20] pieces) = .error e ↔
      e = .invalidEntryError ∧ ∃ p ∈ pieces, p ≠ [] ∧ ∀ w, Tanaka.fromText p ≠ .ok w := by
  constructor
  · intro h
    unfold parseSentence at h
    rw [splitChr_join 0x20 pieces hne hsp] at h
    obtain ⟨h1, p, h2, h3, h4⟩ := parseWords_error h
    exact ⟨h1, p, h2, h3, fun w hw => by rw [h4] at hw; cases hw⟩
  · rintro ⟨rfl, p, h2, h3, h4⟩
    cases hp : parseSentence (join [0x20] pieces) with
    | error e =>
      unfold parseSentence at hp
      rw [splitChr_join 0x20 pieces hne hsp] at hp
      rw [(parseWords_error hp).1]
    | ok ws =>
      have := (C62_pieces pieces hne hsp ws).1 hp
      have hm : Tanaka.fromText p ∈ (pieces.filter (fun p => !p.isEmpty)).map Tanaka.fromText :=
        List.mem_map_of_mem (List.mem_filter.2 ⟨h2, by cases p with | nil => exact absurd rfl h3 | cons => rfl⟩)
      rw [this, List.mem_map] at hm
      obtain ⟨w, _, hw⟩ := hm
      exact absurd hw.symm (h4 w)

/-- C62: reading words written with any number of spaces between, before and behind them. -/
theorem C62_roundtrip (ws : List Tanaka) (pieces : List Str) (hne : pieces ≠ [])
    (hws : ∀ w ∈ ws, Spec.WordOk w ∧ w.sense ≠ some 0 ∧ 0x20 ∉ w.toText)
    (hp : pieces.filter (fun p => !p.isEmpty) = ws.map Tanaka.toText) :
    parseSentence (join [0x20] pieces) = .ok ws := by
  have hsp : ∀ p ∈ pieces, 0x20 ∉ p := by
    intro p hpm
    cases p with
    | nil => simp
    | cons x p =>
      have : (x :: p) ∈ pieces.filter (fun p => !p.isEmpty) := List.mem_filter.2 ⟨hpm, rfl⟩
      rw [hp, List.mem_map] at this
      obtain ⟨w, hw, he⟩ := this
      rw [← he]
      exact (hws w hw).2.2
  rw [C62_pieces pieces hne hsp, hp, List.map_map]
  apply List.map_congr_left
  intro w hw
  exact C60_roundtrip_partial w (hws w hw).1 (hws w hw).2.1

example : parseSentence u!" 彼(かれ)[01]  は{ハ}~ " =
    .ok [⟨u!"彼", some u!"かれ", some 1, none, false⟩, ⟨u!"は", none, none, some u!"ハ", true⟩] := by decide +kernel

example : [u!"", u!"彼(かれ)[01]", u!"", u!"は{ハ}~", u!""].filter (fun p => !p.isEmpty) =
    [(⟨u!"彼", some u!"かれ", some 1, none, false⟩ : Tanaka), ⟨u!"は", none, none, some u!"ハ", true⟩].map Tanaka.toText := by decide +kernel

/-! ### Filling in readings (C63) -/

/-- What `adjust_details` may do to a word. -/
def Spec.Adjusted (edict : Dict Str (List Str)) (w w' : Tanaka) : Prop :=
  w'.headword = w.headword ∧ w'.sense = w.sense ∧ w'.display = w.display ∧ w'.isExample = w.isExample ∧
  (w.reading ≠ none → w'.reading = w.reading) ∧
  (∀ r, w.reading = none → w'.reading = some r → r ≠ w.headword ∧ ∃ rs, Dict.get? edict w.headword = some rs ∧ r ∈ rs)

theorem getItemI_mem {l : List Str} {i : Int} {r : Str} (h : getItemI l i = .ok r) : r ∈ l := by
  have aux : ∀ n, Py.getItem l n = .ok r → r ∈ l := by
    intro n hn
    unfold Py.getItem at hn
    cases hg : l[n]? with
    | none => rw [hg] at hn; cases hn
    | some x => rw [hg] at hn; cases hn; exact List.mem_of_getElem? hg
  unfold getItemI at h
  split at h
  · exact aux _ h
  · split at h
    · exact aux _ h
    · cases h

theorem findReading_mem {s : Option Int} {rs : List Str} {r : Str} (h : findReading s rs = .ok (some r)) : r ∈ rs := by
  have aux : ∀ i, Except.map some (getItemI rs i) = .ok (some r) → r ∈ rs := by
    intro i hi
    cases hg : getItemI rs i with
    | error e => rw [hg] at hi; cases hi
    | ok x => rw [hg] at hi; cases hi; exact getItemI_mem hg
  unfold findReading at h
  split at h
  · split at h
    · exact aux _ h
    · split at h
      · exact aux _ h
      · cases h
  · split at h
    · exact aux _ h
    · cases h

theorem adjustWord_spec {edict : Dict Str (List Str)} {w w' : Tanaka} (h : adjustWord edict w = .ok w') :
    Spec.Adjusted edict w w' ∧ adjustWord edict w' = .ok w' := by
  have h0 := h
  unfold adjustWord at h
  have same : w' = w → Spec.Adjusted edict w w' ∧ adjustWord edict w' = .ok w' := by
    rintro rfl
    refine ⟨⟨rfl, rfl, rfl, rfl, fun _ => rfl, ?_⟩, h0⟩
    intro r h1 h2
    rw [h1] at h2
    cases h2
  cases he : Dict.get? edict w.headword with
  | none => rw [he] at h; cases h; exact same rfl
  | some rs =>
    rw [he] at h
    simp only at h
    cases hr : w.reading with
    | some r => rw [hr] at h; cases h; exact same rfl
    | none =>
      rw [hr] at h
      simp only at h
      cases hf : findReading w.sense rs with
      | error e => rw [hf] at h; cases h
      | ok o =>
        rw [hf] at h
        simp only [Except.ok.injEq] at h
        by_cases ho : o ≠ some w.headword
        · rw [if_pos ho] at h
          cases o with
          | none =>
            apply same
            rw [← h]
            cases w
            simp only at hr
            subst hr
            rfl
          | some r =>
            subst h
            refine ⟨⟨rfl, rfl, rfl, rfl, by simp [hr], ?_⟩, ?_⟩
            · rintro r' _ ⟨⟩
              exact ⟨fun e => ho (by rw [e]), rs, he, findReading_mem hf⟩
            · unfold adjustWord
              simp [he]
        · rw [if_neg ho] at h
          exact same h.symm

theorem adjustWords_spec {edict : Dict Str (List Str)} {ws : List Tanaka} : ∀ {ws' : List Tanaka}, adjustWords edict ws = .ok ws' →
    (ws'.length = ws.length ∧ ∀ p ∈ ws.zip ws', Spec.Adjusted edict p.1 p.2) ∧ adjustWords edict ws' = .ok ws' := by
  induction ws with
  | nil => rintro ws' ⟨⟩; exact ⟨⟨rfl, by simp⟩, rfl⟩
  | cons w ws ih =>
    intro ws' h
    rw [adjustWords] at h
    cases hw : adjustWord edict w with
    | error e => rw [hw] at h; cases h
    | ok x =>
      rw [hw] at h
      simp only at h
      cases hws : adjustWords edict ws with
      | error e => rw [hws] at h; cases h
      | ok xs =>
        rw [hws] at h
        simp only [Except.ok.injEq] at h
        subst h
        obtain ⟨i1, i2⟩ := ih hws
        obtain ⟨j1, j2⟩ := adjustWord_spec hw
        refine ⟨⟨by simp [i1.1], ?_⟩, by rw [adjustWords, j2, i2]⟩
        intro p hp
        rw [List.zip_cons_cons, List.mem_cons] at hp
        rcases hp with rfl | hp
        · exact j1
        · exact i1.2 p hp

/-- C63: `adjust_details` changes nothing but missing readings; a filled-in reading is one of the headword's readings in the
dictionary and differs from the headword; applying it again changes nothing. -/
theorem C63_adjust (edict : Dict Str (List Str)) (ws ws' : List Tanaka) (h : adjustDetails (some edict) ws = .ok ws') :
    (ws'.length = ws.length ∧ ∀ p ∈ ws.zip ws', Spec.Adjusted edict p.1 p.2) ∧ adjustDetails (some edict) ws' = .ok ws' := adjustWords_spec h

/-- C63: which reading is filled in: the one of the sense if there are enough readings, else the only reading. -/
theorem C63_which (edict : Dict Str (List Str)) (w : Tanaka) (rs : List Str) (hr : w.reading = none)
    (he : Dict.get? edict w.headword = some rs) (r : Str) (hne : r ≠ w.headword) :
    (∀ n : Nat, w.sense = some ((n : Int) + 1) → rs[n]? = some r → adjustDetails (some edict) [w] = .ok [{ w with reading := some r }]) ∧
    ((∀ i, w.sense = some i → (rs.length : Int) < i) → r ∈ rs → (∀ x ∈ rs, x = r) →
      adjustDetails (some edict) [w] = .ok [{ w with reading := some r }]) := by
  have key : findReading w.sense rs = .ok (some r) → adjustDetails (some edict) [w] = .ok [{ w with reading := some r }] := by
    intro hf
    have ha : adjustWord edict w = .ok { w with reading := some r } := by
      unfold adjustWord
      rw [he, hr]
      simp only [hf, ne_eq, Option.some.injEq, hne, not_false_eq_true, if_true]
    show adjustWords edict [w] = _
    simp only [adjustWords, ha]
  have one : (∀ x ∈ rs, x = r) → r ∈ rs → (dedup rs).length = 1 ∧ getItemI rs 0 = .ok r := by
    intro hall hm
    cases rs with
    | nil => cases hm
    | cons x rs =>
      have hx := hall x (by simp)
      subst hx
      refine ⟨?_, rfl⟩
      have : (dedup rs).filter (· ≠ x) = [] := by
        rw [List.filter_eq_nil_iff]
        intro y hy
        rw [mem_dedup] at hy
        simp [hall y (by simp [hy])]
      rw [dedup, List.length_cons, this]; rfl
  refine ⟨?_, ?_⟩
  · intro n hs hn
    apply key
    have hlt : n < rs.length := (List.getElem?_eq_some_iff.1 hn).1
    rw [hs]
    unfold findReading
    simp only
    rw [if_pos (by omega), show (n : Int) + 1 - 1 = (n : Int) by omega]
    have : getItemI rs (n : Int) = .ok r := by
      unfold getItemI Py.getItem
      simp [hn]
    rw [this]; rfl
  · intro hs hm hall
    obtain ⟨h1, h2⟩ := one hall hm
    apply key
    unfold findReading
    cases hw : w.sense with
    | none => simp only; rw [if_pos h1, h2]; rfl
    | some i =>
      simp only
      have := hs i hw
      rw [if_neg (by omega), if_pos h1, h2]; rfl

/-- C63: without a dictionary nothing changes. -/
theorem C63_no_dictionary (ws : List Tanaka) : adjustDetails none ws = .ok ws := rfl

/-- C63: `adjust_details` succeeds when the dictionary has a reading for each of its headwords and senses are not negative. -/
theorem C63_total (edict : Dict Str (List Str)) (ws : List Tanaka) (hd : ∀ k rs, Dict.get? edict k = some rs → rs ≠ [])
    (hs : ∀ w ∈ ws, ∀ i, w.sense = some i → 0 ≤ i) : ∃ ws', adjustDetails (some edict) ws = .ok ws' := by
  show ∃ ws', adjustWords edict ws = .ok ws'
  induction ws with
  | nil => exact ⟨[], rfl⟩
  | cons w ws ih =>
    obtain ⟨xs, hx⟩ := ih (fun v hv => hs v (by simp [hv]))
    suffices h : ∃ x, adjustWord edict w = .ok x by
      obtain ⟨x, h⟩ := h
      exact ⟨x :: xs, by rw [adjustWords, h, hx]⟩
    unfold adjustWord
    cases he : Dict.get? edict w.headword with
    | none => exact ⟨w, rfl⟩
    | some rs =>
      cases w.reading with
      | some r => exact ⟨w, rfl⟩
      | none =>
        have hne := hd _ _ he
        have item : ∀ i : Int, -1 ≤ i → i < rs.length → ∃ r, getItemI rs i = .ok r := by
          intro i h1 h2
          have hlen : 0 < rs.length := List.length_pos_iff.2 hne
          unfold getItemI
          rcases Int.lt_or_le i 0 with hi | hi
          · have : i = -1 := by omega
            subst this
            cases hg : rs[rs.length - 1]? with
            | none => rw [List.getElem?_eq_none_iff] at hg; omega
            | some x => exact ⟨x, by
                rw [if_neg (by omega), if_pos (by omega), show (-1 + (rs.length : Int)).toNat = rs.length - 1 by omega]
                simp only [Py.getItem, hg]⟩
          · obtain ⟨n, rfl⟩ := Int.eq_ofNat_of_zero_le hi
            cases hg : rs[n]? with
            | none => rw [List.getElem?_eq_none_iff] at hg; omega
            | some x => exact ⟨x, by simp [Py.getItem, hg]⟩
        have hf : ∃ o, findReading w.sense rs = .ok o := by
          have hlen : 0 < rs.length := List.length_pos_iff.2 hne
          have zero : ∃ o, (if (dedup rs).length = 1 then (getItemI rs 0).map some else .ok none) = .ok o := by
            split
            · obtain ⟨r, hr⟩ := item 0 (by omega) (by omega)
              exact ⟨some r, by rw [hr]; rfl⟩
            · exact ⟨none, rfl⟩
          unfold findReading
          cases hw : w.sense with
          | none => exact zero
          | some i =>
            simp only
            split
            · obtain ⟨r, hr⟩ := item (i - 1) (by have := hs w (by simp) i hw; omega) (by omega)
              exact ⟨some r, by rw [hr]; rfl⟩
            · exact zero
        obtain ⟨o, ho⟩ := hf
        exact ⟨_, by simp only [ho]; rfl⟩

example : adjustDetails (some [(u!"彼", [u!"かれ", u!"あれ"]), (u!"は", [u!"は"])])
    [⟨u!"彼", none, some 2, none, false⟩, ⟨u!"は", none, none, none, false⟩] =
    .ok [⟨u!"彼", some u!"あれ", some 2, none, false⟩, ⟨u!"は", none, none, none, false⟩] := by decide +kernel

/-! ### The index reader (C64) -/

/-- The rows of an index file that belong to the subset. -/
def Spec.indexAccepted (subset : Option (List Int)) (rows : List (List Str)) : List (List Str) :=
  rows.filter (fun r => match subset with
    | none => true
    | some ids => match Spec.rowId r with
      | .ok i => decide (i ∈ ids)
      | .error _ => false)

/-- A row of an index file that can be read: an id, the id of the translation, and a sentence whose words can be completed. -/
def Spec.indexWords (edict : Option (Dict Str (List Str))) (r : List Str) : Except PyErr (List Tanaka) :=
  parseSentence (r.getD 2 []) >>= adjustDetails edict

theorem indexRow_eq_ok {edict : Option (Dict Str (List Str))} {subset : Option (List Int)} {d d' : IndexData} {r : List Str}
    (h : indexRow edict subset d r = .ok d') :
    r.length = 3 ∧ (∃ i, Spec.rowId r = .ok i) ∧ (∃ m, pyInt 10 (r.getD 1 []) = .ok m) ∧
    ((Spec.indexAccepted subset [r] = [] ∧ d' = d) ∨
      (Spec.indexAccepted subset [r] = [r] ∧ ∃ i m ws, Spec.rowId r = .ok i ∧ pyInt 10 (r.getD 1 []) = .ok m ∧
        Spec.indexWords edict r = .ok ws ∧ d' = ⟨Dict.set d.sent i ws, Dict.set d.link i m⟩)) := by
  match r with
  | [] => cases h
  | [_] => cases h
  | [_, _] => cases h
  | _ :: _ :: _ :: _ :: _ => cases h
  | [a, b, text] =>
    unfold indexRow at h
    simp only at h
    have e1 : Spec.rowId [a, b, text] = pyInt 10 a := rfl
    have e2 : ([a, b, text] : List Str).getD 1 [] = b := rfl
    have e3 : Spec.indexWords edict [a, b, text] = parseSentence text >>= adjustDetails edict := rfl
    rw [e1, e2, e3]
    cases ha : pyInt 10 a with
    | error e => rw [ha] at h; cases h
    | ok i =>
      rw [ha] at h
      simp only at h
      cases hb : pyInt 10 b with
      | error e => rw [hb] at h; cases h
      | ok m =>
        rw [hb] at h
        simp only at h
        refine ⟨rfl, ⟨i, rfl⟩, ⟨m, rfl⟩, ?_⟩
        have enter : indexEnter edict d i m text = .ok d' → ∃ ws, (parseSentence text >>= adjustDetails edict) = .ok ws ∧
            d' = ⟨Dict.set d.sent i ws, Dict.set d.link i m⟩ := by
          intro h
          unfold indexEnter at h
          cases hp : parseSentence text with
          | error e => rw [hp] at h; cases h
          | ok ws =>
            rw [hp] at h
            simp only at h
            cases hd : adjustDetails edict ws with
            | error e => rw [hd] at h; cases h
            | ok ws' =>
              rw [hd] at h
              cases h
              exact ⟨ws', hd, rfl⟩
        cases subset with
        | none =>
          obtain ⟨ws, h1, h2⟩ := enter h
          exact Or.inr ⟨rfl, i, m, ws, rfl, rfl, h1, h2⟩
        | some ids =>
          simp only at h
          by_cases hi : i ∈ ids
          · rw [if_pos hi] at h
            obtain ⟨ws, h1, h2⟩ := enter h
            exact Or.inr ⟨by simp [Spec.indexAccepted, e1, ha, hi], i, m, ws, rfl, rfl, h1, h2⟩
          · rw [if_neg hi] at h
            cases h
            exact Or.inl ⟨by simp [Spec.indexAccepted, e1, ha, hi], rfl⟩

theorem lastRow_cons' (r : List Str) (rows : List (List Str)) (i : Int) :
    Spec.lastRow (r :: rows) i = (Spec.lastRow rows i).or (if Spec.rowId r = .ok i then some r else none) := by
  simp only [Spec.lastRow, List.reverse_cons, List.find?_append, List.find?_cons, List.find?_nil]
  by_cases h : Spec.rowId r = .ok i <;> simp [h]

theorem indexRows_eq_ok {edict : Option (Dict Str (List Str))} {subset : Option (List Int)} {rows : List (List Str)} :
    ∀ {d d' : IndexData}, indexRows edict subset d rows = .ok d' →
    (∀ i, (Dict.get? d'.sent i).map Except.ok =
      ((Spec.lastRow (Spec.indexAccepted subset rows) i).map (Spec.indexWords edict)).or ((Dict.get? d.sent i).map Except.ok)) ∧
    (∀ i, (Dict.get? d'.link i).map Except.ok =
      ((Spec.lastRow (Spec.indexAccepted subset rows) i).map (fun r => pyInt 10 (r.getD 1 []))).or ((Dict.get? d.link i).map Except.ok)) := by
  induction rows with
  | nil =>
    intro d d' h
    cases h
    exact ⟨by intro i; rfl, by intro i; rfl⟩
  | cons r rows ih =>
    intro d d' h
    rw [indexRows] at h
    cases hr : indexRow edict subset d r with
    | error e => rw [hr] at h; cases h
    | ok d1 =>
      rw [hr] at h
      obtain ⟨i1, i2⟩ := ih h
      obtain ⟨_, _, _, hc⟩ := indexRow_eq_ok hr
      have happ : Spec.indexAccepted subset (r :: rows) = Spec.indexAccepted subset [r] ++ Spec.indexAccepted subset rows := by
        rw [show r :: rows = [r] ++ rows from rfl, Spec.indexAccepted, List.filter_append]; rfl
      rw [happ]
      rcases hc with ⟨ha, rfl⟩ | ⟨ha, k, m, ws, hk, hm, hw, rfl⟩
      · rw [ha]; exact ⟨i1, i2⟩
      · rw [ha, List.singleton_append]
        refine ⟨?_, ?_⟩
        · intro i
          rw [i1 i, lastRow_cons', hk]
          simp only [Dict.get?_set]
          by_cases hki : k = i
          · subst hki
            cases Spec.lastRow (Spec.indexAccepted subset rows) k <;> simp [hw]
          · simp [hki]
        · intro i
          rw [i2 i, lastRow_cons', hk]
          simp only [Dict.get?_set]
          by_cases hki : k = i
          · subst hki
            cases Spec.lastRow (Spec.indexAccepted subset rows) k <;> simp [← hm]
          · simp [hki]

/-- C64: after loading, `link(i)` and `reader[i]` come from the last row with id `i` in the subset, and are missing together when there
is no such row. -/
theorem C64_lookups (edict : Option (Dict Str (List Str))) (subset : Option (List Int)) (rows : Rows) (d : IndexData)
    (h : indexLoad edict subset rows = .ok d) (i : Int) :
    (d.linkOf i = match Spec.lastRow (Spec.indexAccepted subset rows.1) i with
      | some r => pyInt 10 (r.getD 1 [])
      | none => .error .invalidIDError) ∧
    (d.getItem i = match Spec.lastRow (Spec.indexAccepted subset rows.1) i with
      | some r => Spec.indexWords edict r
      | none => .error .keyError) ∧
    (i ∈ Dict.keys d.link ↔ i ∈ Dict.keys d.sent) := by
  unfold indexLoad at h
  cases hr : indexRows edict subset ⟨[], []⟩ rows.1 with
  | error e => rw [hr] at h; cases h
  | ok d' =>
    rw [hr] at h
    simp only at h
    cases he : rows.2 with
    | some e => rw [he] at h; cases h
    | none =>
      rw [he] at h
      cases h
      obtain ⟨h1, h2⟩ := indexRows_eq_ok hr
      have h1 := h1 i
      have h2 := h2 i
      rw [← Dict.get?_isSome_iff, ← Dict.get?_isSome_iff]
      unfold IndexData.linkOf IndexData.getItem Dict.getItem
      cases hl : Spec.lastRow (Spec.indexAccepted subset rows.1) i with
      | none =>
        rw [hl] at h1 h2
        cases g1 : Dict.get? d.sent i <;> rw [g1] at h1 <;> simp at h1
        cases g2 : Dict.get? d.link i <;> rw [g2] at h2 <;> simp at h2
        simp
      | some r =>
        rw [hl] at h1 h2
        cases g1 : Dict.get? d.sent i <;> rw [g1] at h1 <;> simp at h1
        cases g2 : Dict.get? d.link i <;> rw [g2] at h2 <;> simp at h2
        simp [h1, h2]

/-- C64: loading succeeds when every row has three columns, two numbers, and (within the subset) words that can be read. -/
theorem C64_loads (edict : Option (Dict Str (List Str))) (subset : Option (List Int)) (rows : List (List Str))
    (h : ∀ r ∈ rows, r.length = 3 ∧ (∃ i, Spec.rowId r = .ok i) ∧ (∃ m, pyInt 10 (r.getD 1 []) = .ok m) ∧
      (r ∈ Spec.indexAccepted subset rows → ∃ ws, Spec.indexWords edict r = .ok ws)) :
    ∃ d, indexLoad edict subset (rows, none) = .ok d := by
  have aux : ∀ (l : List (List Str)) (d : IndexData), (∀ r ∈ l, r ∈ rows) → ∃ d', indexRows edict subset d l = .ok d' := by
    intro l
    induction l with
    | nil => intro d _; exact ⟨d, rfl⟩
    | cons r l ih =>
      intro d hl
      have hr := hl r (by simp)
      obtain ⟨h1, ⟨i, h2⟩, ⟨m, h3⟩, h4⟩ := h r hr
      suffices hs : ∃ d1, indexRow edict subset d r = .ok d1 by
        obtain ⟨d1, hd1⟩ := hs
        obtain ⟨d', hd'⟩ := ih d1 (fun x hx => hl x (by simp [hx]))
        exact ⟨d', by rw [indexRows, hd1]; exact hd'⟩
      match r, h1 with
      | [a, b, text], _ =>
        have e1 : pyInt 10 a = .ok i := h2
        have e2 : pyInt 10 b = .ok m := h3
        have enter : [a, b, text] ∈ Spec.indexAccepted subset rows → ∃ d1, indexEnter edict d i m text = .ok d1 := by
          intro hm
          obtain ⟨ws, hw⟩ := h4 hm
          unfold Spec.indexWords at hw
          rw [bind_eq_ok] at hw
          obtain ⟨ws0, hw0, hw1⟩ := hw
          have hw0' : parseSentence text = .ok ws0 := hw0
          exact ⟨_, by unfold indexEnter; rw [hw0']; simp only [hw1]; rfl⟩
        unfold indexRow
        simp only [e1, e2]
        cases subset with
        | none => exact enter (by simp [Spec.indexAccepted, hr])
        | some ids =>
          simp only
          by_cases hi : i ∈ ids
          · rw [if_pos hi]
            exact enter (by simp only [Spec.indexAccepted, List.mem_filter]; exact ⟨hr, by rw [h2]; simpa using hi⟩)
          · rw [if_neg hi]; exact ⟨d, rfl⟩
  obtain ⟨d, hd⟩ := aux rows ⟨[], []⟩ (fun _ hx => hx)
  exact ⟨d, by simp only [indexLoad, hd]⟩

example : ∃ d, indexLoad (some [(u!"彼", [u!"かれ"])]) (some [1, 2])
    ([[u!"1", u!"7", u!"彼 は~"], [u!"3", u!"7", u!"((("], [u!"1", u!"8", u!"彼"]], none) = .ok d ∧
      d.linkOf 1 = .ok 8 ∧ d.getItem 1 = .ok [⟨u!"彼", some u!"かれ", none, none, false⟩] ∧ d.linkOf 3 = .error .invalidIDError := by
  refine ⟨_, rfl, ?_, ?_, ?_⟩ <;> decide +kernel

end Cjk
