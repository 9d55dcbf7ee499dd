import Verif.Py.Strip
/-!
# Decimal numerals: `int(str(n)) = n`
-/

namespace Py

theorem decVal_ascii : ∀ d < 10, decVal (0x30 + d) = some d := by decide +kernel

theorem digitVal_ascii {d : Nat} (h : d < 10) : digitVal 10 (0x30 + d) = some d := by
  simp [digitVal, decVal_ascii d h, h]

/-- An ASCII digit. -/
def AsciiDigit (c : Nat) : Prop := 0x30 ≤ c ∧ c ≤ 0x39
instance (c : Nat) : Decidable (AsciiDigit c) := by unfold AsciiDigit; infer_instance

theorem asciiDigit_not_space {c : Nat} (h : AsciiDigit c) : isSpace c = false := by
  unfold AsciiDigit at h
  unfold isSpace
  simp only [Bool.or_eq_false_iff, Bool.and_eq_false_iff, decide_eq_false_iff_not, beq_eq_false_iff_ne, ne_eq]
  omega

theorem digitsVal_ascii (s : Str) (acc : Nat) (pd : Bool) (h : ∀ c ∈ s, AsciiDigit c) (hne : s ≠ [] ∨ pd = true) :
    digitsVal 10 acc pd s = some (s.foldl (fun a c => a * 10 + (c - 0x30)) acc) := by
  induction s generalizing acc pd with
  | nil => rcases hne with h | h <;> simp_all [digitsVal]
  | cons c s ih =>
    have hc := h c (by simp)
    unfold AsciiDigit at hc
    have hv : digitVal 10 c = some (c - 0x30) := by
      have := digitVal_ascii (d := c - 0x30) (by omega)
      rwa [show 0x30 + (c - 0x30) = c by omega] at this
    rw [digitsVal, if_neg (by omega), hv]
    simp only
    rw [ih _ _ (fun x hx => h x (by simp [hx])) (Or.inr rfl)]
    rfl

theorem revDigits_digits (n : Nat) : ∀ c ∈ revDigits n, AsciiDigit c := by
  induction n using Nat.strongRecOn with
  | ind n ih =>
    unfold revDigits
    unfold AsciiDigit at *
    split
    · simp; omega
    · simp only [List.mem_cons]
      rintro c (rfl | hc)
      · omega
      · exact ih (n / 10) (by omega) c hc

theorem revDigits_ne_nil (n : Nat) : revDigits n ≠ [] := by unfold revDigits; split <;> simp

theorem revDigits_value (n : Nat) : (revDigits n).foldr (fun c a => a * 10 + (c - 0x30)) 0 = n := by
  induction n using Nat.strongRecOn with
  | ind n ih =>
    unfold revDigits
    split
    · simp
    · simp only [List.foldr_cons, ih (n / 10) (by omega)]; omega

theorem showNat_digits (n : Nat) : ∀ c ∈ showNat n, AsciiDigit c := by
  unfold showNat; simpa using revDigits_digits n

theorem showNat_ne_nil (n : Nat) : showNat n ≠ [] := by
  unfold showNat; simpa using revDigits_ne_nil n

theorem unsignedVal_showNat (n : Nat) : unsignedVal 10 (showNat n) = some n := by
  have : unsignedVal 10 (showNat n) = digitsVal 10 0 false (showNat n) := by
    unfold unsignedVal; rfl
  rw [this, digitsVal_ascii _ _ _ (showNat_digits n) (Or.inl (showNat_ne_nil n))]
  unfold showNat
  rw [List.foldl_reverse, revDigits_value]

/-- Digits only, hence not signed. -/
theorem pyInt_of_digits {s : Str} (hne : s ≠ []) (h : ∀ c ∈ s, AsciiDigit c) :
    pyInt 10 s = .ok (Int.ofNat (s.foldl (fun a c => a * 10 + (c - 0x30)) 0)) := by
  unfold pyInt
  rw [strip_of_no_space (fun c hc => asciiDigit_not_space (h c hc))]
  have hu : unsignedVal 10 s = some (s.foldl (fun a c => a * 10 + (c - 0x30)) 0) := by
    have : unsignedVal 10 s = digitsVal 10 0 false s := by unfold unsignedVal; rfl
    rw [this, digitsVal_ascii s _ _ h (Or.inl hne)]
  cases s with
  | nil => exact absurd rfl hne
  | cons x t =>
    have hx := h x (by simp)
    unfold AsciiDigit at hx
    have h1 : x ≠ 0x2b := by omega
    have h2 : x ≠ 0x2d := by omega
    simp only
    split
    · rename_i i hi
      revert hi
      split
      · rename_i heq; cases heq; exact absurd rfl h1
      · rename_i heq; cases heq; exact absurd rfl h2
      · rw [hu]; intro hi; cases hi; rfl
    · rename_i hi
      revert hi
      split
      · rename_i heq; cases heq; exact absurd rfl h1
      · rename_i heq; cases heq; exact absurd rfl h2
      · rw [hu]; intro hi; cases hi

theorem pyInt_showNat (n : Nat) : pyInt 10 (showNat n) = .ok (n : Int) := by
  rw [pyInt_of_digits (showNat_ne_nil n) (showNat_digits n)]
  congr 1
  unfold showNat
  rw [List.foldl_reverse, revDigits_value]; rfl

theorem pyInt_showInt (i : Int) : pyInt 10 (showInt i) = .ok i := by
  unfold showInt
  split
  · rename_i h
    unfold pyInt
    rw [strip_of_no_space]
    · simp only [unsignedVal_showNat, Option.map_some]
      congr 1
      simp only [Int.ofNat_eq_natCast]; omega
    · intro c hc
      rcases List.mem_cons.1 hc with rfl | hc
      · decide
      · exact asciiDigit_not_space (showNat_digits _ c hc)
  · rw [pyInt_showNat]; congr 1; omega

end Py
