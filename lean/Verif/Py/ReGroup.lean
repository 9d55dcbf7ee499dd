import Verif.Py.Re
import Verif.Py.Num
/-!
# Optional bracketed groups

`(?:a(?P<n>[..]+)b)?` and its relatives: what the engine finds first, and what any match looks like.
-/

namespace Py

/-- An optional piece between two brackets. -/
def brack (a b : Nat) : Option Str → Str
  | none => []
  | some u => a :: (u ++ [b])

/-- An optional piece behind a mark. -/
def marked (a : Nat) : Option Str → Str
  | none => []
  | some u => a :: u

/-- The captures after an optional group. -/
def capture (n : Str) (c : Caps) : Option Str → Caps
  | none => c
  | some u => Dict.set c n u

theorem get?_capture (n m : Str) (c : Caps) (o : Option Str) :
    Dict.get? (capture n c o) m = if n = m then o.or (Dict.get? c m) else Dict.get? c m := by
  cases o with
  | none => simp [capture]
  | some u => simp only [capture, Dict.get?_set]; split <;> simp

namespace Re

theorem mem_run_plus {p : Nat → Bool} {s t : Str} {c c' : Caps} (h : (t, c') ∈ (Re.plus p).run s c) :
    ∃ u, s = u ++ t ∧ u ≠ [] ∧ (∀ x ∈ u, p x = true) ∧ c' = c := by
  unfold Re.plus at h
  simp only [run, List.mem_flatMap, List.mem_map] at h
  obtain ⟨⟨s1, c1⟩, h1, v, h2, h3⟩ := h
  cases s with
  | nil => simp at h1
  | cons x s =>
    simp only at h1
    split at h1
    · rename_i hx
      simp only [List.mem_singleton, Prod.mk.injEq] at h1 h3
      obtain ⟨rfl, rfl⟩ := h1
      obtain ⟨rfl, rfl⟩ := h3
      obtain ⟨u, rfl, hu⟩ := (manySplits_mem s1 v).1 h2
      refine ⟨x :: u, rfl, by simp, ?_, rfl⟩
      intro y hy
      rcases List.mem_cons.1 hy with rfl | hy
      · exact hx
      · exact hu y hy
    · simp at h1

theorem mem_run_lit1 {a : Nat} {s t : Str} {c c' : Caps} (h : (t, c') ∈ (Re.lit [a]).run s c) : s = a :: t ∧ c' = c := by
  rw [run_lit] at h
  split at h
  · rename_i hp
    rw [List.isPrefixOf_iff_prefix] at hp
    obtain ⟨u, rfl⟩ := hp
    simp only [List.mem_singleton, Prod.mk.injEq] at h
    simp [h.1, h.2]
  · simp at h

theorem mem_run_group {n : Str} {r : Re} {s t : Str} {c c' : Caps} (h : (t, c') ∈ (Re.group n r).run s c) :
    ∃ c1, (t, c1) ∈ r.run s c ∧ c' = Dict.set c1 n (s.take (s.length - t.length)) := by
  simp only [run, List.mem_map, Prod.mk.injEq] at h
  obtain ⟨⟨t1, c1⟩, h1, rfl, h3⟩ := h
  exact ⟨c1, h1, h3.symm⟩

theorem mem_run_seq {a b : Re} {s t : Str} {c c' : Caps} (h : (t, c') ∈ (Re.seq a b).run s c) :
    ∃ s1 c1, (s1, c1) ∈ a.run s c ∧ (t, c') ∈ b.run s1 c1 := by
  simp only [run, List.mem_flatMap] at h
  obtain ⟨⟨s1, c1⟩, h1, h2⟩ := h
  exact ⟨s1, c1, h1, h2⟩

theorem mem_run_group_plus {n : Str} {p : Nat → Bool} {s t : Str} {c c' : Caps}
    (h : (t, c') ∈ (Re.group n (Re.plus p)).run s c) :
    ∃ u, s = u ++ t ∧ u ≠ [] ∧ (∀ x ∈ u, p x = true) ∧ c' = Dict.set c n u := by
  obtain ⟨c1, h1, rfl⟩ := mem_run_group h
  obtain ⟨u, rfl, hne, hu, rfl⟩ := mem_run_plus h1
  exact ⟨u, rfl, hne, hu, by simp⟩

/-- `(?:a(?P<n>[..]+)b)?` -/
def optBrack (a b : Nat) (n : Str) (p : Nat → Bool) : Re :=
  Re.opt (.seq (Re.lit [a]) (.seq (.group n (Re.plus p)) (Re.lit [b])))

theorem mem_run_optBrack {a b : Nat} {n : Str} {p : Nat → Bool} {s t : Str} {c c' : Caps}
    (h : (t, c') ∈ (optBrack a b n p).run s c) :
    ∃ o, s = brack a b o ++ t ∧ (∀ u, o = some u → u ≠ [] ∧ ∀ x ∈ u, p x = true) ∧ c' = capture n c o := by
  unfold optBrack Re.opt at h
  rw [run, List.mem_append] at h
  rcases h with h | h
  · obtain ⟨s1, c1, h1, h2⟩ := mem_run_seq h
    obtain ⟨s2, c2, h3, h4⟩ := mem_run_seq h2
    obtain ⟨rfl, rfl⟩ := mem_run_lit1 h1
    obtain ⟨u, rfl, hne, hu, rfl⟩ := mem_run_group_plus h3
    obtain ⟨rfl, rfl⟩ := mem_run_lit1 h4
    exact ⟨some u, by simp [brack], by rintro _ ⟨⟩; exact ⟨hne, hu⟩, rfl⟩
  · simp only [run_eps, List.mem_singleton, Prod.mk.injEq] at h
    obtain ⟨rfl, rfl⟩ := h
    exact ⟨none, rfl, by simp, rfl⟩

theorem first_optBrack {a b : Nat} {n : Str} {p : Nat → Bool} (o : Option Str) (t : Str) (c : Caps) (hb : p b = false)
    (ho : ∀ u, o = some u → u ≠ [] ∧ ∀ x ∈ u, p x = true) (ht : o = none → t.head? ≠ some a) :
    (optBrack a b n p).first (brack a b o ++ t) c = some (t, capture n c o) := by
  unfold optBrack Re.opt
  cases o with
  | none =>
    rw [first_alt_right]
    · rfl
    · apply run_seq_nil_left
      apply run_lit_ne
      rintro ⟨u, hu⟩
      exact ht rfl (by simp only [brack, List.nil_append] at hu; rw [← hu]; rfl)
  | some u =>
    obtain ⟨hne, hu⟩ := ho u rfl
    apply first_alt_left
    have e : brack a b (some u) ++ t = [a] ++ (u ++ ([b] ++ t)) := by simp [brack]
    rw [e]
    exact first_seq (first_lit _ _ _) (first_seq (first_group' (first_plus u ([b] ++ t) c hne hu (by simp [hb]))) (first_lit _ _ _))

/-- `(?:a[..]+)?` -/
def optMarked (a : Nat) (p : Nat → Bool) : Re := Re.opt (.seq (Re.lit [a]) (Re.plus p))

theorem mem_run_optMarked {a : Nat} {p : Nat → Bool} {s t : Str} {c c' : Caps} (h : (t, c') ∈ (optMarked a p).run s c) :
    ∃ o, s = marked a o ++ t ∧ (∀ u, o = some u → u ≠ [] ∧ ∀ x ∈ u, p x = true) ∧ c' = c := by
  unfold optMarked Re.opt at h
  rw [run, List.mem_append] at h
  rcases h with h | h
  · obtain ⟨s1, c1, h1, h2⟩ := mem_run_seq h
    obtain ⟨rfl, rfl⟩ := mem_run_lit1 h1
    obtain ⟨u, rfl, hne, hu, rfl⟩ := mem_run_plus h2
    exact ⟨some u, by simp [marked], by rintro _ ⟨⟩; exact ⟨hne, hu⟩, rfl⟩
  · simp only [run_eps, List.mem_singleton, Prod.mk.injEq] at h
    obtain ⟨rfl, rfl⟩ := h
    exact ⟨none, rfl, by simp, rfl⟩

theorem first_optMarked {a : Nat} {p : Nat → Bool} (o : Option Str) (t : Str) (c : Caps)
    (ho : ∀ u, o = some u → u ≠ [] ∧ ∀ x ∈ u, p x = true) (ht : o = none → t.head? ≠ some a)
    (ht2 : ∀ x, t.head? = some x → p x = false) :
    (optMarked a p).first (marked a o ++ t) c = some (t, c) := by
  unfold optMarked Re.opt
  cases o with
  | none =>
    rw [first_alt_right]
    · rfl
    · apply run_seq_nil_left
      apply run_lit_ne
      rintro ⟨u, hu⟩
      exact ht rfl (by simp only [marked, List.nil_append] at hu; rw [← hu]; rfl)
  | some u =>
    obtain ⟨hne, hu⟩ := ho u rfl
    apply first_alt_left
    have e : marked a (some u) ++ t = [a] ++ (u ++ t) := by simp [marked]
    rw [e]
    exact first_seq (first_lit _ _ _) (first_plus u t c hne hu ht2)

end Re

/-! ### `int` on digits -/

theorem isDigit_plain {c : Nat} (h : isDigit c = true) : isSpace c = false ∧ c ≠ 0x2b ∧ c ≠ 0x2d ∧ c ≠ 0x5f ∧
    ∃ d, digitVal 10 c = some d := by
  unfold isDigit at h
  rw [Option.isSome_iff_exists] at h
  obtain ⟨d, hd⟩ := h
  have hd' := hd
  unfold decVal at hd
  rw [Option.map_eq_some_iff] at hd
  obtain ⟨z, hz, rfl⟩ := hd
  have hmem := List.mem_of_find?_eq_some hz
  have hr := List.find?_some hz
  simp only [Bool.and_eq_true, decide_eq_true_eq] at hr
  have key : ∀ z ∈ digitZeros, ∀ k < 10, isSpace (z + k) = false ∧ z + k ≠ 0x2b ∧ z + k ≠ 0x2d ∧ z + k ≠ 0x5f := by decide +kernel
  have := key z hmem (c - z) (by omega)
  rw [show z + (c - z) = c by omega] at this
  exact ⟨this.1, this.2.1, this.2.2.1, this.2.2.2, c - z, by
    unfold digitVal; rw [hd']; simp only; rw [if_pos (by omega)]⟩

theorem digitsVal_isDigit (s : Str) : ∀ (acc : Nat) (pd : Bool), (∀ c ∈ s, isDigit c = true) → (s ≠ [] ∨ pd = true) →
    ∃ n, digitsVal 10 acc pd s = some n := by
  induction s with
  | nil =>
    intro acc pd _ h
    rcases h with h | h
    · exact absurd rfl h
    · exact ⟨acc, by simp [digitsVal, h]⟩
  | cons c s ih =>
    intro acc pd h _
    obtain ⟨_, _, _, h5, d, hd⟩ := isDigit_plain (h c (by simp))
    rw [digitsVal, if_neg h5, hd]
    exact ih _ _ (fun x hx => h x (by simp [hx])) (Or.inr rfl)

/-- `int` accepts every non-empty string of `\d` characters; the value is not negative. -/
theorem pyInt_isDigit {s : Str} (hne : s ≠ []) (h : ∀ c ∈ s, isDigit c = true) : ∃ n : Nat, pyInt 10 s = .ok (n : Int) := by
  have hs : strip s = s := strip_of_no_space (fun c hc => (isDigit_plain (h c hc)).1)
  obtain ⟨n, hn⟩ := digitsVal_isDigit s 0 false h (Or.inl hne)
  have hu : unsignedVal 10 s = some n := by
    have : unsignedVal 10 s = digitsVal 10 0 false s := by unfold unsignedVal; rfl
    rw [this, hn]
  refine ⟨n, ?_⟩
  unfold pyInt
  rw [hs]
  cases s with
  | nil => exact absurd rfl hne
  | cons x t =>
    obtain ⟨_, h1, h2, _⟩ := isDigit_plain (h x (by simp))
    simp only
    split
    · rename_i i hi
      revert hi
      split
      · rename_i heq; cases heq; exact absurd rfl h1
      · rename_i heq; cases heq; exact absurd rfl h2
      · rw [hu]; intro hi; cases hi; rfl
    · rename_i hi
      revert hi
      split
      · rename_i heq; cases heq; exact absurd rfl h1
      · rename_i heq; cases heq; exact absurd rfl h2
      · rw [hu]; intro hi; cases hi

theorem isDigit_ascii {c : Nat} (h : AsciiDigit c) : isDigit c = true := by
  unfold AsciiDigit at h
  have := decVal_ascii (c - 0x30) (by omega)
  rw [show 0x30 + (c - 0x30) = c by omega] at this
  simp [isDigit, this]

theorem showNat02_digits (n : Nat) : ∀ c ∈ showNat02 n, AsciiDigit c := by
  unfold showNat02
  split
  · intro c hc
    rcases List.mem_cons.1 hc with rfl | hc
    · exact ⟨by decide, by decide⟩
    · exact showNat_digits n c hc
  · exact showNat_digits n

theorem showNat02_ne_nil (n : Nat) : showNat02 n ≠ [] := by
  unfold showNat02
  split
  · simp
  · exact showNat_ne_nil n

theorem pyInt_showNat02 (n : Nat) : pyInt 10 (showNat02 n) = .ok (n : Int) := by
  have h := pyInt_showNat n
  rw [pyInt_of_digits (showNat_ne_nil n) (showNat_digits n)] at h
  rw [pyInt_of_digits (showNat02_ne_nil n) (showNat02_digits n)]
  unfold showNat02
  split
  · rw [List.foldl_cons]; exact h
  · exact h

end Py
