import Verif.Lemmas.PatternTexts
/-!
# Reading patterns that are built from plain words

`re.compile` of texts such as `(a|bc|d)([0-5]?)` for all words without characters that are special in patterns.
-/

namespace Cjk
open Py

/-- The characters that mean something else in a pattern. -/
def isSpecial (c : Nat) : Bool := u!".^$*+?{\\[(|)".contains c

/-- A word without special characters. -/
def PlainWord (w : Str) : Prop := ∀ c ∈ w, isSpecial c = false

theorem isSpecial_false {c : Nat} (h : isSpecial c = false) :
    c ≠ 0x2e ∧ c ≠ 0x5e ∧ c ≠ 0x24 ∧ c ≠ 0x2a ∧ c ≠ 0x2b ∧ c ≠ 0x3f ∧ c ≠ 0x7b ∧ c ≠ 0x5c ∧ c ≠ 0x5b ∧ c ≠ 0x28 ∧ c ≠ 0x7c ∧ c ≠ 0x29 := by
  simp only [isSpecial, List.contains_eq_mem, List.mem_cons, List.not_mem_nil, or_false, decide_eq_false_iff_not, not_or] at h
  exact h

/-- The tree of a word. -/
def litPat : Str → Pat
  | [] => .eps
  | c :: w => .cat (.chr (.lit c)) (litPat w)

/-- The tree of `a|b|c`. -/
def altPat : List Str → Pat
  | [] => .eps
  | [w] => litPat w
  | w :: ws => .alt (litPat w) (altPat ws)

/-- A text at which a sequence ends. -/
def Stops (r : Str) : Prop := r = [] ∨ r.head? = some 0x7c ∨ r.head? = some 0x29

/-- No quantifier comes next. -/
def NoQuant (r : Str) : Prop := ∀ c, r.head? = some c → c ≠ 0x2a ∧ c ≠ 0x2b ∧ c ≠ 0x3f

theorem Stops.noQuant {r : Str} (h : Stops r) : NoQuant r := by
  intro c hc
  rcases h with rfl | h | h
  · simp at hc
  · rw [h] at hc; cases hc; decide
  · rw [h] at hc; cases hc; decide

theorem applyQuant_none (a : Pat) {r : Str} (h : NoQuant r) : applyQuant a r = some (a, r) := by
  unfold applyQuant
  cases r with
  | nil => rfl
  | cons c r =>
    obtain ⟨h1, h2, h3⟩ := h c rfl
    simp only [parseQuant, h1, h2, h3, or_self, if_false]

theorem parseMore_none (sq : PState → Option (Pat × PState)) (a b : Pat) (r : Str) (g : Nat) (nn : Dict Str Nat) (st2 : PState)
    (h : NoQuant r) (hs : sq ⟨r, g, nn⟩ = some (b, st2)) : parseMore sq a ⟨r, g, nn⟩ = some (.cat a b, st2) := by
  simp only [parseMore, applyQuant_none a h, hs]

theorem parse_stop (n : Nat) (r : Str) (g : Nat) (nn : Dict Str Nat) (h : Stops r) :
    parsePat (n + 1) .seq ⟨r, g, nn⟩ = some (.eps, ⟨r, g, nn⟩) := by
  cases r with
  | nil => rfl
  | cons c r =>
    have hc : c = 0x7c ∨ c = 0x29 := by simpa [Stops] using h
    simp only [parsePat, if_pos hc]

theorem parse_word (w : Str) (hw : PlainWord w) (n : Nat) (hn : w.length < n) (r : Str) (g : Nat) (nn : Dict Str Nat)
    (hr : Stops r) : parsePat n .seq ⟨w ++ r, g, nn⟩ = some (litPat w, ⟨r, g, nn⟩) := by
  induction w generalizing n with
  | nil =>
    obtain ⟨m, rfl⟩ : ∃ m, n = m + 1 := ⟨n - 1, by simp at hn; omega⟩
    exact parse_stop m r g nn hr
  | cons c w ih =>
    obtain ⟨m, rfl⟩ : ∃ m, n = m + 1 := ⟨n - 1, by simp at hn; omega⟩
    obtain ⟨h1, h2, h3, h4, h5, h6, h7, h8, h9, h10, h11, h12⟩ := isSpecial_false (hw c (by simp))
    have hw' : PlainWord w := fun x hx => hw x (by simp [hx])
    simp only [List.cons_append, parsePat, h1, h2, h3, h4, h5, h6, h7, h8, h9, h10, h11, h12, or_self, if_false, litPat]
    refine parseMore_none _ _ _ _ _ _ _ ?_ (ih hw' m (by simp at hn; omega))
    intro d hd
    cases w with
    | nil => exact hr.noQuant d hd
    | cons x w =>
      simp only [List.cons_append, List.head?_cons, Option.some.injEq] at hd
      subst hd
      obtain ⟨_, _, _, h4, h5, h6, _⟩ := isSpecial_false (hw' x (by simp))
      exact ⟨h4, h5, h6⟩

theorem parse_words (ws : List Str) (hw : ∀ w ∈ ws, PlainWord w) (n : Nat) (hn : (join [0x7c] ws).length + 2 ≤ n) (r : Str)
    (g : Nat) (nn : Dict Str Nat) (hr : r = [] ∨ r.head? = some 0x29) :
    parsePat n .alts ⟨join [0x7c] ws ++ r, g, nn⟩ = some (altPat ws, ⟨r, g, nn⟩) := by
  have hstop : Stops r := hr.elim Or.inl (fun h => Or.inr (Or.inr h))
  have hno : ∀ r', r ≠ 0x7c :: r' := by
    intro r' h
    rcases hr with h' | h' <;> simp [h] at h'
  induction ws generalizing n with
  | nil =>
    obtain ⟨m, rfl⟩ : ∃ m, n = m + 2 := ⟨n - 2, by simp [join] at hn; omega⟩
    simp only [join, List.nil_append, altPat]
    rw [parsePat, parse_stop m r g nn hstop]
    simp only
  | cons w ws ih =>
    cases ws with
    | nil =>
      obtain ⟨m, rfl⟩ : ∃ m, n = m + 1 := ⟨n - 1, by simp [join] at hn; omega⟩
      simp only [join, altPat] at hn ⊢
      rw [parsePat, parse_word w (hw w (by simp)) m (by omega) r g nn hstop]
      simp only
    | cons w2 ws =>
      obtain ⟨m, rfl⟩ : ∃ m, n = m + 1 := ⟨n - 1, by simp [join] at hn; omega⟩
      have hj : join [0x7c] (w :: w2 :: ws) = w ++ ([0x7c] ++ join [0x7c] (w2 :: ws)) := by simp [join]
      rw [hj] at hn ⊢
      simp only [List.length_append, List.length_cons, List.length_nil] at hn
      have h1 := parse_word w (hw w (by simp)) m (by omega) (0x7c :: (join [0x7c] (w2 :: ws) ++ r)) g nn (Or.inr (Or.inl rfl))
      have h2 := ih (fun x hx => hw x (by simp [hx])) m (by omega)
      have e : w ++ ([0x7c] ++ join [0x7c] (w2 :: ws)) ++ r = w ++ 0x7c :: (join [0x7c] (w2 :: ws) ++ r) := by simp
      rw [e, parsePat, h1]
      simp only [h2, altPat]

/-- A plain group: what is inside, then what follows. -/
theorem parse_paren (n : Nat) (r r2 : Str) (g g2 : Nat) (nn nn2 : Dict Str Nat) (a : Pat) (hr : r.head? ≠ some 0x3f)
    (h1 : parsePat n .alts ⟨r, g + 1, nn⟩ = some (a, ⟨0x29 :: r2, g2, nn2⟩)) :
    parsePat (n + 1) .seq ⟨0x28 :: r, g, nn⟩ = parseMore (parsePat n .seq) (.group g a) ⟨r2, g2, nn2⟩ := by
  have e : parsePat (n + 1) .seq ⟨0x28 :: r, g, nn⟩ = parseParen (parsePat n .alts) (parsePat n .seq) r g nn := rfl
  rw [e]
  unfold parseParen
  split
  · simp at hr
  · simp at hr
  · simp at hr
  · simp at hr
  · simp only [parseGroup, h1]

theorem joined_head (ws : List Str) (hw : ∀ w ∈ ws, PlainWord w) (r : Str) : (join [0x7c] ws ++ 0x29 :: r).head? ≠ some 0x3f := by
  cases ws with
  | nil => simp [join]
  | cons w ws =>
    cases w with
    | nil => cases ws <;> simp [join]
    | cons c w =>
      have := (isSpecial_false (hw (c :: w) (by simp) c (by simp))).2.2.2.2.2.1
      cases ws <;> simp [join, this]

/-- `(a|b|c)` in front of `r`, read with enough steps. -/
theorem parse_word_group (ws : List Str) (hw : ∀ w ∈ ws, PlainWord w) (n : Nat) (hn : (join [0x7c] ws).length + 2 ≤ n) (r : Str)
    (g : Nat) (nn : Dict Str Nat) :
    parsePat (n + 1) .seq ⟨0x28 :: (join [0x7c] ws ++ 0x29 :: r), g, nn⟩ =
      parseMore (parsePat n .seq) (.group g (altPat ws)) ⟨r, g + 1, nn⟩ :=
  parse_paren n _ r g (g + 1) nn nn (altPat ws) (joined_head ws hw r)
    (parse_words ws hw n hn (0x29 :: r) (g + 1) nn (Or.inr rfl))

/-- The tree of `([0-5]?)` with group number `g`. -/
def tonePat (g : Nat) : Pat := .group g (.cat (.opt true (.chr ⟨false, [.range 0x30 0x35]⟩)) .eps)

theorem parse_tone (n : Nat) (r : Str) (g : Nat) (nn : Dict Str Nat) (hr : Stops r) :
    parsePat (n + 4) .seq ⟨u!"([0-5]?)" ++ r, g, nn⟩ = some (.cat (tonePat g) .eps, ⟨r, g + 1, nn⟩) := by
  have h1 : parsePat (n + 3) .alts ⟨u!"[0-5]?)" ++ r, g + 1, nn⟩ =
      some (.cat (.opt true (.chr ⟨false, [.range 0x30 0x35]⟩)) .eps, ⟨0x29 :: r, g + 1, nn⟩) := rfl
  have h2 := parse_paren (n + 3) (u!"[0-5]?)" ++ r) r g (g + 1) nn nn _ (by simp) h1
  have e : (⟨u!"([0-5]?)" ++ r, g, nn⟩ : PState) = ⟨0x28 :: (u!"[0-5]?)" ++ r), g, nn⟩ := rfl
  rw [e, h2]
  exact parseMore_none _ _ _ _ _ _ _ hr.noQuant (parse_stop (n + 2) r (g + 1) nn hr)

/-- `(a|b|c)([0-5]?)` in front of `r`. -/
theorem parse_syllable (ws : List Str) (hw : ∀ w ∈ ws, PlainWord w) (n : Nat) (hn : (join [0x7c] ws).length + 4 ≤ n) (r : Str)
    (g : Nat) (nn : Dict Str Nat) (hr : Stops r) :
    parsePat (n + 1) .seq ⟨0x28 :: (join [0x7c] ws ++ 0x29 :: (u!"([0-5]?)" ++ r)), g, nn⟩ =
      some (.cat (.group g (altPat ws)) (.cat (tonePat (g + 1)) .eps), ⟨r, g + 2, nn⟩) := by
  rw [parse_word_group ws hw n (by omega)]
  obtain ⟨m, rfl⟩ : ∃ m, n = m + 4 := ⟨n - 4, by omega⟩
  refine parseMore_none _ _ _ _ _ _ _ ?_ (parse_tone m r (g + 1) nn hr)
  intro c hc
  simp only [List.cons_append, List.head?_cons, Option.some.injEq] at hc
  subst hc; decide

/-- `pinyin_regex_pattern()` compiled. -/
theorem compile_pinyin (ws : List Str) (hw : ∀ w ∈ ws, PlainWord w) :
    compile (u!"(" ++ join u!"|" ws ++ u!")([0-5]?)") =
      some ⟨.cat (.group 1 (altPat ws)) (.cat (tonePat 2) .eps), []⟩ := by
  have e : u!"(" ++ join u!"|" ws ++ u!")([0-5]?)" = 0x28 :: (join [0x7c] ws ++ 0x29 :: (u!"([0-5]?)" ++ [])) := by simp
  unfold compile
  rw [e]
  generalize hN : 2 * (0x28 :: (join [0x7c] ws ++ 0x29 :: (u!"([0-5]?)" ++ []))).length = N
  simp only [List.length_cons, List.length_append, List.length_nil] at hN
  rw [parsePat, parse_syllable ws hw N (by omega) [] 1 [] (Or.inl rfl)]
  rfl

/-- The tree of `((a|b|c)([0-5]?)|#)` with group numbers from `g`. -/
def basePat (g : Nat) (ws : List Str) : Pat :=
  .group g (.alt (.cat (.group (g + 1) (altPat ws)) (.cat (tonePat (g + 2)) .eps)) (.cat (.chr (.lit 0x23)) .eps))

theorem parse_base (ws : List Str) (hw : ∀ w ∈ ws, PlainWord w) (n : Nat) (hn : (join [0x7c] ws).length + 6 ≤ n) (r : Str)
    (g : Nat) (nn : Dict Str Nat) :
    parsePat (n + 1) .seq ⟨basePattern (u!"(" ++ join u!"|" ws ++ u!")([0-5]?)") ++ r, g, nn⟩ =
      parseMore (parsePat n .seq) (basePat g ws) ⟨r, g + 3, nn⟩ := by
  have e : basePattern (u!"(" ++ join u!"|" ws ++ u!")([0-5]?)") ++ r =
      0x28 :: (0x28 :: (join [0x7c] ws ++ 0x29 :: (u!"([0-5]?)" ++ (u!"|#)" ++ r)))) := by simp [basePattern]
  rw [e]
  obtain ⟨m, rfl⟩ : ∃ m, n = m + 6 := ⟨n - 6, by omega⟩
  refine parse_paren (m + 6) _ r g (g + 3) nn nn _ (by simp) ?_
  have h1 := parse_syllable ws hw (m + 4) (by omega) (u!"|#)" ++ r) (g + 1) nn (Or.inr (Or.inl rfl))
  rw [parsePat, h1]
  rfl

/-- `single_pattern` compiled. -/
theorem compile_single (ws : List Str) (hw : ∀ w ∈ ws, PlainWord w) :
    compile (basePattern (u!"(" ++ join u!"|" ws ++ u!")([0-5]?)")) = some ⟨.cat (basePat 1 ws) .eps, []⟩ := by
  unfold compile
  generalize hN : 2 * (basePattern (u!"(" ++ join u!"|" ws ++ u!")([0-5]?)")).length = N
  simp only [basePattern, List.length_append, List.length_cons, List.length_nil] at hN
  have h := parse_base ws hw N (by omega) [] 1 []
  rw [List.append_nil] at h
  obtain ⟨m, rfl⟩ : ∃ m, N = m + 1 := ⟨N - 1, by omega⟩
  rw [parsePat, h, parseMore_none _ _ .eps _ _ _ ⟨[], 4, []⟩ (by intro c hc; simp at hc) rfl]
  rfl

theorem nullable_litPat (w : Str) : (litPat w).nullable = w.isEmpty := by
  cases w <;> simp [litPat, Pat.nullable]

theorem nullable_altPat (ws : List Str) (hne : ws ≠ []) (hw : [] ∉ ws) : (altPat ws).nullable = false := by
  induction ws with
  | nil => exact absurd rfl hne
  | cons w ws ih =>
    have h1 : (litPat w).nullable = false := by
      rw [nullable_litPat]
      cases w with
      | nil => simp at hw
      | cons c w => rfl
    cases ws with
    | nil => exact h1
    | cons w2 ws =>
      simp only [altPat, Pat.nullable, h1, Bool.false_or]
      exact ih (by simp) (by simp only [List.mem_cons, not_or] at hw ⊢; exact hw.2)

/-- `string_pattern` compiled. -/
theorem compile_string (ws : List Str) (hw : ∀ w ∈ ws, PlainWord w) (hne : ws ≠ []) (hnil : [] ∉ ws) :
    compile (stringPattern (u!"(" ++ join u!"|" ws ++ u!")([0-5]?)")) =
      some ⟨.cat (.plus true (.group 1 (.cat (basePat 2 ws) .eps))) .eps, []⟩ := by
  unfold compile
  have e : stringPattern (u!"(" ++ join u!"|" ws ++ u!")([0-5]?)") =
      0x28 :: (basePattern (u!"(" ++ join u!"|" ws ++ u!")([0-5]?)") ++ u!")+") := by simp [stringPattern]
  rw [e]
  generalize hN : 2 * (0x28 :: (basePattern (u!"(" ++ join u!"|" ws ++ u!")([0-5]?)") ++ u!")+")).length = N
  simp only [basePattern, List.length_append, List.length_cons, List.length_nil] at hN
  obtain ⟨m, rfl⟩ : ∃ m, N = m + 3 := ⟨N - 3, by omega⟩
  have h1 : parsePat (m + 3) .alts ⟨basePattern (u!"(" ++ join u!"|" ws ++ u!")([0-5]?)") ++ u!")+", 1 + 1, []⟩ =
      some (.cat (basePat 2 ws) .eps, ⟨0x29 :: u!"+", 5, []⟩) := by
    rw [parsePat, parse_base ws hw (m + 1) (by omega) u!")+" 2 [],
      parseMore_none _ _ .eps _ _ _ ⟨0x29 :: u!"+", 5, []⟩
        (by intro c hc; simp only [List.head?_cons, Option.some.injEq] at hc; subst hc; decide) rfl]
    rfl
  have hb : (Pat.group 1 (.cat (basePat 2 ws) .eps)).nullable = false := by
    simp only [Pat.nullable, basePat, nullable_altPat ws hne hnil, Bool.false_and, Bool.and_true, Bool.false_or]
  rw [parsePat, parse_paren (m + 3) _ u!"+" 1 5 [] [] _ (by simp [basePattern]) h1]
  have hq : parseMore (parsePat (m + 3) .seq) (.group 1 (.cat (basePat 2 ws) .eps)) ⟨u!"+", 5, []⟩ =
      some (.cat (.plus true (.group 1 (.cat (basePat 2 ws) .eps))) .eps, ⟨[], 5, []⟩) := by
    have ha : applyQuant (.group 1 (.cat (basePat 2 ws) .eps)) u!"+" = some (.plus true (.group 1 (.cat (basePat 2 ws) .eps)), []) := by
      simp only [applyQuant, parseQuant]
      simp [Pat.isAt, quantNext, hb]
    simp only [parseMore, ha]
    rfl
  rw [hq]
  rfl

/-- `zhuyin_regex_pattern()` compiled. -/
theorem compile_zhuyin (ws : List Str) (hw : ∀ w ∈ ws, PlainWord w) :
    compile (u!"(" ++ join u!"|" ws ++ u!")[0-4]?") =
      some ⟨.cat (.group 1 (altPat ws)) (.cat (.opt true (.chr ⟨false, [.range 0x30 0x34]⟩)) .eps), []⟩ := by
  have e : u!"(" ++ join u!"|" ws ++ u!")[0-4]?" = 0x28 :: (join [0x7c] ws ++ 0x29 :: u!"[0-4]?") := by simp
  unfold compile
  rw [e]
  generalize hN : 2 * (0x28 :: (join [0x7c] ws ++ 0x29 :: u!"[0-4]?")).length = N
  simp only [List.length_cons, List.length_append, List.length_nil] at hN
  rw [parsePat, parse_word_group ws hw N (by omega)]
  obtain ⟨m, rfl⟩ : ∃ m, N = m + 2 := ⟨N - 2, by omega⟩
  rw [parseMore_none _ _ (.cat (.opt true (.chr ⟨false, [.range 0x30 0x34]⟩)) .eps) _ _ _ ⟨[], 2, []⟩
    (by intro c hc; simp only [List.head?_cons, Option.some.injEq] at hc; subst hc; decide) rfl]
  rfl

/-! ### Their expressions -/

theorem has_lit (c : Nat) : Cls.has (.lit c) = fun x => x == c := has_one c

theorem has_tone : Cls.has ⟨false, [.range 0x30 0x35]⟩ = isToneDigit := by
  funext x
  simp only [Cls.has, ClsItem.has, isToneDigit, List.any_cons, List.any_nil, Bool.or_false, Bool.bne_false]

theorem litPat_toRe (nm : Nat → Option Str) (w : Str) : (litPat w).toRe nm = some (Re.lit w) := by
  induction w with
  | nil => rfl
  | cons c w ih => simp only [litPat, Pat.toRe, ih, Re.lit, has_lit]

theorem altPat_toRe (nm : Nat → Option Str) (ws : List Str) : (altPat ws).toRe nm = some (litAlts ws) := by
  induction ws with
  | nil => rfl
  | cons w ws ih =>
    cases ws with
    | nil => exact litPat_toRe nm w
    | cons w2 ws => simp only [altPat, Pat.toRe, litPat_toRe, ih, litAlts]

/-- The names of the groups of `single_pattern`. -/
def baseNm : List (Nat × Str) := [(1, u!"block"), (2, u!"pinyin"), (3, u!"tone")]

theorem single_toRe (ws : List Str) : ∃ r, (Pat.cat (basePat 1 ws) .eps).toRe (nmOf baseNm) = some r ∧ Re.Same r (pinyinRe ws) := by
  have h1 : nmOf baseNm 1 = some u!"block" := rfl
  have h2 : nmOf baseNm (1 + 1) = some u!"pinyin" := rfl
  have h3 : nmOf baseNm (1 + 2) = some u!"tone" := rfl
  refine ⟨.seq (.group u!"block" (.alt (.seq (.group u!"pinyin" (litAlts ws))
    (.seq (.group u!"tone" (.seq (.alt (.chr isToneDigit) .eps) .eps)) .eps)) (.seq (.chr (fun x => x == 0x23)) .eps))) .eps,
    ?_, Re.same_of_norm ?_⟩
  · simp only [basePat, tonePat, Pat.toRe, altPat_toRe, h1, h2, h3, has_tone, has_lit, Option.map_some]
  · simp only [Re.norm, pinyinRe, Re.lit, Re.opt]

end Cjk
