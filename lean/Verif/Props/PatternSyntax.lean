import Verif.Spec.PatternSyntax
import Verif.Lemmas.PatternPlain
/-!
# C99: pattern texts are read according to the grammar
-/

namespace Cjk
open Py Spec

theorem isAlnumA_iff (c : Nat) : isAlnumA c = true ↔ AsciiAlnum c := by
  unfold isAlnumA AsciiAlnum
  simp only [Bool.or_eq_true, Bool.and_eq_true, decide_eq_true_eq, or_assoc]

theorem hexVal_iff (c v : Nat) : hexVal c = some v ↔ HexDigit c v := by
  have hx : ∀ v, 16 ≤ v → ¬ HexDigit c v := by
    intro v hv h
    rcases h with h | h <;>
    · rw [List.getElem?_eq_none (by simpa using hv)] at h
      cases h
  have hall : ∀ v, v < 16 → ((u!"0123456789abcdef")[v]? = some c ∨ (u!"0123456789ABCDEF")[v]? = some c) → hexVal c = some v := by
    intro v hv
    have key : ∀ v, v < 16 → (∀ c, (u!"0123456789abcdef")[v]? = some c → hexVal c = some v) ∧
        (∀ c, (u!"0123456789ABCDEF")[v]? = some c → hexVal c = some v) := by
      intro v hv
      have : v = 0 ∨ v = 1 ∨ v = 2 ∨ v = 3 ∨ v = 4 ∨ v = 5 ∨ v = 6 ∨ v = 7 ∨ v = 8 ∨ v = 9 ∨ v = 10 ∨ v = 11 ∨ v = 12 ∨ v = 13 ∨
          v = 14 ∨ v = 15 := by omega
      rcases this with rfl | rfl | rfl | rfl | rfl | rfl | rfl | rfl | rfl | rfl | rfl | rfl | rfl | rfl | rfl | rfl <;>
      · constructor <;>
        · intro c h
          simp only [List.getElem?_cons_zero, List.getElem?_cons_succ, Option.some.injEq] at h
          subst h
          rfl
    rintro (h | h)
    · exact (key v hv).1 c h
    · exact (key v hv).2 c h
  constructor
  · intro h
    unfold hexVal at h
    have hr : (0x30 ≤ c ∧ c ≤ 0x39) ∨ (0x41 ≤ c ∧ c ≤ 0x46) ∨ (0x61 ≤ c ∧ c ≤ 0x66) := by
      by_cases h1 : 0x30 ≤ c ∧ c ≤ 0x39
      · exact Or.inl h1
      · by_cases h2 : 0x41 ≤ c ∧ c ≤ 0x46
        · exact Or.inr (Or.inl h2)
        · by_cases h3 : 0x61 ≤ c ∧ c ≤ 0x66
          · exact Or.inr (Or.inr h3)
          · rw [if_neg h1, if_neg h2, if_neg h3] at h; cases h
    have hc : c ∈ u!"0123456789ABCDEFabcdef" := by
      simp only [List.mem_cons, List.not_mem_nil, or_false]
      omega
    have key : ∀ c ∈ u!"0123456789ABCDEFabcdef", ∀ v, hexVal c = some v → HexDigit c v := by
      have : ∀ c ∈ u!"0123456789ABCDEFabcdef", (u!"0123456789abcdef")[(hexVal c).getD 0]? = some c ∨
        (u!"0123456789ABCDEF")[(hexVal c).getD 0]? = some c := by decide +kernel
      intro c hc v hv
      have := this c hc
      rw [hv] at this
      exact this
    exact key c hc v h
  · intro h
    by_cases hv : v < 16
    · exact hall v hv h
    · exact absurd h (hx v (by omega))

theorem parseEscape_iff (s r : Str) (i : ClsItem) : parseEscape s = some (i, r) ↔ ∃ t, s = t ++ r ∧ EscText t i := by
  constructor
  · intro h
    cases s with
    | nil => cases h
    | cons c s =>
      rw [parseEscape.eq_def] at h
      simp only at h
      split at h
      · rename_i hc; cases h; exact ⟨[c], rfl, by rw [hc]; exact .digit⟩
      split at h
      · rename_i hc; cases h; exact ⟨[c], rfl, by rw [hc]; exact .tab⟩
      split at h
      · rename_i hc; cases h; exact ⟨[c], rfl, by rw [hc]; exact .newline⟩
      split at h
      · rename_i hc
        split at h
        · rename_i h1 h2 h3 h4 r'
          split at h
          · rename_i x y z w e1 e2 e3 e4
            cases h
            refine ⟨[c, h1, h2, h3, h4], rfl, ?_⟩
            rw [hc]
            have : ((x * 16 + y) * 16 + z) * 16 + w = x * 4096 + y * 256 + z * 16 + w := by omega
            rw [this]
            exact .hex ((hexVal_iff _ _).1 e1) ((hexVal_iff _ _).1 e2) ((hexVal_iff _ _).1 e3) ((hexVal_iff _ _).1 e4)
          · cases h
        · cases h
      split at h
      · cases h
      · rename_i hc
        cases h
        exact ⟨[c], rfl, .itself (fun h => hc ((isAlnumA_iff c).2 h))⟩
  · rintro ⟨t, rfl, h⟩
    cases h with
    | digit => rfl
    | tab => rfl
    | newline => rfl
    | hex h1 h2 h3 h4 =>
      rename_i a b c d x y z w
      have e : ((x * 16 + y) * 16 + z) * 16 + w = x * 4096 + y * 256 + z * 16 + w := by omega
      rw [← hexVal_iff] at h1 h2 h3 h4
      rw [← e]
      simp [parseEscape, h1, h2, h3, h4]
    | itself h =>
      rename_i c
      have h0 : isAlnumA c = false := by
        cases hb : isAlnumA c with
        | false => rfl
        | true => exact absurd ((isAlnumA_iff c).1 hb) h
      have hd : c ≠ c!"d" := by rintro rfl; exact absurd h0 (by decide)
      have ht : c ≠ c!"t" := by rintro rfl; exact absurd h0 (by decide)
      have hn : c ≠ c!"n" := by rintro rfl; exact absurd h0 (by decide)
      have hu : c ≠ c!"u" := by rintro rfl; exact absurd h0 (by decide)
      show parseEscape (c :: r) = _
      rw [parseEscape.eq_def]
      simp only
      rw [if_neg hd, if_neg ht, if_neg hn, if_neg hu, h0]
      rfl

theorem EscText.ne_nil {t : Str} {i : ClsItem} (h : EscText t i) : t ≠ [] := by
  cases h <;> simp

theorem ClsChar.ne_nil {f : Bool} {t : Str} {i : ClsItem} (h : ClsChar f t i) : t ≠ [] := by
  cases h <;> simp

theorem ClsText.ne_nil {f : Bool} {t : Str} {is : List ClsItem} (h : ClsText f t is) : t ≠ [] := by
  cases h with
  | close => simp
  | one h _ _ => simp [ClsChar.ne_nil h]
  | hyphen h => simp
  | range h _ _ _ => simp

theorem parseClsChar_of {f : Bool} {t : Str} {i : ClsItem} (h : ClsChar f t i) (r : Str) :
    parseClsChar (t ++ r) = some (i, r) ∧ (f = false → (t ++ r).head? ≠ some c!"]") := by
  cases h with
  | plain h1 h2 =>
    rename_i c
    refine ⟨by simp [parseClsChar, h1], fun hf hc => ?_⟩
    simp only [List.cons_append, List.nil_append, List.head?_cons, Option.some.injEq] at hc
    rw [hf] at h2
    exact absurd (h2 hc) (by decide)
  | escape h =>
    rename_i t
    refine ⟨?_, by simp⟩
    have := (parseEscape_iff (t ++ r) r i).2 ⟨t, rfl, h⟩
    simpa [parseClsChar] using this

theorem parseClsChar_sound {f : Bool} {s r : Str} {i : ClsItem} (h : parseClsChar s = some (i, r)) (hf : s.head? = some c!"]" → f = true) :
    ∃ t, s = t ++ r ∧ ClsChar f t i := by
  cases s with
  | nil => cases h
  | cons c s =>
    rw [parseClsChar] at h
    split at h
    · rename_i hc
      obtain ⟨t, rfl, ht⟩ := (parseEscape_iff _ _ _).1 h
      exact ⟨c :: t, rfl, by rw [hc]; exact .escape ht⟩
    · rename_i hc
      cases h
      exact ⟨[c], rfl, .plain hc (fun h => hf (by rw [h]; rfl))⟩

/-- What follows a character of a class. -/
def clsRest (n : Nat) (lo : ClsItem) (r1 : Str) : Option (List ClsItem × Str) :=
  match r1 with
  | 0x2d :: 0x5d :: r2 => some ([lo, .one 0x2d], r2)
  | 0x2d :: r2 =>
    match lo, parseClsChar r2 with
    | .one a, some (.one b, r3) =>
      if b < a then none
      else match parseClsItems n false r3 with
        | none => none
        | some (is, r4) => some (.range a b :: is, r4)
    | _, _ => none
  | _ =>
    match parseClsItems n false r1 with
    | none => none
    | some (is, r4) => some (lo :: is, r4)

/-- One step through a class. -/
theorem clsItems_step {n : Nat} {f : Bool} {s r1 : Str} {lo : ClsItem} (h : parseClsChar s = some (lo, r1))
    (hs : f = false → s.head? ≠ some c!"]") : parseClsItems (n + 1) f s = clsRest n lo r1 := by
  cases s with
  | nil => cases h
  | cons c s =>
    have hn : ¬ (c = c!"]" ∧ f = false) := fun hc => hs hc.2 (by rw [hc.1]; rfl)
    rw [parseClsItems]
    simp only [if_neg hn, h]
    rfl

theorem parseClsItems_of {f : Bool} {s : Str} {is : List ClsItem} (h : ClsText f s is) :
    ∀ n, s.length ≤ n → ∀ r, parseClsItems n f (s ++ r) = some (is, r) := by
  induction h with
  | close =>
    intro n hn r
    obtain ⟨m, rfl⟩ : ∃ m, n = m + 1 := ⟨n - 1, by simp at hn; omega⟩
    rfl
  | one hc hd hs ih =>
    rename_i f t i s is
    intro n hn r
    have hl : 0 < t.length := List.length_pos_iff.2 (ClsChar.ne_nil hc)
    obtain ⟨m, rfl⟩ : ∃ m, n = m + 1 := ⟨n - 1, by simp at hn; omega⟩
    rw [List.append_assoc]
    obtain ⟨h1, h2⟩ := parseClsChar_of hc (s ++ r)
    rw [clsItems_step h1 h2]
    unfold clsRest
    have := ih m (by simp at hn; omega) r
    have hsn := ClsText.ne_nil hs
    cases s with
    | nil => exact absurd rfl hsn
    | cons d s =>
      have hd' : d ≠ 0x2d := fun h => hd (by rw [h]; rfl)
      simp only [List.cons_append] at this ⊢
      split
      · rename_i heq; simp only [List.cons.injEq] at heq; exact absurd heq.1 hd'
      · rename_i heq; simp only [List.cons.injEq] at heq; exact absurd heq.1 hd'
      · rw [this]
  | hyphen hc =>
    rename_i f t i
    intro n hn r
    obtain ⟨m, rfl⟩ : ∃ m, n = m + 1 := ⟨n - 1, by simp at hn; omega⟩
    rw [List.append_assoc]
    obtain ⟨h1, h2⟩ := parseClsChar_of hc (u!"-]" ++ r)
    rw [clsItems_step h1 h2]
    unfold clsRest
    rfl
  | range hc hc' hab hs ih =>
    rename_i f t a t' b s is
    intro n hn r
    obtain ⟨m, rfl⟩ : ∃ m, n = m + 1 := ⟨n - 1, by simp at hn; omega⟩
    have e : t ++ u!"-" ++ t' ++ s ++ r = t ++ (0x2d :: (t' ++ (s ++ r))) := by simp
    rw [e]
    obtain ⟨h1, h2⟩ := parseClsChar_of hc (0x2d :: (t' ++ (s ++ r)))
    rw [clsItems_step h1 h2]
    unfold clsRest
    have := ih m (by simp at hn; omega) r
    obtain ⟨h3, h4⟩ := parseClsChar_of hc' (s ++ r)
    have h5 := h4 rfl
    have hne := ClsChar.ne_nil hc'
    cases t' with
    | nil => exact absurd rfl hne
    | cons d t' =>
      have hd : d ≠ 0x5d := fun h => h5 (by rw [h]; rfl)
      simp only [List.cons_append] at h3 ⊢
      split
      · rename_i heq; simp only [List.cons.injEq] at heq; exact absurd heq.2.1 hd
      · rename_i r2 _ heq
        simp only [List.cons.injEq, true_and] at heq
        subst heq
        simp only [h3, if_neg (Nat.not_lt.2 hab), this]
      · rename_i heq; exact absurd rfl (heq _)

theorem parseClsItems_sound {n : Nat} {f : Bool} {s r : Str} {is : List ClsItem} (h : parseClsItems n f s = some (is, r)) :
    ∃ t, s = t ++ r ∧ ClsText f t is := by
  induction n generalizing f s is with
  | zero => cases h
  | succ n ih =>
    cases s with
    | nil => cases h
    | cons c s =>
      by_cases hc : c = c!"]" ∧ f = false
      · rw [parseClsItems] at h
        simp only [if_pos hc] at h
        cases h
        obtain ⟨rfl, rfl⟩ := hc
        exact ⟨[0x5d], rfl, .close⟩
      · cases h1 : parseClsChar (c :: s) with
        | none =>
          rw [parseClsItems] at h
          simp only [if_neg hc, h1] at h
          cases h
        | some x =>
          obtain ⟨lo, r1⟩ := x
          rw [clsItems_step h1 (fun hf he => hc ⟨by simpa using he, hf⟩)] at h
          unfold clsRest at h
          obtain ⟨t, ht, hct⟩ := parseClsChar_sound (f := f) h1 (fun he => by
            cases f with
            | true => rfl
            | false => exact absurd ⟨by simpa using he, rfl⟩ hc)
          rw [ht]
          split at h
          · cases h
            exact ⟨t ++ u!"-]", by simp, .hyphen hct⟩
          · rename_i r2 hne
            split at h
            · rename_i a b r3 h3
              split at h
              · cases h
              · rename_i hab
                split at h
                · cases h
                · rename_i is' r4 h4
                  cases h
                  obtain ⟨u, rfl, hu⟩ := ih h4
                  have hbr : r2.head? ≠ some c!"]" := by
                    cases r2 with
                    | nil => simp
                    | cons d r2 =>
                      intro he
                      simp only [List.head?_cons, Option.some.injEq] at he
                      exact hne r2 (by rw [he])
                  obtain ⟨t', ht', hct'⟩ := parseClsChar_sound (f := false) h3 (fun he => absurd he hbr)
                  refine ⟨t ++ u!"-" ++ t' ++ u, ?_, .range hct hct' (by omega) hu⟩
                  rw [ht']
                  simp
            · cases h
          · rename_i hne1 hne2
            split at h
            · cases h
            · rename_i is' r4 h4
              cases h
              obtain ⟨u, rfl, hu⟩ := ih h4
              refine ⟨t ++ u, by simp, .one hct ?_ hu⟩
              intro he
              cases u with
              | nil => simp at he
              | cons d u =>
                simp only [List.head?_cons, Option.some.injEq] at he
                exact hne2 (u ++ r) (by rw [he]; rfl)

theorem parseCls_iff (s r : Str) (k : Cls) : parseCls s = some (k, r) ↔ ∃ t, s = t ++ r ∧ BracketText t k := by
  constructor
  · intro h
    unfold parseCls at h
    split at h
    · rename_i s'
      cases hp : parseClsItems (s'.length + 1) true s' with
      | none => rw [hp] at h; cases h
      | some x =>
        obtain ⟨is, r'⟩ := x
        rw [hp] at h
        cases h
        obtain ⟨t, rfl, ht⟩ := parseClsItems_sound hp
        exact ⟨u!"^" ++ t, by simp, .neg ht⟩
    · rename_i hne
      cases hp : parseClsItems (s.length + 1) true s with
      | none => rw [hp] at h; cases h
      | some x =>
        obtain ⟨is, r'⟩ := x
        rw [hp] at h
        cases h
        obtain ⟨t, rfl, ht⟩ := parseClsItems_sound hp
        refine ⟨t, rfl, .pos ht ?_⟩
        intro he
        cases t with
        | nil => simp at he
        | cons d t =>
          simp only [List.head?_cons, Option.some.injEq] at he
          exact hne _ (by rw [he]; rfl)
  · rintro ⟨t, rfl, h⟩
    cases h with
    | pos h hd =>
      have hp := parseClsItems_of h ((t ++ r).length + 1) (by simp; omega) r
      unfold parseCls
      split
      · rename_i s' heq
        have hn := ClsText.ne_nil h
        cases t with
        | nil => exact absurd rfl hn
        | cons d t =>
          simp only [List.cons_append, List.cons.injEq] at heq
          exact absurd (by rw [heq.1]; rfl) hd
      · rw [hp]; rfl
    | neg h =>
      rename_i s is
      have hp := parseClsItems_of h ((s ++ r).length + 1) (by simp; omega) r
      show (parseClsItems ((s ++ r).length + 1) true (s ++ r)).map _ = _
      rw [hp]
      rfl

/-! ### Sequences and alternatives -/

theorem QuantText.head {a a' : Pat} {q : Str} (h : QuantText a q a') : q = [] ∨ ∃ c, q.head? = some c ∧ c ≠ c!"," ∧ ¬ (c!"0" ≤ c ∧ c ≤ c!"9") := by
  cases h
  · exact Or.inl rfl
  all_goals exact Or.inr ⟨_, rfl, by decide, by decide⟩

theorem applyQuant_of {a a' : Pat} {q : Str} (h : QuantText a q a') {r : Str} (hr : NoQuant r) : applyQuant a (q ++ r) = some (a', r) := by
  have hq : quantNext r = false := by
    cases r with
    | nil => rfl
    | cons c r =>
      obtain ⟨h1, h2, h3⟩ := hr c rfl
      simp [quantNext, h1, h2, h3]
  have hl : ∀ r', r ≠ 0x3f :: r' := by
    intro r' he
    exact (hr 0x3f (by rw [he]; rfl)).2.2 rfl
  have hg : ∀ c, c = c!"*" ∨ c = c!"+" ∨ c = c!"?" → parseQuant (c :: r) = (some (c, true), r) := by
    intro c hc
    rw [parseQuant.eq_def]
    simp only [if_pos hc]
  have hz : ∀ c, c = c!"*" ∨ c = c!"+" ∨ c = c!"?" → parseQuant (c :: 0x3f :: r) = (some (c, false), r) := by
    intro c hc
    rw [parseQuant.eq_def]
    simp only [if_pos hc]
  cases h with
  | none => exact applyQuant_none a hr
  | opt h1 =>
    simp only [applyQuant, List.cons_append, List.nil_append, hg _ (Or.inr (Or.inr rfl)), h1, hq, Bool.or_self, if_true, if_false, Bool.false_eq_true]
  | optLazy h1 =>
    simp only [applyQuant, List.cons_append, List.nil_append, hz _ (Or.inr (Or.inr rfl)), h1, hq, Bool.or_self, if_true, if_false, Bool.false_eq_true]
  | star h1 h2 =>
    simp only [applyQuant, List.cons_append, List.nil_append, hg _ (Or.inl rfl), h1, h2, hq, Bool.or_self, if_true, if_false, Bool.false_eq_true]
    rfl
  | starLazy h1 h2 =>
    simp only [applyQuant, List.cons_append, List.nil_append, hz _ (Or.inl rfl), h1, h2, hq, Bool.or_self, if_true, if_false, Bool.false_eq_true]
    rfl
  | plus h1 h2 =>
    simp only [applyQuant, List.cons_append, List.nil_append, hg _ (Or.inr (Or.inl rfl)), h1, h2, hq, Bool.or_self, if_false, Bool.false_eq_true]
    rfl
  | plusLazy h1 h2 =>
    simp only [applyQuant, List.cons_append, List.nil_append, hz _ (Or.inr (Or.inl rfl)), h1, h2, hq, Bool.or_self, if_false, Bool.false_eq_true]
    rfl

theorem applyQuant_sound {a a' : Pat} {s r : Str} (h : applyQuant a s = some (a', r)) : ∃ q, s = q ++ r ∧ QuantText a q a' := by
  unfold applyQuant at h
  cases s with
  | nil => cases h; exact ⟨[], rfl, .none⟩
  | cons c s =>
    rw [parseQuant.eq_def] at h
    simp only at h
    by_cases hc : c = c!"*" ∨ c = c!"+" ∨ c = c!"?"
    · rw [if_pos hc] at h
      have fin : ∀ (g : Bool) (r' : Str), (if (a.isAt || quantNext r') = true then none
          else if c = c!"?" then some (Pat.opt g a, r')
          else if a.nullable = true then none
          else if c = c!"*" then some (Pat.star g a, r')
          else some (Pat.plus g a, r')) = some (a', r) → r' = r ∧
          QuantText a (c :: (if g then [] else [0x3f])) a' := by
        intro g r' h
        split at h
        · cases h
        rename_i h1
        have h1' : a.isAt = false := by
          cases hb : a.isAt with
          | false => rfl
          | true => rw [hb] at h1; exact absurd rfl h1
        split at h
        · rename_i h2
          cases h
          refine ⟨rfl, ?_⟩
          rw [h2]
          cases g
          · exact .optLazy h1'
          · exact .opt h1'
        split at h
        · cases h
        rename_i h2 h3
        have h3' : a.nullable = false := by
          cases hb : a.nullable with
          | false => rfl
          | true => exact absurd hb h3
        split at h
        · rename_i h4
          cases h
          refine ⟨rfl, ?_⟩
          rw [h4]
          cases g
          · exact .starLazy h1' h3'
          · exact .star h1' h3'
        · rename_i h4
          cases h
          refine ⟨rfl, ?_⟩
          rw [(hc.resolve_left h4).resolve_right h2]
          cases g
          · exact .plusLazy h1' h3'
          · exact .plus h1' h3'
      split at h
      · rename_i heq
        split at heq <;> cases heq
      · rename_i q g r' heq
        split at heq
        · cases heq
          obtain ⟨rfl, hq⟩ := fin _ _ h
          exact ⟨_, rfl, hq⟩
        · cases heq
          obtain ⟨rfl, hq⟩ := fin _ _ h
          exact ⟨_, rfl, hq⟩
    · rw [if_neg hc] at h
      cases h
      exact ⟨[], rfl, .none⟩

theorem parseName_iff (s n r : Str) : parseName s = some (n, r) ↔ s = n ++ c!">" :: r ∧ ∀ c ∈ n, AsciiAlnum c ∨ c = c!"_" := by
  induction s generalizing n with
  | nil =>
    constructor
    · intro h; cases h
    · rintro ⟨h, _⟩; simp at h
  | cons c s ih =>
    rw [parseName]
    by_cases h1 : c = c!">"
    · rw [if_pos h1]
      constructor
      · intro h; cases h; exact ⟨by rw [h1]; rfl, by simp⟩
      · rintro ⟨h, hn⟩
        cases n with
        | nil => simp at h; rw [h.2]
        | cons d n =>
          simp only [List.cons_append, List.cons.injEq] at h
          have := hn d (by simp)
          rw [← h.1, h1] at this
          exact absurd this (by unfold AsciiAlnum; decide)
    · rw [if_neg h1]
      by_cases h2 : (isAlnumA c || c == c!"_") = true
      · rw [if_pos h2]
        have h2' : AsciiAlnum c ∨ c = c!"_" := by
          rw [← isAlnumA_iff]
          simpa using h2
        constructor
        · intro h
          cases hp : parseName s with
          | none => rw [hp] at h; cases h
          | some x =>
            obtain ⟨n', r'⟩ := x
            rw [hp] at h
            cases h
            obtain ⟨rfl, hn⟩ := (ih n').1 hp
            exact ⟨rfl, fun x hx => by
              rcases List.mem_cons.1 hx with rfl | hx
              · exact h2'
              · exact hn x hx⟩
        · rintro ⟨h, hn⟩
          cases n with
          | nil => simp at h; exact absurd h.1 h1
          | cons d n =>
            simp only [List.cons_append, List.cons.injEq] at h
            rw [(ih n).2 ⟨h.2, fun x hx => hn x (by simp [hx])⟩, h.1]
            rfl
      · rw [if_neg h2]
        constructor
        · intro h; cases h
        · rintro ⟨h, hn⟩
          cases n with
          | nil => simp at h; exact absurd h.1 h1
          | cons d n =>
            simp only [List.cons_append, List.cons.injEq] at h
            have := hn d (by simp)
            rw [← h.1, ← isAlnumA_iff] at this
            exact absurd (by simpa using this) h2

/-- What a reader of sequences or alternatives has to do. -/
def SoundFor (m : PMode) (f : PState → Option (Pat × PState)) : Prop :=
  ∀ st p st', f st = some (p, st') → ∃ t, st.rest = t ++ st'.rest ∧ Reads m t (st.next, st.names) p (st'.next, st'.names) ∧ Stops st'.rest

theorem parseMore_sound {sq : PState → Option (Pat × PState)} (hs : SoundFor .seq sq) {a p : Pat} {st st' : PState}
    (h : parseMore sq a st = some (p, st')) : ∃ q a' s b, st.rest = q ++ s ++ st'.rest ∧ QuantText a q a' ∧ p = .cat a' b ∧
      Reads .seq s (st.next, st.names) b (st'.next, st'.names) ∧ Stops st'.rest := by
  unfold parseMore at h
  cases h1 : applyQuant a st.rest with
  | none => rw [h1] at h; cases h
  | some x =>
    obtain ⟨a', r⟩ := x
    rw [h1] at h
    simp only at h
    cases h2 : sq ⟨r, st.next, st.names⟩ with
    | none => rw [h2] at h; cases h
    | some y =>
      obtain ⟨b, st2⟩ := y
      rw [h2] at h
      cases h
      obtain ⟨q, hq, hqt⟩ := applyQuant_sound h1
      obtain ⟨s, e, hr, hst⟩ := hs _ _ _ h2
      simp only at e hr
      exact ⟨q, a', s, b, by rw [hq, e, List.append_assoc], hqt, rfl, hr, hst⟩

theorem parseGroup_sound {alts sq : PState → Option (Pat × PState)} (ha : SoundFor .alts alts) (hs : SoundFor .seq sq) {wrap : Pat → Pat} {p : Pat}
    {st st' : PState} (h : parseGroup alts sq wrap st = some (p, st')) : ∃ u a ν1 q a' s b, st.rest = u ++ u!")" ++ q ++ s ++ st'.rest ∧
      Reads .alts u (st.next, st.names) a ν1 ∧ QuantText (wrap a) q a' ∧ p = .cat a' b ∧
      Reads .seq s ν1 b (st'.next, st'.names) ∧ Stops st'.rest := by
  unfold parseGroup at h
  cases h1 : alts st with
  | none => rw [h1] at h; cases h
  | some x =>
    obtain ⟨a, st2⟩ := x
    rw [h1] at h
    simp only at h
    split at h
    · rename_i r hr
      obtain ⟨u, hu, hur, _⟩ := ha _ _ _ h1
      obtain ⟨q, a', s, b, e, hq, hp, hrs, hst⟩ := parseMore_sound hs h
      simp only at e hrs
      refine ⟨u, a, _, q, a', s, b, ?_, hur, hq, hp, hrs, hst⟩
      rw [hu, hr, e]
      simp
    · cases h

theorem parseParen_sound {alts sq : PState → Option (Pat × PState)} (ha : SoundFor .alts alts) (hs : SoundFor .seq sq) {r : Str} {i : Nat}
    {names : Dict Str Nat} {p : Pat} {st' : PState} (h : parseParen alts sq r i names = some (p, st')) :
    ∃ t, c!"(" :: r = t ++ st'.rest ∧ Reads .seq t (i, names) p (st'.next, st'.names) ∧ Stops st'.rest := by
  unfold parseParen at h
  split at h
  · obtain ⟨u, a, ν1, q, a', s, b, e, h1, h2, rfl, h4, h5⟩ := parseGroup_sound ha hs h
    simp only at e h1
    exact ⟨u!"(?:" ++ u ++ u!")" ++ q ++ s, by rw [e]; simp, .nogroup h1 h2 h4, h5⟩
  · rename_i r1
    cases hn : parseName r1 with
    | none => rw [hn] at h; cases h
    | some x =>
      obtain ⟨name, r2⟩ := x
      rw [hn] at h
      simp only at h
      split at h
      · cases h
      · rename_i hc
        simp only [not_or] at hc
        obtain ⟨hc1, hc2, hc3⟩ := hc
        obtain ⟨hr1, hname⟩ := (parseName_iff _ _ _).1 hn
        obtain ⟨u, a, ν1, q, a', s, b, e, h1, h2, rfl, h4, h5⟩ := parseGroup_sound ha hs h
        simp only at e h1
        refine ⟨u!"(?P<" ++ name ++ u!">" ++ u ++ u!")" ++ q ++ s, by rw [hr1, e]; simp, .named ⟨hc1, hname, ?_⟩ ?_ h1 h2 h4, h5⟩
        · intro c hcn hd
          cases name with
          | nil => simp at hcn
          | cons d name =>
            simp only [List.head?_cons, Option.some.injEq] at hcn
            rw [hcn] at hc3
            exact hc3 hd
        · intro hm
          exact hc2 (by rw [Dict.contains_iff]; exact hm)
  · rename_i r1
    cases hk : parseCls r1 with
    | none => rw [hk] at h; cases h
    | some x =>
      obtain ⟨k, r2⟩ := x
      rw [hk] at h
      split at h
      · rename_i k' r3 heq
        cases heq
        obtain ⟨t, ht, hb⟩ := (parseCls_iff _ _ _).1 hk
        obtain ⟨q, a', s, b, e, hq, rfl, hrs, hst⟩ := parseMore_sound hs h
        simp only at e hrs
        exact ⟨(u!"(?<=[" ++ t ++ u!")") ++ q ++ s, by rw [ht, e]; simp, .atom (.behind hb) hq hrs, hst⟩
      · cases h
  · cases h
  · obtain ⟨u, a, ν1, q, a', s, b, e, h1, h2, rfl, h4, h5⟩ := parseGroup_sound ha hs h
    simp only at e h1
    exact ⟨u!"(" ++ u ++ u!")" ++ q ++ s, by rw [e]; simp, .group h1 h2 h4, h5⟩

theorem parsePat_sound (n : Nat) : SoundFor .alts (parsePat n .alts) ∧ SoundFor .seq (parsePat n .seq) ∧
    ∀ st p st', parsePat n .alts st = some (p, st') → ∀ r, st'.rest ≠ c!"|" :: r := by
  induction n with
  | zero => exact ⟨fun st p st' h => (by cases h), fun st p st' h => (by cases h), fun st p st' h => (by cases h)⟩
  | succ n ih =>
    obtain ⟨ha, hs, hb⟩ := ih
    refine ⟨fun st p st' h => ?_, fun st p st' h => ?_, fun st p st' h => ?_⟩
    · rw [parsePat] at h
      cases h1 : parsePat n .seq st with
      | none => rw [h1] at h; cases h
      | some x =>
        obtain ⟨a, st1⟩ := x
        rw [h1] at h
        simp only at h
        obtain ⟨s, e, hr, hst⟩ := hs _ _ _ h1
        split at h
        · rename_i r hr1
          cases h2 : parsePat n .alts ⟨r, st1.next, st1.names⟩ with
          | none => rw [h2] at h; cases h
          | some y =>
            obtain ⟨b, st2⟩ := y
            rw [h2] at h
            cases h
            obtain ⟨t, e2, hr2, hst2⟩ := ha _ _ _ h2
            simp only at e2 hr2
            exact ⟨s ++ u!"|" ++ t, by rw [e, hr1, e2]; simp, .alt hr hr2, hst2⟩
        · cases h
          exact ⟨s, e, .only hr, hst⟩
    · have more : ∀ {t : Str} {a : Pat} {r : Str}, AtomText t a → st.rest = t ++ r →
          parseMore (parsePat n .seq) a ⟨r, st.next, st.names⟩ = some (p, st') →
          ∃ t, st.rest = t ++ st'.rest ∧ Reads .seq t (st.next, st.names) p (st'.next, st'.names) ∧ Stops st'.rest := by
        intro t a r hat e h
        obtain ⟨q, a', s, b, e2, hq, rfl, hrs, hst⟩ := parseMore_sound hs h
        simp only at e2 hrs
        exact ⟨t ++ q ++ s, by rw [e, e2]; simp, .atom hat hq hrs, hst⟩
      rw [parsePat] at h
      split at h
      · rename_i he
        cases h
        exact ⟨[], rfl, .nil, Or.inl he⟩
      · rename_i c r he
        split at h
        · rename_i hc
          cases h
          refine ⟨[], rfl, .nil, ?_⟩
          rw [he]
          rcases hc with rfl | rfl
          · exact Or.inr (Or.inl rfl)
          · exact Or.inr (Or.inr rfl)
        rename_i hbar
        split at h
        · rename_i hc; exact more (t := [c]) (by rw [hc]; exact .dot) he h
        rename_i hdot
        split at h
        · rename_i hc; exact more (t := [c]) (by rw [hc]; exact .bol) he h
        rename_i hbol
        split at h
        · rename_i hc; exact more (t := [c]) (by rw [hc]; exact .eol) he h
        rename_i heol
        split at h
        · cases h
        rename_i hq
        split at h
        · rename_i hc
          have brace : ∀ (hh : ∀ d, r.head? = some d → d ≠ c!"," ∧ ¬ (c!"0" ≤ d ∧ d ≤ c!"9"))
              (h : parseMore (parsePat n .seq) (.chr (.lit c)) ⟨r, st.next, st.names⟩ = some (p, st')),
              ∃ t, st.rest = t ++ st'.rest ∧ Reads .seq t (st.next, st.names) p (st'.next, st'.names) ∧ Stops st'.rest := by
            intro hh h
            obtain ⟨q, a', s, b, e2, hq, rfl, hrs, hst⟩ := parseMore_sound hs h
            simp only at e2 hrs
            rw [hc] at hq
            refine ⟨u!"{" ++ q ++ s, by rw [he, hc, e2]; simp, .brace ?_ hq hrs, hst⟩
            intro d hd
            apply hh
            rw [e2]
            cases hqs : q ++ s with
            | nil => rw [hqs] at hd; cases hd
            | cons x l => rw [hqs] at hd; exact hd
          cases r with
          | nil => exact brace (by simp) h
          | cons d r =>
            simp only at h
            split at h
            · cases h
            · rename_i hd
              refine brace ?_ h
              intro x hx
              simp only [List.head?_cons, Option.some.injEq] at hx
              subst hx
              exact ⟨fun h => hd (Or.inl h), fun h => hd (Or.inr h)⟩
        rename_i hbrace
        split at h
        · rename_i hc
          cases h1 : parseEscape r with
          | none => rw [h1] at h; cases h
          | some x =>
            obtain ⟨i, r1⟩ := x
            rw [h1] at h
            obtain ⟨t, ht, het⟩ := (parseEscape_iff _ _ _).1 h1
            exact more (t := u!"\\" ++ t) (.escape het) (by rw [he, hc, ht]; simp) h
        rename_i hesc
        split at h
        · rename_i hc
          cases h1 : parseCls r with
          | none => rw [h1] at h; cases h
          | some x =>
            obtain ⟨k, r1⟩ := x
            rw [h1] at h
            obtain ⟨t, ht, het⟩ := (parseCls_iff _ _ _).1 h1
            exact more (t := u!"[" ++ t) (.bracket het) (by rw [he, hc, ht]; simp) h
        rename_i hbr
        split at h
        · rename_i hc
          rw [he, hc]
          exact parseParen_sound ha hs h
        · rename_i hpar
          refine more (t := [c]) (.lit ?_) he h
          simp only [List.mem_cons, List.not_mem_nil, or_false, not_or] at hbar hq ⊢
          exact ⟨hdot, hbol, heol, hq.1, hq.2.1, hq.2.2, hbrace, hesc, hbr, hpar, hbar.1, hbar.2⟩
    · intro r hr
      rw [parsePat] at h
      cases h1 : parsePat n .seq st with
      | none => rw [h1] at h; cases h
      | some x =>
        obtain ⟨a, st1⟩ := x
        rw [h1] at h
        simp only at h
        split at h
        · rename_i r1 hr1
          cases h2 : parsePat n .alts ⟨r1, st1.next, st1.names⟩ with
          | none => rw [h2] at h; cases h
          | some y =>
            obtain ⟨b, st2⟩ := y
            rw [h2] at h
            cases h
            exact hb _ _ _ h2 r hr
        · rename_i hne
          cases h
          exact hne r hr

theorem reads_noQuant {m : PMode} {s : Str} {ν ν' : Groups} {p : Pat} (h : Reads m s ν p ν') {r : Str} (hr : Stops r) : NoQuant (s ++ r) := by
  induction h generalizing r with
  | only h ih => exact ih hr
  | alt h1 h2 ih1 ih2 =>
    rw [List.append_assoc, List.append_assoc]
    exact ih1 (Or.inr (Or.inl rfl))
  | nil => exact hr.noQuant
  | atom hat hq h ih =>
    intro c hc
    cases hat with
    | lit hl =>
      simp only [List.cons_append, List.nil_append, List.head?_cons, Option.some.injEq] at hc
      subst hc
      simp only [List.mem_cons, List.not_mem_nil, or_false, not_or] at hl
      exact ⟨hl.2.2.2.1, hl.2.2.2.2.1, hl.2.2.2.2.2.1⟩
    | _ =>
      simp only [List.cons_append, List.nil_append, List.head?_cons, Option.some.injEq] at hc
      subst hc
      decide
  | _ =>
    intro c hc
    simp only [List.cons_append, List.nil_append, List.head?_cons, Option.some.injEq] at hc
    subst hc
    decide

theorem parseMore_of {sq : PState → Option (Pat × PState)} {a a' b : Pat} {q r : Str} {i : Nat} {names : Dict Str Nat} {st' : PState}
    (hq : QuantText a q a') (hr : NoQuant r) (hs : sq ⟨r, i, names⟩ = some (b, st')) :
    parseMore sq a ⟨q ++ r, i, names⟩ = some (.cat a' b, st') := by
  simp only [parseMore, applyQuant_of hq hr, hs]

theorem stops_paren (r : Str) : Stops (c!")" :: r) := Or.inr (Or.inr rfl)

theorem parsePat_of {m : PMode} {s : Str} {ν ν' : Groups} {p : Pat} (h : Reads m s ν p ν') :
    match m with
    | .seq => ∀ n, 2 * s.length + 1 ≤ n → ∀ r, Stops r → parsePat n .seq ⟨s ++ r, ν.1, ν.2⟩ = some (p, ⟨r, ν'.1, ν'.2⟩)
    | .alts => ∀ n, 2 * s.length + 2 ≤ n → ∀ r, Stops r → (∀ r', r ≠ c!"|" :: r') →
        parsePat n .alts ⟨s ++ r, ν.1, ν.2⟩ = some (p, ⟨r, ν'.1, ν'.2⟩) := by
  induction h with
  | only h ih =>
    intro n hn r hr hb
    obtain ⟨k, rfl⟩ : ∃ k, n = k + 1 := ⟨n - 1, by omega⟩
    rw [parsePat, ih k (by omega) r hr]
    simp only
  | alt h1 h2 ih1 ih2 =>
    rename_i s t ν a ν1 b ν2
    intro n hn r hr hb
    simp only [List.length_append, List.length_cons, List.length_nil] at hn
    obtain ⟨k, rfl⟩ : ∃ k, n = k + 1 := ⟨n - 1, by omega⟩
    have e : s ++ u!"|" ++ t ++ r = s ++ (0x7c :: (t ++ r)) := by simp
    rw [e, parsePat, ih1 k (by omega) _ (Or.inr (Or.inl rfl))]
    simp only
    rw [ih2 k (by omega) r hr hb]
  | nil =>
    intro n hn r hr
    obtain ⟨k, rfl⟩ : ∃ k, n = k + 1 := ⟨n - 1, by omega⟩
    exact parse_stop k r _ _ hr
  | atom hat hq h ih =>
    rename_i t a q a' s ν b ν'
    intro n hn r hr
    simp only [List.length_append] at hn
    obtain ⟨k, rfl⟩ : ∃ k, n = k + 1 := ⟨n - 1, by omega⟩
    have hnq := reads_noQuant h hr
    have hmore : ∀ (hk : 2 * s.length + 1 ≤ k), parseMore (parsePat k .seq) a ⟨q ++ (s ++ r), ν.1, ν.2⟩ = some (.cat a' b, ⟨r, ν'.1, ν'.2⟩) :=
      fun hk => parseMore_of hq hnq (ih k hk r hr)
    have e : t ++ q ++ s ++ r = t ++ (q ++ (s ++ r)) := by simp
    rw [e]
    cases hat with
    | dot => exact hmore (by simp at hn; omega)
    | bol => exact hmore (by simp at hn; omega)
    | eol => exact hmore (by simp at hn; omega)
    | lit hc =>
      rename_i c
      have hsp : isSpecial c = false := by simp only [isSpecial, List.contains_eq_mem, decide_eq_false_iff_not]; exact hc
      obtain ⟨h1, h2, h3, h4, h5, h6, h7, h8, h9, h10, h11, h12⟩ := isSpecial_false hsp
      simp only [List.cons_append, List.nil_append, parsePat, h1, h2, h3, h4, h5, h6, h7, h8, h9, h10, h11, h12, or_self, if_false]
      exact hmore (by simp at hn; omega)
    | escape he =>
      rename_i t i
      have hp := (parseEscape_iff (t ++ (q ++ (s ++ r))) (q ++ (s ++ r)) i).2 ⟨t, rfl, he⟩
      have : parsePat (k + 1) .seq ⟨(u!"\\" ++ t) ++ (q ++ (s ++ r)), ν.1, ν.2⟩ = (match parseEscape (t ++ (q ++ (s ++ r))) with
        | none => none
        | some (i, r1) => parseMore (parsePat k .seq) (.chr ⟨false, [i]⟩) ⟨r1, ν.1, ν.2⟩) := rfl
      rw [this, hp]
      exact hmore (by simp at hn; omega)
    | bracket he =>
      rename_i t i
      have hp := (parseCls_iff (t ++ (q ++ (s ++ r))) (q ++ (s ++ r)) i).2 ⟨t, rfl, he⟩
      have : parsePat (k + 1) .seq ⟨(u!"[" ++ t) ++ (q ++ (s ++ r)), ν.1, ν.2⟩ = (match parseCls (t ++ (q ++ (s ++ r))) with
        | none => none
        | some (i, r1) => parseMore (parsePat k .seq) (.chr i) ⟨r1, ν.1, ν.2⟩) := rfl
      rw [this, hp]
      exact hmore (by simp at hn; omega)
    | behind he =>
      rename_i t i
      have hp := (parseCls_iff (t ++ (c!")" :: (q ++ (s ++ r)))) (c!")" :: (q ++ (s ++ r))) i).2 ⟨t, rfl, he⟩
      have e2 : (u!"(?<=[" ++ t ++ u!")") ++ (q ++ (s ++ r)) = u!"(?<=[" ++ (t ++ (c!")" :: (q ++ (s ++ r)))) := by simp
      have : parsePat (k + 1) .seq ⟨u!"(?<=[" ++ (t ++ (c!")" :: (q ++ (s ++ r)))), ν.1, ν.2⟩ =
          (match parseCls (t ++ (c!")" :: (q ++ (s ++ r)))) with
            | some (k', 0x29 :: r2) => parseMore (parsePat k .seq) (.behind k') ⟨r2, ν.1, ν.2⟩
            | _ => none) := rfl
      rw [e2, this, hp]
      exact hmore (by simp at hn; omega)
  | brace hh hq h ih =>
    rename_i q a' s ν b ν'
    intro n hn r hr
    simp only [List.length_append, List.length_cons, List.length_nil] at hn
    obtain ⟨k, rfl⟩ : ∃ k, n = k + 1 := ⟨n - 1, by omega⟩
    have hnq := reads_noQuant h hr
    have hmore := parseMore_of (sq := parsePat k .seq) hq hnq (ih k (by omega) r hr)
    have e : u!"{" ++ q ++ s ++ r = u!"{" ++ (q ++ (s ++ r)) := by simp
    rw [e]
    have hd : ∀ d, (q ++ (s ++ r)).head? = some d → ¬ (d = c!"," ∨ (0x30 ≤ d ∧ d ≤ 0x39)) := by
      intro d hd
      cases hqs : q ++ s with
      | nil =>
        rw [← List.append_assoc, hqs, List.nil_append] at hd
        rcases hr with rfl | hr | hr
        · cases hd
        · rw [hr] at hd; cases hd; decide
        · rw [hr] at hd; cases hd; decide
      | cons x l =>
        rw [← List.append_assoc, hqs] at hd
        have := hh d (by rw [hqs]; exact hd)
        rintro (h | h)
        · exact this.1 h
        · exact this.2 h
    have : parsePat (k + 1) .seq ⟨u!"{" ++ (q ++ (s ++ r)), ν.1, ν.2⟩ = (match q ++ (s ++ r) with
        | [] => parseMore (parsePat k .seq) (.chr (.lit c!"{")) ⟨q ++ (s ++ r), ν.1, ν.2⟩
        | d :: _ =>
          if d = c!"," ∨ (0x30 ≤ d ∧ d ≤ 0x39) then none
          else parseMore (parsePat k .seq) (.chr (.lit c!"{")) ⟨q ++ (s ++ r), ν.1, ν.2⟩) := rfl
    rw [this]
    cases hx : q ++ (s ++ r) with
    | nil => rw [hx] at hmore; exact hmore
    | cons d l =>
      rw [hx] at hmore hd
      simp only
      rw [if_neg (hd d rfl)]
      exact hmore
  | group h1 hq h2 ih1 ih2 =>
    rename_i i names u a ν1 q a' s b ν2
    intro n hn r hr
    simp only [List.length_append, List.length_cons, List.length_nil] at hn
    obtain ⟨k, rfl⟩ : ∃ k, n = k + 1 := ⟨n - 1, by omega⟩
    have e : u!"(" ++ u ++ u!")" ++ q ++ s ++ r = 0x28 :: (u ++ (c!")" :: (q ++ (s ++ r)))) := by simp
    rw [e, parse_paren k _ (q ++ (s ++ r)) i ν1.1 names ν1.2 a ?_ (ih1 k (by omega) _ (stops_paren _) (by simp))]
    · exact parseMore_of hq (reads_noQuant h2 hr) (ih2 k (by omega) r hr)
    · intro hh
      exact (reads_noQuant h1 (stops_paren (q ++ (s ++ r))) _ hh).2.2 rfl
  | named hn1 hn2 h1 hq h2 ih1 ih2 =>
    rename_i i names name u a ν1 q a' s b ν2
    intro n hn r hr
    simp only [List.length_append, List.length_cons, List.length_nil] at hn
    obtain ⟨k, rfl⟩ : ∃ k, n = k + 1 := ⟨n - 1, by omega⟩
    have e : u!"(?P<" ++ name ++ u!">" ++ u ++ u!")" ++ q ++ s ++ r = u!"(?P<" ++ (name ++ c!">" :: (u ++ (c!")" :: (q ++ (s ++ r))))) := by simp
    have hp := (parseName_iff _ name _).2 ⟨rfl (a := name ++ c!">" :: (u ++ (c!")" :: (q ++ (s ++ r))))), hn1.2.1⟩
    have : ∀ x, parsePat (k + 1) .seq ⟨u!"(?P<" ++ x, i, names⟩ = (match parseName x with
        | none => none
        | some (name, r2) =>
          if name = [] ∨ names.contains name = true ∨ (0x30 ≤ name.headD 0 ∧ name.headD 0 ≤ 0x39) then none
          else parseGroup (parsePat k .alts) (parsePat k .seq) (.group i) ⟨r2, i + 1, names.set name i⟩) := fun x => rfl
    rw [e, this, hp]
    simp only
    rw [if_neg ?_]
    · simp only [parseGroup]
      rw [ih1 k (by omega) _ (stops_paren _) (by simp)]
      exact parseMore_of hq (reads_noQuant h2 hr) (ih2 k (by omega) r hr)
    · rintro (h | h | h)
      · exact hn1.1 h
      · exact hn2 ((Dict.contains_iff _ _).1 h)
      · cases name with
        | nil => exact hn1.1 rfl
        | cons d name => exact hn1.2.2 d rfl h
  | nogroup h1 hq h2 ih1 ih2 =>
    rename_i ν u a ν1 q a' s b ν2
    intro n hn r hr
    simp only [List.length_append, List.length_cons, List.length_nil] at hn
    obtain ⟨k, rfl⟩ : ∃ k, n = k + 1 := ⟨n - 1, by omega⟩
    have e : u!"(?:" ++ u ++ u!")" ++ q ++ s ++ r = u!"(?:" ++ (u ++ (c!")" :: (q ++ (s ++ r)))) := by simp
    have : ∀ x, parsePat (k + 1) .seq ⟨u!"(?:" ++ x, ν.1, ν.2⟩ = parseGroup (parsePat k .alts) (parsePat k .seq) id ⟨x, ν.1, ν.2⟩ :=
      fun x => rfl
    rw [e, this]
    simp only [parseGroup]
    rw [ih1 k (by omega) _ (stops_paren _) (by simp)]
    exact parseMore_of hq (reads_noQuant h2 hr) (ih2 k (by omega) r hr)

/-- C99: a text compiles to a tree and its names exactly if the grammar says that the text is written for them. -/
theorem C99_pattern_syntax (text : Str) (p : Pat) (names : Dict Str Nat) :
    compile text = some ⟨p, names⟩ ↔ ∃ next, Reads .alts text (1, []) p (next, names) := by
  constructor
  · intro h
    unfold compile at h
    split at h
    · rename_i p' st hp
      split at h
      · rename_i hr
        cases h
        obtain ⟨t, e, hreads, _⟩ := (parsePat_sound _).1 _ _ _ hp
        rw [hr, List.append_nil] at e
        simp only at e hreads
        exact ⟨st.next, by rw [e]; exact hreads⟩
      · cases h
    · cases h
  · rintro ⟨next, h⟩
    have := parsePat_of h (2 * text.length + 2) (by omega) [] (Or.inl rfl) (by simp)
    simp only [List.append_nil] at this
    unfold compile
    rw [this]
    rfl

/-- C99: so the grammar is unambiguous: a text is written for at most one tree. -/
theorem C99_grammar_unambiguous {text : Str} {p p' : Pat} {i i' : Nat} {names names' : Dict Str Nat} (h : Reads .alts text (1, []) p (i, names))
    (h' : Reads .alts text (1, []) p' (i', names')) : p = p' ∧ names = names' := by
  have h1 := (C99_pattern_syntax text p names).2 ⟨i, h⟩
  have h2 := (C99_pattern_syntax text p' names').2 ⟨i', h'⟩
  rw [h1] at h2
  cases h2
  exact ⟨rfl, rfl⟩

/-- Nested and named groups, classes, lazy and greedy repetition, escapes. -/
example : ∃ r, compile u!"^(?P<word>[^\\s-]*?)((?:a|\\u3042-)+)?{x" = none ∧
    compile u!"^(?P<word>[^\\d-]*?)((?:a|\\u3042-)+)?{x" = some r ∧ r.names = [(u!"word", 1)] := by
  refine ⟨_, by decide +kernel, rfl, by decide +kernel⟩

end Cjk
