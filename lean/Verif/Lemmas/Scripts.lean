import Verif.Model.Scripts
import Verif.Spec.Scripts
/-! Helper lemmas about the scripts model. -/

namespace Cjk
open Py

theorem hiraganaAlphabet_eq : Spec.hiraganaAlphabet = List.range' 0x3041 86 := by decide
theorem katakanaAlphabet_eq : Spec.katakanaAlphabet = List.range' 0x30a1 86 := by decide

theorem idxOf?_range' (c a n : Nat) :
    (List.range' a n).idxOf? c = if a ≤ c ∧ c < a + n then some (c - a) else none := by
  induction n generalizing a with
  | zero => simp
  | succ n ih =>
    simp only [List.range'_succ, List.idxOf?_cons, ih]
    by_cases h : a = c
    · subst h; simp
    · have : (a == c) = false := by simp [h]
      simp only [this, Bool.false_eq_true, if_false]
      split <;> split <;> simp <;> omega

theorem convertChr_range' (a b n c : Nat) :
    Spec.convertChr (List.range' a n) (List.range' b n) c =
      if a ≤ c ∧ c < a + n then c - a + b else c := by
  unfold Spec.convertChr
  rw [idxOf?_range']
  by_cases h : a ≤ c ∧ c < a + n
  · simp only [h, and_self, if_true, List.getD_eq_getElem?_getD]
    have hi : c - a < n := by omega
    rw [List.getElem?_range' hi]
    simp; omega
  · simp [h]

theorem toKatakana_eq_convert (s : Str) :
    toKatakana s = s.map (Spec.convertChr Spec.hiraganaAlphabet Spec.katakanaAlphabet) := by
  unfold toKatakana
  apply List.map_congr_left
  intro c _
  rw [hiraganaAlphabet_eq, katakanaAlphabet_eq, convertChr_range']
  split <;> split <;> omega

theorem toHiragana_eq_convert (s : Str) :
    toHiragana s = s.map (Spec.convertChr Spec.katakanaAlphabet Spec.hiraganaAlphabet) := by
  unfold toHiragana
  apply List.map_congr_left
  intro c _
  rw [hiraganaAlphabet_eq, katakanaAlphabet_eq, convertChr_range']
  split <;> split <;> omega

theorem toHiragana_toKatakana (s : Str) : toHiragana (toKatakana s) = toHiragana s := by
  simp only [toHiragana, toKatakana, List.map_map]
  apply List.map_congr_left
  intro c _
  simp only [Function.comp]
  repeat' split
  all_goals omega

theorem toKatakana_toHiragana (s : Str) : toKatakana (toHiragana s) = toKatakana s := by
  simp only [toHiragana, toKatakana, List.map_map]
  apply List.map_congr_left
  intro c _
  simp only [Function.comp]
  repeat' split
  all_goals omega

theorem toKatakana_idem (s : Str) : toKatakana (toKatakana s) = toKatakana s := by
  simp only [toKatakana, List.map_map]
  apply List.map_congr_left
  intro c _
  simp only [Function.comp]
  repeat' split
  all_goals omega

@[simp] theorem toKatakana_length (s : Str) : (toKatakana s).length = s.length := by simp [toKatakana]
@[simp] theorem toHiragana_length (s : Str) : (toHiragana s).length = s.length := by simp [toHiragana]

/-- Running the class-level model on a mapping whose images are valid code points. -/
theorem call_eq_map (m : ScriptMapping) (f : Nat → Nat)
    (h : ∀ c, (m.fromStart ≤ c ∧ c ≤ m.fromEnd →
        unichr ((c : Int) + m.ordDiff) = .ok (f c)) ∧ (¬ (m.fromStart ≤ c ∧ c ≤ m.fromEnd) → f c = c))
    (s : Str) : m.call s = .ok (s.map f) := by
  induction s with
  | nil => rfl
  | cons c s ih =>
    simp only [ScriptMapping.call, ih, List.map_cons]
    by_cases hc : m.fromStart ≤ c ∧ c ≤ m.fromEnd
    · simp only [hc, and_self, if_true, (h c).1 hc]; rfl
    · simp only [hc, if_false, (h c).2 hc]; rfl

theorem unichr_ok {i : Int} {c : Nat} (h : i = c) (hc : c < 0x110000) : unichr i = .ok c := by
  subst h; simp [unichr]; omega

/-! ### script_type -/

theorem scriptTypeLoop_spec (c : Chr) (x : Script) : scriptTypeLoop knownBands c = x ↔ Spec.InScript x c := by
  simp only [scriptTypeLoop, knownBands]
  cases x <;> simp only [Spec.InScript] <;> (repeat' split) <;>
    simp only [reduceCtorEq, false_iff, true_iff] <;> omega

theorem scriptType_cons (c : Chr) (s : Str) : scriptType (c :: s) = scriptType [c] := rfl

theorem scriptType_iff (c : Chr) (s : Str) (x : Script) : scriptType (c :: s) = x ↔ Spec.InScript x c :=
  scriptTypeLoop_spec c x

theorem InScript_unique {x y : Script} {c : Chr} (hx : Spec.InScript x c) (hy : Spec.InScript y c) : x = y := by
  rw [← scriptTypeLoop_spec] at hx hy; rw [← hx, ← hy]

theorem InScript_exists (c : Chr) : ∃ x, Spec.InScript x c := ⟨_, (scriptTypeLoop_spec c _).1 rfl⟩

theorem continues_iff (h c : Chr) :
    Spec.Continues h c ↔ scriptType [c] = scriptType [h] ∨ c = c!"ー" := by
  unfold Spec.Continues Spec.longMark
  constructor
  · rintro (h1 | ⟨x, h1, h2⟩)
    · exact Or.inr h1
    · left; rw [(scriptType_iff _ _ _).2 h1, (scriptType_iff _ _ _).2 h2]
  · rintro (h1 | h1)
    · right; exact ⟨scriptType [h], (scriptType_iff _ _ _).1 rfl, (scriptType_iff _ _ _).1 h1⟩
    · exact Or.inl h1

theorem scriptTypeLoop_eq_of_mem {bands : List (Script × (Chr × Chr))}
    (hdis : ∀ p ∈ bands, ∀ q ∈ bands, ∀ c, (p.2.1 ≤ c ∧ c ≤ p.2.2) → (q.2.1 ≤ c ∧ c ≤ q.2.2) → p.1 = q.1)
    {p : Script × (Chr × Chr)} (hp : p ∈ bands) {c : Chr} (hc : p.2.1 ≤ c ∧ c ≤ p.2.2) :
    scriptTypeLoop bands c = p.1 := by
  induction bands with
  | nil => simp at hp
  | cons q bands ih =>
    obtain ⟨x, a, b⟩ := q
    simp only [scriptTypeLoop]
    split
    · rename_i hab; exact hdis (x, a, b) (by simp) p hp c hab hc
    · rename_i hab
      simp only [List.mem_cons] at hp
      rcases hp with rfl | hp
      · exact absurd hc hab
      · exact ih (fun p hp q hq => hdis p (by simp [hp]) q (by simp [hq])) hp

theorem scriptTypeLoop_eq_unknown {bands : List (Script × (Chr × Chr))} {c : Chr}
    (h : ∀ p ∈ bands, ¬ (p.2.1 ≤ c ∧ c ≤ p.2.2)) : scriptTypeLoop bands c = .unknown := by
  induction bands with
  | nil => rfl
  | cons q bands ih =>
    obtain ⟨x, a, b⟩ := q
    have := h (x, a, b) (by simp)
    simp only [scriptTypeLoop]
    rw [if_neg this]
    exact ih (fun p hp => h p (by simp [hp]))

theorem knownBands_disjoint : ∀ p ∈ knownBands, ∀ q ∈ knownBands, ∀ c,
    (p.2.1 ≤ c ∧ c ≤ p.2.2) → (q.2.1 ≤ c ∧ c ≤ q.2.2) → p.1 = q.1 := by
  intro p hp q hq c h1 h2
  simp only [knownBands, List.mem_cons, List.not_mem_nil, or_false] at hp hq
  rcases hp with rfl | rfl | rfl | rfl | rfl | rfl <;>
    rcases hq with rfl | rfl | rfl | rfl | rfl | rfl <;> first | rfl | (simp only at h1 h2; omega)

theorem scriptTypeIn_perm {bands : List (Script × (Chr × Chr))} (h : bands.Perm knownBands) (s : Str) :
    scriptTypeIn bands s = scriptType s := by
  cases s with
  | nil => rfl
  | cons c s =>
    show scriptTypeLoop bands c = scriptTypeLoop knownBands c
    by_cases hex : ∃ p ∈ knownBands, p.2.1 ≤ c ∧ c ≤ p.2.2
    · obtain ⟨p, hp, hc⟩ := hex
      rw [scriptTypeLoop_eq_of_mem knownBands_disjoint hp hc]
      apply scriptTypeLoop_eq_of_mem _ (h.mem_iff.2 hp) hc
      intro p hp q hq
      exact knownBands_disjoint p (h.mem_iff.1 hp) q (h.mem_iff.1 hq)
    · have hex' : ∀ p ∈ knownBands, ¬ (p.2.1 ≤ c ∧ c ≤ p.2.2) := fun p hp hc => hex ⟨p, hp, hc⟩
      rw [scriptTypeLoop_eq_unknown hex', scriptTypeLoop_eq_unknown]
      intro p hp; exact hex' p (h.mem_iff.1 hp)

/-! ### script_boundaries -/

theorem boundariesLoop_flatten (ty : Script) (cur s : Str) :
    (boundariesLoop ty cur s).flatten = cur ++ s := by
  induction s generalizing ty cur with
  | nil => unfold boundariesLoop; cases cur <;> simp
  | cons c s ih =>
    unfold boundariesLoop
    split
    · rw [ih]; simp
    · simp [ih]

/-- First block of the loop: it starts with the head of `cur`. -/
theorem boundariesLoop_head (h : Chr) (t s : Str) :
    ∃ u rest, boundariesLoop (scriptType [h]) (h :: t) s = (h :: t ++ u) :: rest := by
  induction s generalizing t with
  | nil => exact ⟨[], [], by simp [boundariesLoop]⟩
  | cons c s ih =>
    unfold boundariesLoop
    split
    · obtain ⟨u, rest, e⟩ := ih (t ++ [c])
      exact ⟨c :: u, rest, by simpa using e⟩
    · exact ⟨[], boundariesLoop (scriptType [c]) [c] s, by simp⟩

theorem boundariesLoop_blocks (h : Chr) (t s : Str) (ht : ∀ c ∈ t, Spec.Continues h c) :
    ∀ seg ∈ boundariesLoop (scriptType [h]) (h :: t) s, Spec.Block seg := by
  induction s generalizing h t with
  | nil =>
    intro seg hs
    simp [boundariesLoop] at hs
    exact ⟨h, t, hs, ht⟩
  | cons c s ih =>
    unfold boundariesLoop
    split
    · rename_i hc
      apply ih h (t ++ [c])
      intro d hd
      simp only [List.mem_append, List.mem_singleton] at hd
      rcases hd with hd | rfl
      · exact ht d hd
      · exact (continues_iff _ _).2 hc
    · intro seg hs
      simp only [List.mem_cons] at hs
      rcases hs with rfl | hs
      · exact ⟨h, t, rfl, ht⟩
      · exact ih c [] (by simp) seg hs

theorem boundariesLoop_maximal (h : Chr) (t s : Str) :
    ∀ pre a b post, boundariesLoop (scriptType [h]) (h :: t) s = pre ++ a :: b :: post →
      ∀ x ∈ a.head?, ∀ c ∈ b.head?, ¬ Spec.Continues x c := by
  induction s generalizing h t with
  | nil =>
    intro pre a b post e
    simp [boundariesLoop] at e
    have := congrArg List.length e; simp at this; omega
  | cons c s ih =>
    unfold boundariesLoop
    split
    · exact ih h (t ++ [c])
    · rename_i hc
      intro pre a b post e
      cases pre with
      | nil =>
        simp only [List.nil_append, List.cons.injEq] at e
        obtain ⟨e1, e2⟩ := e
        obtain ⟨u, rest, e3⟩ := boundariesLoop_head c [] s
        rw [e3] at e2
        simp only [List.cons.injEq] at e2
        obtain ⟨e4, _⟩ := e2
        subst e1; subst e4
        intro x hx d hd
        simp at hx hd; subst hx; subst hd
        rw [continues_iff]; exact hc
      | cons p pre =>
        simp only [List.cons_append, List.cons.injEq] at e
        exact ih c [] pre a b post e.2

theorem isSegmentation_cons {s : Str} {a : Str} {segs : List Str} (h : Spec.IsSegmentation s (a :: segs)) :
    Spec.IsSegmentation segs.flatten segs := by
  refine ⟨rfl, fun seg hs => h.2.1 seg (by simp [hs]), ?_⟩
  intro pre x y post e
  exact h.2.2 (a :: pre) x y post (by simp [e])

/-- Two segmentations of one string coincide. -/
theorem isSegmentation_unique {segs segs' : List Str} {s : Str} (h : Spec.IsSegmentation s segs)
    (h' : Spec.IsSegmentation s segs') : segs = segs' := by
  induction segs generalizing segs' s with
  | nil =>
    cases segs' with
    | nil => rfl
    | cons b segs' =>
      obtain ⟨x, t, rfl, _⟩ := h'.2.1 b (by simp)
      have := h.1.trans h'.1.symm; simp at this
  | cons a segs ih =>
    cases segs' with
    | nil =>
      obtain ⟨x, t, rfl, _⟩ := h.2.1 a (by simp)
      have := h.1.trans h'.1.symm; simp at this
    | cons b segs' =>
      have e : a ++ segs.flatten = b ++ segs'.flatten := by
        have := h.1.trans h'.1.symm; simpa using this
      -- the shorter of `a`, `b` is a prefix of the other; a proper prefix contradicts maximality
      have key : ∀ (a b : Str) (segs segs' : List Str) (s : Str), Spec.IsSegmentation s (a :: segs) →
          Spec.IsSegmentation s (b :: segs') → ∀ u, b = a ++ u → u = [] := by
        intro a b segs segs' s h h' u hu
        cases u with
        | nil => rfl
        | cons c u =>
          exfalso
          obtain ⟨x, t, rfl, ht⟩ := h.2.1 a (by simp)
          obtain ⟨y, t', hb, ht'⟩ := h'.2.1 b (by simp)
          subst hu
          simp only [List.cons_append, List.cons.injEq] at hb
          obtain ⟨rfl, rfl⟩ := hb
          have e := h.1.trans h'.1.symm
          simp only [List.flatten_cons, List.append_assoc, List.append_cancel_left_eq] at e
          cases segs with
          | nil => simp at e
          | cons d segs =>
            obtain ⟨z, t2, rfl, _⟩ := h.2.1 d (by simp)
            simp only [List.flatten_cons, List.cons_append, List.cons.injEq] at e
            obtain ⟨rfl, _⟩ := e
            exact h.2.2 [] _ _ segs rfl x (by simp) z (by simp) (ht' z (by simp))
      have hab : a = b := by
        rw [List.append_eq_append_iff] at e
        rcases e with ⟨u, hu, _⟩ | ⟨u, hu, _⟩
        · have := key a b segs segs' s h h' u hu; simp [hu, this]
        · have := key b a segs' segs s h' h u hu; simp [hu, this]
      subst hab
      rw [List.append_cancel_left_eq] at e
      have h1 := isSegmentation_cons h
      have h2 := isSegmentation_cons h'
      rw [← e] at h2
      rw [ih h1 h2]

/-! ### String order -/

theorem strLt_irrefl (s : Str) : strLt s s = false := by
  induction s with
  | nil => rfl
  | cons a s ih => simp [strLt, ih]

theorem strLt_trans {a b c : Str} (h1 : strLt a b = true) (h2 : strLt b c = true) : strLt a c = true := by
  induction a generalizing b c with
  | nil => cases b <;> cases c <;> simp_all [strLt]
  | cons x a ih =>
    cases b with
    | nil => simp [strLt] at h1
    | cons y b =>
      cases c with
      | nil => simp [strLt] at h2
      | cons z c =>
        simp only [strLt] at *
        by_cases hxy : x < y
        · by_cases hyz : y < z
          · simp [show x < z by omega]
          · by_cases hzy : z < y
            · simp [hyz, hzy] at h2
            · simp [show x < z by omega]
        · by_cases hyx : y < x
          · simp [hxy, hyx] at h1
          · simp only [hxy, hyx, if_false] at h1
            by_cases hyz : y < z
            · simp [show x < z by omega]
            · by_cases hzy : z < y
              · simp [hyz, hzy] at h2
              · simp only [hyz, hzy, if_false] at h2
                simp [show ¬ x < z by omega, show ¬ z < x by omega, ih h1 h2]

theorem strLt_trichotomy (a b : Str) : strLt a b = true ∨ a = b ∨ strLt b a = true := by
  induction a generalizing b with
  | nil => cases b <;> simp [strLt]
  | cons x a ih =>
    cases b with
    | nil => simp [strLt]
    | cons y b =>
      simp only [strLt, List.cons.injEq]
      by_cases hxy : x < y
      · simp [hxy]
      · by_cases hyx : y < x
        · simp [hxy, hyx]
        · have : x = y := by omega
          subst this
          simpa using ih b

theorem strLt_asymm {a b : Str} (h : strLt a b = true) : strLt b a = false := by
  cases h' : strLt b a with
  | false => rfl
  | true => have := strLt_trans h h'; rw [strLt_irrefl] at this; exact absurd this (by simp)

end Cjk
