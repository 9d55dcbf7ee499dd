import Verif.Spec.Dates
import Verif.Props.Export
import Verif.Props.TatoebaErrors
/-!
# Claim about the dates of detailed Tatoeba exports
-/

namespace Cjk
open Py

/-! ### The matchers -/

theorem mem_oneChr {p : Chr → Bool} {s t r : Str} : (t, r) ∈ oneChr p s ↔ ∃ a, t = [a] ∧ s = a :: r ∧ p a = true := by
  cases s with
  | nil => simp [oneChr]
  | cons a s =>
    simp only [oneChr]
    by_cases h : p a = true
    · rw [if_pos h]
      simp only [List.mem_singleton, Prod.mk.injEq, List.cons.injEq]
      constructor
      · rintro ⟨rfl, rfl⟩; exact ⟨a, rfl, ⟨rfl, rfl⟩, h⟩
      · rintro ⟨b, rfl, ⟨rfl, rfl⟩, _⟩; exact ⟨rfl, rfl⟩
    · rw [if_neg h]
      simp only [List.not_mem_nil, List.cons.injEq, false_iff]
      rintro ⟨b, _, ⟨rfl, _⟩, hb⟩; exact h hb

theorem mem_twoChr {p q : Chr → Bool} {s t r : Str} :
    (t, r) ∈ twoChr p q s ↔ ∃ a b, t = [a, b] ∧ s = a :: b :: r ∧ p a = true ∧ q b = true := by
  rcases s with _ | ⟨a, _ | ⟨b, s⟩⟩
  · simp [twoChr]
  · simp [twoChr]
  · simp only [twoChr]
    by_cases h : (p a && q b) = true
    · rw [if_pos h]
      rw [Bool.and_eq_true] at h
      simp only [List.mem_singleton, Prod.mk.injEq, List.cons.injEq]
      constructor
      · rintro ⟨rfl, rfl⟩; exact ⟨a, b, rfl, ⟨rfl, rfl, rfl⟩, h.1, h.2⟩
      · rintro ⟨x, y, rfl, ⟨rfl, rfl, rfl⟩, _⟩; exact ⟨rfl, rfl⟩
    · rw [if_neg h]
      simp only [List.not_mem_nil, List.cons.injEq, false_iff]
      rintro ⟨x, y, _, ⟨rfl, rfl, _⟩, hp, hq⟩; exact h (by rw [hp, hq]; rfl)

theorem inRange_iff {lo hi c : Chr} : inRange lo hi c = true ↔ Spec.Among lo hi c := by
  unfold inRange Spec.Among; simp

theorem inRange_self {lo c : Chr} : inRange lo lo c = true ↔ c = lo := by
  unfold inRange; rw [decide_eq_true_eq]; omega

theorem mem_yearM {s t r : Str} : (t, r) ∈ yearM s ↔ s = t ++ r ∧ t.length = 4 ∧ ∀ c ∈ t, isDigit c = true := by
  rcases s with _ | ⟨a, _ | ⟨b, _ | ⟨c, _ | ⟨d, s⟩⟩⟩⟩
  all_goals
    try
      simp only [yearM, List.not_mem_nil, false_iff]
      rintro ⟨e, hl, _⟩
      have := congrArg List.length e
      simp only [List.length_append, List.length_cons, List.length_nil] at this
      omega
  simp only [yearM]
  by_cases h : (isDigit a && isDigit b && isDigit c && isDigit d) = true
  · rw [if_pos h]
    simp only [Bool.and_eq_true] at h
    obtain ⟨⟨⟨h1, h2⟩, h3⟩, h4⟩ := h
    simp only [List.mem_singleton, Prod.mk.injEq]
    constructor
    · rintro ⟨rfl, rfl⟩; exact ⟨rfl, rfl, by simp [h1, h2, h3, h4]⟩
    · rintro ⟨e, hl, _⟩
      rcases t with _ | ⟨a', _ | ⟨b', _ | ⟨c', _ | ⟨d', _ | ⟨e', t⟩⟩⟩⟩⟩ <;> simp at hl
      simp only [List.cons_append, List.nil_append, List.cons.injEq] at e
      obtain ⟨rfl, rfl, rfl, rfl, rfl⟩ := e
      exact ⟨rfl, rfl⟩
  · rw [if_neg h]
    simp only [List.not_mem_nil, false_iff]
    rintro ⟨e, hl, hd⟩
    rcases t with _ | ⟨a', _ | ⟨b', _ | ⟨c', _ | ⟨d', _ | ⟨e', t⟩⟩⟩⟩⟩ <;> simp at hl
    simp only [List.cons_append, List.nil_append, List.cons.injEq] at e
    obtain ⟨rfl, rfl, rfl, rfl, rfl⟩ := e
    exact h (by simp [hd])

theorem mem_monthM {s t r : Str} : (t, r) ∈ monthM s ↔ s = t ++ r ∧ Spec.MonthText t := by
  unfold monthM Spec.MonthText
  simp only [List.mem_append, mem_twoChr, mem_oneChr, inRange_self]
  simp only [inRange_iff]
  constructor
  · rintro ((⟨a, b, rfl, rfl, rfl, h⟩ | ⟨a, b, rfl, rfl, rfl, h⟩) | ⟨b, rfl, rfl, h⟩)
    · exact ⟨rfl, Or.inl ⟨b, rfl, h⟩⟩
    · exact ⟨rfl, Or.inr (Or.inl ⟨b, rfl, h⟩)⟩
    · exact ⟨rfl, Or.inr (Or.inr ⟨b, rfl, h⟩)⟩
  · rintro ⟨rfl, ⟨b, rfl, h⟩ | ⟨b, rfl, h⟩ | ⟨b, rfl, h⟩⟩
    · exact Or.inl (Or.inl ⟨_, b, rfl, rfl, rfl, h⟩)
    · exact Or.inl (Or.inr ⟨_, b, rfl, rfl, rfl, h⟩)
    · exact Or.inr ⟨b, rfl, rfl, h⟩

theorem mem_dayM {s t r : Str} : (t, r) ∈ dayM s ↔ s = t ++ r ∧ Spec.DayText t := by
  unfold dayM Spec.DayText
  simp only [List.mem_append, mem_twoChr, mem_oneChr, inRange_self]
  simp only [inRange_iff]
  constructor
  · rintro ((((⟨a, b, rfl, rfl, rfl, h⟩ | ⟨a, b, rfl, rfl, h1, h⟩) | ⟨a, b, rfl, rfl, rfl, h⟩) | ⟨b, rfl, rfl, h⟩) | ⟨a, b, rfl, rfl, rfl, h⟩)
    · exact ⟨rfl, Or.inl ⟨b, rfl, h⟩⟩
    · exact ⟨rfl, Or.inr (Or.inl ⟨a, b, rfl, h1, h⟩)⟩
    · exact ⟨rfl, Or.inr (Or.inr (Or.inl ⟨b, rfl, h⟩))⟩
    · exact ⟨rfl, Or.inr (Or.inr (Or.inr (Or.inl ⟨b, rfl, h⟩)))⟩
    · exact ⟨rfl, Or.inr (Or.inr (Or.inr (Or.inr ⟨b, rfl, h⟩)))⟩
  · rintro ⟨rfl, ⟨b, rfl, h⟩ | ⟨a, b, rfl, h1, h⟩ | ⟨b, rfl, h⟩ | ⟨b, rfl, h⟩ | ⟨b, rfl, h⟩⟩
    · exact Or.inl (Or.inl (Or.inl (Or.inl ⟨_, b, rfl, rfl, rfl, h⟩)))
    · exact Or.inl (Or.inl (Or.inl (Or.inr ⟨_, b, rfl, rfl, h1, h⟩)))
    · exact Or.inl (Or.inl (Or.inr ⟨_, b, rfl, rfl, rfl, h⟩))
    · exact Or.inl (Or.inr ⟨b, rfl, rfl, h⟩)
    · exact Or.inr ⟨_, b, rfl, rfl, rfl, h⟩

theorem mem_hourM {s t r : Str} : (t, r) ∈ hourM s ↔ s = t ++ r ∧ Spec.HourText t := by
  unfold hourM Spec.HourText
  simp only [List.mem_append, mem_twoChr, mem_oneChr, inRange_self]
  simp only [inRange_iff]
  constructor
  · rintro ((⟨a, b, rfl, rfl, rfl, h⟩ | ⟨a, b, rfl, rfl, h1, h⟩) | ⟨b, rfl, rfl, h⟩)
    · exact ⟨rfl, Or.inl ⟨b, rfl, h⟩⟩
    · exact ⟨rfl, Or.inr (Or.inl ⟨a, b, rfl, h1, h⟩)⟩
    · exact ⟨rfl, Or.inr (Or.inr ⟨b, rfl, h⟩)⟩
  · rintro ⟨rfl, ⟨b, rfl, h⟩ | ⟨a, b, rfl, h1, h⟩ | ⟨b, rfl, h⟩⟩
    · exact Or.inl (Or.inl ⟨_, b, rfl, rfl, rfl, h⟩)
    · exact Or.inl (Or.inr ⟨_, b, rfl, rfl, h1, h⟩)
    · exact Or.inr ⟨b, rfl, rfl, h⟩

theorem mem_minuteM {s t r : Str} : (t, r) ∈ minuteM s ↔ s = t ++ r ∧ Spec.SixtyText t := by
  unfold minuteM Spec.SixtyText
  simp only [List.mem_append, mem_twoChr, mem_oneChr]
  simp only [inRange_iff]
  constructor
  · rintro (⟨a, b, rfl, rfl, h1, h⟩ | ⟨b, rfl, rfl, h⟩)
    · exact ⟨rfl, Or.inl ⟨a, b, rfl, h1, h⟩⟩
    · exact ⟨rfl, Or.inr ⟨b, rfl, h⟩⟩
  · rintro ⟨rfl, ⟨a, b, rfl, h1, h⟩ | ⟨b, rfl, h⟩⟩
    · exact Or.inl ⟨_, b, rfl, rfl, h1, h⟩
    · exact Or.inr ⟨b, rfl, rfl, h⟩

theorem mem_secondM {s t r : Str} :
    (t, r) ∈ secondM s ↔ s = t ++ r ∧ ((∃ b, t = [c!"6", b] ∧ Spec.Among c!"0" c!"1" b) ∨ Spec.SixtyText t) := by
  unfold secondM Spec.SixtyText
  simp only [List.mem_append, mem_twoChr, mem_oneChr, inRange_self]
  simp only [inRange_iff]
  constructor
  · rintro ((⟨a, b, rfl, rfl, rfl, h⟩ | ⟨a, b, rfl, rfl, h1, h⟩) | ⟨b, rfl, rfl, h⟩)
    · exact ⟨rfl, Or.inl ⟨b, rfl, h⟩⟩
    · exact ⟨rfl, Or.inr (Or.inl ⟨a, b, rfl, h1, h⟩)⟩
    · exact ⟨rfl, Or.inr (Or.inr ⟨b, rfl, h⟩)⟩
  · rintro ⟨rfl, ⟨b, rfl, h⟩ | ⟨a, b, rfl, h1, h⟩ | ⟨b, rfl, h⟩⟩
    · exact Or.inl (Or.inl ⟨_, b, rfl, rfl, rfl, h⟩)
    · exact Or.inl (Or.inr ⟨_, b, rfl, rfl, h1, h⟩)
    · exact Or.inr ⟨b, rfl, rfl, h⟩

theorem mem_spacesM {s : Str} : ∀ {t r : Str}, (t, r) ∈ spacesM s ↔ s = t ++ r ∧ t ≠ [] ∧ ∀ c ∈ t, isSpace c = true := by
  induction s with
  | nil =>
    intro t r
    simp only [spacesM, List.not_mem_nil, false_iff]
    rintro ⟨e, hne, _⟩
    exact hne (List.append_eq_nil_iff.1 e.symm).1
  | cons a s ih =>
    intro t r
    unfold spacesM
    by_cases h : isSpace a = true
    · rw [if_pos h]
      simp only [List.mem_append, List.mem_map, List.mem_singleton, Prod.mk.injEq]
      constructor
      · rintro (⟨⟨x, y⟩, hm, rfl, rfl⟩ | ⟨rfl, rfl⟩)
        · obtain ⟨rfl, _, hs⟩ := ih.1 hm
          exact ⟨rfl, by simp, by simpa [h] using hs⟩
        · exact ⟨rfl, by simp, by simp [h]⟩
      · rintro ⟨e, hne, hs⟩
        rcases t with _ | ⟨b, t⟩
        · exact absurd rfl hne
        · rw [List.cons_append, List.cons.injEq] at e
          obtain ⟨rfl, rfl⟩ := e
          cases t with
          | nil => exact Or.inr ⟨rfl, rfl⟩
          | cons x t =>
            exact Or.inl ⟨(x :: t, r), ih.2 ⟨rfl, by simp, fun c hc => hs c (List.mem_cons_of_mem _ hc)⟩, rfl, rfl⟩
    · rw [if_neg h]
      simp only [List.not_mem_nil, false_iff]
      rintro ⟨e, hne, hs⟩
      rcases t with _ | ⟨b, t⟩
      · exact hne rfl
      · rw [List.cons_append, List.cons.injEq] at e
        obtain ⟨rfl, rfl⟩ := e
        exact h (hs _ (by simp))

theorem mem_followed {sep : Chr} {m : Matcher} {s t r : Str} : (t, r) ∈ followed sep m s ↔ (t, sep :: r) ∈ m s := by
  unfold followed
  rw [List.mem_filterMap]
  constructor
  · rintro ⟨⟨x, y⟩, hm, h⟩
    cases y with
    | nil => simp at h
    | cons c y =>
      by_cases hc : c = sep
      · simp only [hc, if_true, Option.some.injEq, Prod.mk.injEq] at h
        obtain ⟨rfl, rfl⟩ := h
        rw [← hc]; exact hm
      · simp [hc] at h
  · intro h
    exact ⟨(t, sep :: r), h, by simp⟩

/-! ### The parts of a text -/

/-- The parts of a text before the seconds. -/
structure Parts (s : Str) (y mo d w h mi r : Str) : Prop where
  eq : s = y ++ c!"-" :: (mo ++ c!"-" :: (d ++ (w ++ (h ++ c!":" :: (mi ++ c!":" :: r)))))
  year : y.length = 4
  month : ∀ c ∈ mo, isDigit c = true
  day : (∃ x ds, d = x :: ds ∧ ∀ c ∈ d, isDigit c = true) ∨ ∃ x, d = [c!" ", x]
  space : w ≠ [] ∧ ∀ c ∈ w, isSpace c = true
  hour : h ≠ [] ∧ ∀ c ∈ h, isDigit c = true
  minute : ∀ c ∈ mi, isDigit c = true

theorem span_unique {p : Chr → Bool} {t t' r r' : Str} (ht : ∀ c ∈ t, p c = true) (ht' : ∀ c ∈ t', p c = true)
    (hr : ∀ c, r.head? = some c → p c = false) (hr' : ∀ c, r'.head? = some c → p c = false)
    (e : t ++ r = t' ++ r') : t = t' ∧ r = r' := by
  induction t generalizing t' with
  | nil =>
    cases t' with
    | nil => exact ⟨rfl, e⟩
    | cons a t' =>
      rw [List.nil_append] at e
      rw [e] at hr
      have := hr a rfl
      rw [ht' a (by simp)] at this
      exact absurd this (by simp)
  | cons a t ih =>
    cases t' with
    | nil =>
      rw [List.nil_append] at e
      rw [← e] at hr'
      have := hr' a rfl
      rw [ht a (by simp)] at this
      exact absurd this (by simp)
    | cons b t' =>
      rw [List.cons_append, List.cons_append, List.cons.injEq] at e
      obtain ⟨rfl, e⟩ := e
      obtain ⟨rfl, h2⟩ := ih (fun c hc => ht c (List.mem_cons_of_mem _ hc)) (fun c hc => ht' c (List.mem_cons_of_mem _ hc)) e
      exact ⟨rfl, h2⟩

theorem digit_not_space {c : Chr} (h : isDigit c = true) : isSpace c = false := (isDigit_plain h).1

theorem space_not_digit {c : Chr} (h : isSpace c = true) : isDigit c = false := by
  cases hd : isDigit c with
  | false => rfl
  | true => rw [digit_not_space hd] at h; exact absurd h (by simp)

theorem parts_unique {s y mo d w h mi r y' mo' d' w' h' mi' r' : Str} (p : Parts s y mo d w h mi r) (p' : Parts s y' mo' d' w' h' mi' r') :
    y = y' ∧ mo = mo' ∧ d = d' ∧ w = w' ∧ h = h' ∧ mi = mi' ∧ r = r' := by
  have e0 := p.eq.symm.trans p'.eq
  obtain ⟨rfl, e1⟩ := List.append_inj e0 (by rw [p.year, p'.year])
  rw [List.cons.injEq] at e1
  obtain ⟨rfl, e2⟩ := span_unique p.month p'.month (by intro c hc; cases hc; decide +kernel) (by intro c hc; cases hc; decide +kernel) e1.2
  rw [List.cons.injEq] at e2
  have e := e2.2
  have key : d = d' ∧ w ++ (h ++ c!":" :: (mi ++ c!":" :: r)) = w' ++ (h' ++ c!":" :: (mi' ++ c!":" :: r')) := by
    have hsp : ∀ {w : Str} {t : Str}, w ≠ [] ∧ (∀ c ∈ w, isSpace c = true) → ∀ c, (w ++ t).head? = some c → isDigit c = false := by
      rintro w t ⟨hne, hs⟩ c hc
      cases w with
      | nil => exact absurd rfl hne
      | cons a w =>
        rw [List.cons_append, List.head?_cons, Option.some.injEq] at hc
        subst hc
        exact space_not_digit (hs a (by simp))
    have hbl : isDigit c!" " = false := by decide +kernel
    rcases p.day with ⟨x, ds, hd, hdd⟩ | ⟨x, hd⟩ <;> rcases p'.day with ⟨x', ds', hd', hdd'⟩ | ⟨x', hd'⟩
    · exact span_unique hdd hdd' (hsp p.space) (hsp p'.space) e
    · rw [hd, hd'] at e
      simp only [List.cons_append, List.cons.injEq] at e
      have := hdd x (by simp [hd])
      rw [e.1, hbl] at this
      exact absurd this (by simp)
    · rw [hd, hd'] at e
      simp only [List.cons_append, List.cons.injEq] at e
      have := hdd' x' (by simp [hd'])
      rw [← e.1, hbl] at this
      exact absurd this (by simp)
    · rw [hd, hd'] at e ⊢
      simp only [List.cons_append, List.nil_append, List.cons.injEq, true_and] at e
      exact ⟨by rw [e.1], e.2⟩
  obtain ⟨rfl, e3⟩ := key
  have hdg : ∀ {h t : Str}, h ≠ [] ∧ (∀ c ∈ h, isDigit c = true) → ∀ c, (h ++ t).head? = some c → isSpace c = false := by
    rintro h t ⟨hne, hs⟩ c hc
    cases h with
    | nil => exact absurd rfl hne
    | cons a w =>
      rw [List.cons_append, List.head?_cons, Option.some.injEq] at hc
      subst hc
      exact digit_not_space (hs a (by simp))
  obtain ⟨rfl, e4⟩ := span_unique p.space.2 p'.space.2 (hdg p.hour) (hdg p'.hour) e3
  obtain ⟨rfl, e5⟩ := span_unique p.hour.2 p'.hour.2 (by intro c hc; cases hc; decide +kernel) (by intro c hc; cases hc; decide +kernel) e4
  rw [List.cons.injEq] at e5
  obtain ⟨rfl, e6⟩ := span_unique p.minute p'.minute (by intro c hc; cases hc; decide +kernel) (by intro c hc; cases hc; decide +kernel) e5.2
  rw [List.cons.injEq] at e6
  exact ⟨rfl, rfl, rfl, rfl, rfl, rfl, e6.2⟩

theorem among_isDigit {lo hi c : Chr} (h : Spec.Among lo hi c) (h1 : 0x30 ≤ lo) (h2 : hi ≤ 0x39) : isDigit c = true :=
  isDigit_ascii ⟨Nat.le_trans h1 h.1, Nat.le_trans h.2 h2⟩

theorem monthText_digits {s : Str} (h : Spec.MonthText s) : ∀ c ∈ s, isDigit c = true := by
  rcases h with ⟨b, rfl, hb⟩ | ⟨b, rfl, hb⟩ | ⟨b, rfl, hb⟩
  all_goals
    have := among_isDigit hb (by decide) (by decide)
    simp [this]
    try decide +kernel

theorem dayText_parts {s : Str} (h : Spec.DayText s) : (∃ x ds, s = x :: ds ∧ ∀ c ∈ s, isDigit c = true) ∨ ∃ x, s = [c!" ", x] := by
  rcases h with ⟨b, rfl, hb⟩ | ⟨a, b, rfl, ha, hb⟩ | ⟨b, rfl, hb⟩ | ⟨b, rfl, hb⟩ | ⟨b, rfl, hb⟩
  · have := among_isDigit hb (by decide) (by decide)
    exact Or.inl ⟨_, _, rfl, by simp [this]; decide +kernel⟩
  · have := among_isDigit ha (by decide) (by decide)
    exact Or.inl ⟨_, _, rfl, by simp [this, hb]⟩
  · have := among_isDigit hb (by decide) (by decide)
    exact Or.inl ⟨_, _, rfl, by simp [this]; decide +kernel⟩
  · have := among_isDigit hb (by decide) (by decide)
    exact Or.inl ⟨_, _, rfl, by simp [this]⟩
  · exact Or.inr ⟨b, rfl⟩

theorem hourText_digits {s : Str} (h : Spec.HourText s) : s ≠ [] ∧ ∀ c ∈ s, isDigit c = true := by
  rcases h with ⟨b, rfl, hb⟩ | ⟨a, b, rfl, ha, hb⟩ | ⟨b, rfl, hb⟩
  · have := among_isDigit hb (by decide) (by decide)
    exact ⟨by simp, by simp [this]; decide +kernel⟩
  · have := among_isDigit ha (by decide) (by decide)
    exact ⟨by simp, by simp [this, hb]⟩
  · exact ⟨by simp, by simp [hb]⟩

theorem sixtyText_digits {s : Str} (h : Spec.SixtyText s) : s ≠ [] ∧ ∀ c ∈ s, isDigit c = true := by
  rcases h with ⟨a, b, rfl, ha, hb⟩ | ⟨b, rfl, hb⟩
  · have := among_isDigit ha (by decide) (by decide)
    exact ⟨by simp, by simp [this, hb]⟩
  · exact ⟨by simp, by simp [hb]⟩

theorem mem_stampPrefixes {s y mo d h mi r : Str} :
    ((y, mo, d, h, mi), r) ∈ stampPrefixes s ↔
      ∃ w, Parts s y mo d w h mi r ∧ (∀ c ∈ y, isDigit c = true) ∧ Spec.MonthText mo ∧ Spec.DayText d ∧ Spec.HourText h ∧ Spec.SixtyText mi := by
  unfold stampPrefixes
  simp only [List.mem_flatMap, List.mem_map, Prod.exists, mem_followed, mem_yearM, mem_monthM, mem_dayM, mem_spacesM, mem_hourM, mem_minuteM,
    Prod.mk.injEq]
  constructor
  · rintro ⟨y', r1, ⟨rfl, hy, hyd⟩, mo', r2, ⟨rfl, hmo⟩, d', r3, ⟨rfl, hd⟩, w, r4, ⟨rfl, hw⟩, h', r5, ⟨rfl, hh⟩, mi', r6, ⟨rfl, hmi⟩,
      ⟨rfl, rfl, rfl, rfl, rfl⟩, rfl⟩
    exact ⟨w, ⟨rfl, hy, monthText_digits hmo, dayText_parts hd, hw, hourText_digits hh, (sixtyText_digits hmi).2⟩, hyd, hmo, hd, hh, hmi⟩
  · rintro ⟨w, p, hyd, hmo, hd, hh, hmi⟩
    exact ⟨y, _, ⟨p.eq, p.year, hyd⟩, mo, _, ⟨rfl, hmo⟩, d, _, ⟨rfl, hd⟩, w, _, ⟨rfl, p.space⟩, h, _, ⟨rfl, hh⟩, mi, _, ⟨rfl, hmi⟩,
      ⟨rfl, rfl, rfl, rfl, rfl⟩, rfl⟩

/-- The first match, given the parts before the seconds. -/
theorem stampMatches_head {s y mo d h mi r : Str} (hp : ((y, mo, d, h, mi), r) ∈ stampPrefixes s) :
    (stampMatches s).head? = (secondM r).head?.map (fun x => (((y, mo, d, h, mi), x.1), x.2)) := by
  have huniq : ∀ q ∈ stampPrefixes s, q = ((y, mo, d, h, mi), r) := by
    rintro ⟨⟨y', mo', d', h', mi'⟩, r'⟩ hq
    obtain ⟨w, p, _⟩ := mem_stampPrefixes.1 hp
    obtain ⟨w', p', _⟩ := mem_stampPrefixes.1 hq
    obtain ⟨rfl, rfl, rfl, rfl, rfl, rfl, rfl⟩ := parts_unique p p'
    rfl
  unfold stampMatches
  cases hl : stampPrefixes s with
  | nil => rw [hl] at hp; exact absurd hp (by simp)
  | cons q l =>
    rw [hl] at huniq
    rw [List.flatMap_cons, huniq q (by simp)]
    cases hs : secondM r with
    | cons x xs => simp
    | nil =>
      have : l.flatMap (fun p => (secondM p.2).map fun sec => ((p.1, sec.1), sec.2)) = [] := by
        rw [List.flatMap_eq_nil_iff]
        intro p hpl
        rw [huniq p (List.mem_cons_of_mem _ hpl), hs]; rfl
      simp [this]

theorem secondM_head {r : Str} (h : Spec.SixtyText r) : (secondM r).head? = some (r, []) := by
  rcases h with ⟨a, b, rfl, ha, hb⟩ | ⟨b, rfl, hb⟩
  · have h6 : inRange c!"6" c!"6" a = false := by
      cases h : inRange c!"6" c!"6" a with
      | false => rfl
      | true => rw [inRange_self] at h; subst h; exact absurd ha.2 (by decide)
    simp [secondM, twoChr, h6, inRange_iff.2 ha, hb]
  · simp [secondM, twoChr, oneChr, hb]

/-! ### The calendar -/

theorem new_iff {y m d h mi s : Int} {t : DateTime} :
    DateTime.new y m d h mi s = .ok t ↔ t = ⟨y, m, d, h, mi, s⟩ ∧ Spec.RealTime t := by
  have hm : 1 ≤ m ∧ m ≤ 12 → (d ≤ daysInMonth y m ↔
      (d ≤ Spec.monthLengths.getD (m.toNat - 1) 0 ∨ (m = 2 ∧ Spec.LeapYear y ∧ d = 29))) := by
    rintro ⟨h1, h2⟩
    have hc : m = 1 ∨ m = 2 ∨ m = 3 ∨ m = 4 ∨ m = 5 ∨ m = 6 ∨ m = 7 ∨ m = 8 ∨ m = 9 ∨ m = 10 ∨ m = 11 ∨ m = 12 := by omega
    have hleap : isLeap y = true ↔ Spec.LeapYear y := by
      unfold isLeap Spec.LeapYear; rw [decide_eq_true_eq]; omega
    rcases hc with rfl | rfl | rfl | rfl | rfl | rfl | rfl | rfl | rfl | rfl | rfl | rfl
    all_goals simp [daysInMonth, Spec.monthLengths]
    by_cases hy : Spec.LeapYear y
    · rw [if_pos (hleap.2 hy)]
      simp only [hy, true_and]
      omega
    · rw [if_neg (fun h => hy (hleap.1 h))]
      simp [hy]
  constructor
  · intro hn
    unfold DateTime.new at hn
    repeat (split at hn <;> [skip; exact absurd hn (by simp)])
    rename_i a1 a2 a3 a4 a5 a6
    simp only [Except.ok.injEq] at hn
    subst hn
    exact ⟨rfl, a1, a2, ⟨a3.1, (hm a2).1 a3.2⟩, a4, a5, a6⟩
  · rintro ⟨rfl, r⟩
    unfold DateTime.new
    rw [if_pos r.year, if_pos r.month, if_pos ⟨r.day.1, (hm r.month).2 r.day.2⟩, if_pos r.hour, if_pos r.minute, if_pos r.second]

theorem new_error {y m d h mi s : Int} {e : PyErr} (hn : DateTime.new y m d h mi s = .error e) : e = .valueError := by
  unfold DateTime.new at hn
  repeat (split at hn <;> [skip; (cases hn; rfl)])
  cases hn

/-! ### C108 -/

theorem strptime_iff {s : Str} {t : DateTime} : strptime s = .ok t ↔ Spec.TimeText s t := by
  constructor
  · intro h
    unfold strptime at h
    split at h
    · cases h
    · rename_i y mo d hh mi sec rest heq
      split at h
      · cases h
      · rename_i hrest
        have hrest : rest = [] := Classical.not_not.1 hrest
        subst hrest
        have hmem := List.mem_of_mem_head? (Option.mem_def.2 heq)
        unfold stampMatches at hmem
        simp only [List.mem_flatMap, List.mem_map] at hmem
        obtain ⟨⟨⟨y', mo', d', h', mi'⟩, r⟩, hp, ⟨x1, x2⟩, hx, he⟩ := hmem
        simp only [Prod.mk.injEq] at he
        obtain ⟨⟨⟨rfl, rfl, rfl, rfl, rfl⟩, rfl⟩, rfl⟩ := he
        obtain ⟨w, p, hyd, hmo, hd, hhh, hmi⟩ := mem_stampPrefixes.1 hp
        obtain ⟨hr, hsec⟩ := mem_secondM.1 hx
        rw [List.append_nil] at hr
        simp only at hr
        subst hr
        simp only [bind_eq_ok] at h
        obtain ⟨iy, hiy, im, him, id, hid, ih, hih, imi, himi, isec, hisec, hnew⟩ := h
        obtain ⟨rfl, real⟩ := new_iff.1 hnew
        refine ⟨_, _, _, w, _, _, _, ?_, ⟨p.year, hyd⟩, hmo, hd, p.space, hhh, hmi, ?_, hiy, him, hid, hih, himi, hisec, real⟩
        · rw [p.eq]; simp
        · rcases hsec with ⟨b, rfl, hb⟩ | hsec
          · exfalso
            have hdg : ∀ c ∈ [c!"6", b], AsciiDigit c := by
              intro c hc
              simp only [List.mem_cons, List.not_mem_nil, or_false] at hc
              rcases hc with rfl | rfl
              · exact ⟨by decide, by decide⟩
              · exact ⟨hb.1, Nat.le_trans hb.2 (by decide)⟩
            rw [pyInt_of_digits (by simp) hdg] at hisec
            cases hisec
            have := real.second.2
            simp at this
            omega
          · exact hsec
  · rintro ⟨y, mo, d, w, h, mi, sec, rfl, ⟨hy, hyd⟩, hmo, hd, hw, hh, hmi, hsec, e1, e2, e3, e4, e5, e6, real⟩
    have hp : ((y, mo, d, h, mi), sec) ∈
        stampPrefixes (y ++ u!"-" ++ mo ++ u!"-" ++ d ++ w ++ h ++ u!":" ++ mi ++ u!":" ++ sec) :=
      mem_stampPrefixes.2 ⟨w, ⟨by simp, hy, monthText_digits hmo, dayText_parts hd, hw, hourText_digits hh, (sixtyText_digits hmi).2⟩,
        hyd, hmo, hd, hh, hmi⟩
    unfold strptime
    rw [stampMatches_head hp, secondM_head hsec]
    simp only [Option.map_some, ne_eq, not_true_eq_false, if_false, e1, e2, e3, e4, e5, e6]
    exact new_iff.2 ⟨rfl, real⟩

theorem strptime_error {s : Str} {e : PyErr} (h : strptime s = .error e) : e = .valueError := by
  unfold strptime at h
  split at h
  · cases h; rfl
  · split at h
    · cases h; rfl
    · rename_i y mo d hh mi sec rest _ _
      cases h1 : pyInt 10 y with
      | error x => rw [h1] at h; cases h; exact pyInt_error h1
      | ok i1 =>
      cases h2 : pyInt 10 mo with
      | error x => rw [h1, h2] at h; cases h; exact pyInt_error h2
      | ok i2 =>
      cases h3 : pyInt 10 d with
      | error x => rw [h1, h2, h3] at h; cases h; exact pyInt_error h3
      | ok i3 =>
      cases h4 : pyInt 10 hh with
      | error x => rw [h1, h2, h3, h4] at h; cases h; exact pyInt_error h4
      | ok i4 =>
      cases h5 : pyInt 10 mi with
      | error x => rw [h1, h2, h3, h4, h5] at h; cases h; exact pyInt_error h5
      | ok i5 =>
      cases h6 : pyInt 10 sec with
      | error x => rw [h1, h2, h3, h4, h5, h6] at h; cases h; exact pyInt_error h6
      | ok i6 => rw [h1, h2, h3, h4, h5, h6] at h; exact new_error h

theorem timeText_not_null {s : Str} {t : DateTime} (h : Spec.TimeText s t) : s ≠ u!"\\N" ∧ s ≠ u!"0000-00-00 00:00:00" := by
  have h' := strptime_iff.2 h
  constructor
  · rintro rfl
    rw [show strptime u!"\\N" = .error .valueError by decide +kernel] at h'
    cases h'
  · rintro rfl
    rw [show strptime u!"0000-00-00 00:00:00" = .error .valueError by decide +kernel] at h'
    cases h'

/-- C108: a date is read as a time iff it is a text for that time. -/
theorem C108_exact (s : Str) (t : DateTime) : parseDate strptime s = .ok (some t) ↔ Spec.TimeText s t := by
  constructor
  · intro h
    unfold parseDate at h
    split at h
    · cases h
    · split at h
      · cases h
      · rename_i d hd
        simp only [Except.ok.injEq, Option.some.injEq] at h
        rw [← h]; exact strptime_iff.1 hd
  · intro h
    obtain ⟨h1, h2⟩ := timeText_not_null h
    unfold parseDate
    rw [if_neg (by simp [h1, h2]), strptime_iff.2 h]

/-- C108: no date is read exactly from the two texts for a missing one. -/
theorem C108_missing (s : Str) : parseDate strptime s = .ok none ↔ s = u!"\\N" ∨ s = u!"0000-00-00 00:00:00" := by
  unfold parseDate
  split
  · rename_i h; simp [h]
  · rename_i h
    simp only [h, iff_false]
    cases strptime s <;> simp

/-- C108: every other text gives ValueError. -/
theorem C108_error (s : Str) : parseDate strptime s = .error .valueError ↔
    s ≠ u!"\\N" ∧ s ≠ u!"0000-00-00 00:00:00" ∧ ∀ t, ¬ Spec.TimeText s t := by
  have hm := C108_missing s
  have he := C108_exact s
  cases h : parseDate strptime s with
  | ok o =>
    rw [h] at hm he
    cases o with
    | none => have := hm.1 rfl; simp only [reduceCtorEq, false_iff]; rintro ⟨h1, h2, _⟩; exact this.elim h1 h2
    | some t => simp only [reduceCtorEq, false_iff]; rintro ⟨_, _, h3⟩; exact h3 t ((he t).1 rfl)
  | error e =>
    rw [parseDate_error (fun _ _ => strptime_error) h]
    rw [h] at hm he
    simp only [reduceCtorEq, false_iff, true_iff] at hm he ⊢
    exact ⟨fun e1 => hm (Or.inl e1), fun e1 => hm (Or.inr e1), he⟩

/-! ### The form of the exports -/

theorem digit_ascii (n : Nat) : AsciiDigit (Spec.digit n) := by unfold AsciiDigit Spec.digit; omega

theorem two_digits (n : Nat) : ∀ c ∈ Spec.two n, AsciiDigit c := by
  intro c hc
  simp only [Spec.two, List.mem_cons, List.not_mem_nil, or_false] at hc
  rcases hc with rfl | rfl <;> exact digit_ascii _

theorem pyInt_two {n : Nat} (h : n < 100) : pyInt 10 (Spec.two n) = .ok (n : Int) := by
  rw [pyInt_of_digits (by simp [Spec.two]) (two_digits n)]
  simp only [Spec.two, Spec.digit, List.foldl_cons, List.foldl_nil]
  congr 1
  show ((_ : Nat) : Int) = (n : Int)
  congr 1
  omega

theorem pyInt_four {n : Nat} (h : n < 10000) : pyInt 10 (Spec.two (n / 100) ++ Spec.two n) = .ok (n : Int) := by
  rw [pyInt_of_digits (by simp [Spec.two]) (by
    intro c hc
    rcases List.mem_append.1 hc with hc | hc <;> exact two_digits _ c hc)]
  simp only [Spec.two, Spec.digit, List.cons_append, List.nil_append, List.foldl_cons, List.foldl_nil]
  congr 1
  show ((_ : Nat) : Int) = (n : Int)
  congr 1
  omega

theorem two_month {n : Nat} (h : 1 ≤ n ∧ n ≤ 12) : Spec.MonthText (Spec.two n) := by
  unfold Spec.MonthText Spec.two Spec.Among
  by_cases h10 : 10 ≤ n
  · refine Or.inl ⟨Spec.digit n, ?_, ?_⟩
    · congr 1; unfold Spec.digit; omega
    · unfold Spec.digit; omega
  · refine Or.inr (Or.inl ⟨Spec.digit n, ?_, ?_⟩)
    · congr 1; unfold Spec.digit; omega
    · unfold Spec.digit; omega

theorem two_day {n : Nat} (h : 1 ≤ n ∧ n ≤ 31) : Spec.DayText (Spec.two n) := by
  unfold Spec.DayText Spec.two Spec.Among
  by_cases h30 : 30 ≤ n
  · refine Or.inl ⟨Spec.digit n, ?_, ?_⟩
    · congr 1; unfold Spec.digit; omega
    · unfold Spec.digit; omega
  · by_cases h10 : 10 ≤ n
    · refine Or.inr (Or.inl ⟨Spec.digit (n / 10), Spec.digit n, rfl, ?_, isDigit_ascii (digit_ascii n)⟩)
      unfold Spec.digit; omega
    · refine Or.inr (Or.inr (Or.inl ⟨Spec.digit n, ?_, ?_⟩))
      · congr 1; unfold Spec.digit; omega
      · unfold Spec.digit; omega

theorem two_hour {n : Nat} (h : n ≤ 23) : Spec.HourText (Spec.two n) := by
  unfold Spec.HourText Spec.two Spec.Among
  by_cases h20 : 20 ≤ n
  · refine Or.inl ⟨Spec.digit n, ?_, ?_⟩
    · congr 1; unfold Spec.digit; omega
    · unfold Spec.digit; omega
  · refine Or.inr (Or.inl ⟨Spec.digit (n / 10), Spec.digit n, rfl, ?_, isDigit_ascii (digit_ascii n)⟩)
    unfold Spec.digit; omega

theorem two_sixty {n : Nat} (h : n ≤ 59) : Spec.SixtyText (Spec.two n) := by
  unfold Spec.SixtyText Spec.two Spec.Among
  refine Or.inl ⟨Spec.digit (n / 10), Spec.digit n, rfl, ?_, isDigit_ascii (digit_ascii n)⟩
  unfold Spec.digit; omega

theorem two_parts (n : Nat) : ∀ c ∈ Spec.two n, isDigit c = true := fun c hc => isDigit_ascii (two_digits n c hc)

theorem fixedForm_parts (y mo d h mi s : Nat) :
    Parts (Spec.fixedForm y mo d h mi s) (Spec.two (y / 100) ++ Spec.two y) (Spec.two mo) (Spec.two d) u!" " (Spec.two h) (Spec.two mi) (Spec.two s) := by
  refine ⟨by simp [Spec.fixedForm], rfl, two_parts mo, Or.inl ⟨_, _, rfl, two_parts d⟩, ⟨by simp, by decide⟩, ⟨by simp [Spec.two], two_parts h⟩, two_parts mi⟩

theorem timeText_parts {s : Str} {t : DateTime} (h : Spec.TimeText s t) : ∃ y mo d w h mi sec, Parts s y mo d w h mi sec ∧
    pyInt 10 y = .ok t.year ∧ pyInt 10 mo = .ok t.month ∧ pyInt 10 d = .ok t.day ∧
    pyInt 10 h = .ok t.hour ∧ pyInt 10 mi = .ok t.minute ∧ pyInt 10 sec = .ok t.second ∧ Spec.RealTime t := by
  obtain ⟨y, mo, d, w, h, mi, sec, rfl, ⟨hy, hyd⟩, hmo, hd, hw, hh, hmi, hsec, e⟩ := h
  exact ⟨y, mo, d, w, h, mi, sec,
    ⟨by simp, hy, monthText_digits hmo, dayText_parts hd, hw, hourText_digits hh, (sixtyText_digits hmi).2⟩, e⟩

theorem monthLengths_le (m : Nat) : Spec.monthLengths.getD m 0 ≤ 31 := by
  by_cases h : m < 12
  · have : ∀ m < 12, Spec.monthLengths.getD m 0 ≤ 31 := by decide
    exact this m h
  · rw [List.getD_eq_getElem?_getD, List.getElem?_eq_none (by simp [Spec.monthLengths]; omega)]; decide

theorem realTime_day {t : DateTime} (h : Spec.RealTime t) : t.day ≤ 31 := by
  have h2 := h.day.2
  have := monthLengths_le (t.month.toNat - 1)
  omega

theorem fixedForm_text {y mo d h mi s : Nat} (hy : y < 10000) (hmo : mo < 100) (hd : d < 100) (hh : h < 100) (hmi : mi < 100) (hs : s < 100)
    (t : DateTime) : Spec.TimeText (Spec.fixedForm y mo d h mi s) t ↔ t = ⟨y, mo, d, h, mi, s⟩ ∧ Spec.RealTime t := by
  constructor
  · intro ht
    obtain ⟨y', mo', d', w, h', mi', sec, p, e1, e2, e3, e4, e5, e6, real⟩ := timeText_parts ht
    obtain ⟨rfl, rfl, rfl, rfl, rfl, rfl, rfl⟩ := parts_unique p (fixedForm_parts y mo d h mi s)
    rw [pyInt_four hy] at e1
    rw [pyInt_two hmo] at e2
    rw [pyInt_two hd] at e3
    rw [pyInt_two hh] at e4
    rw [pyInt_two hmi] at e5
    rw [pyInt_two hs] at e6
    obtain ⟨a, b, c, d, e, f⟩ := t
    simp only [Except.ok.injEq] at e1 e2 e3 e4 e5 e6
    subst e1 e2 e3 e4 e5 e6
    exact ⟨rfl, real⟩
  · rintro ⟨rfl, real⟩
    have r1 := real.month
    have r2 := real.day.1
    have r3 := realTime_day real
    have r4 := real.hour
    have r5 := real.minute
    have r6 := real.second
    simp only at r1 r2 r3 r4 r5 r6
    refine ⟨_, _, _, u!" ", _, _, _, rfl, ⟨rfl, ?_⟩, two_month (by omega), two_day (by omega), ⟨by simp, by decide⟩, two_hour (by omega), two_sixty (by omega),
      two_sixty (by omega), pyInt_four hy, pyInt_two hmo, pyInt_two hd, pyInt_two hh, pyInt_two hmi, pyInt_two hs, real⟩
    intro c hc
    rcases List.mem_append.1 hc with hc | hc <;> exact two_parts _ c hc

theorem digit_eq_zero {n : Nat} (h : Spec.digit n = 0x30) : n % 10 = 0 := by unfold Spec.digit at h; omega

/-- C108: what is read from any six numbers in the form of the exports: nothing if all are zero, the time if there is such a time, else ValueError. -/
theorem C108_fixed_form {y mo d h mi s : Nat} (hy : y < 10000) (hmo : mo < 100) (hd : d < 100) (hh : h < 100) (hmi : mi < 100) (hs : s < 100) :
    (y = 0 ∧ mo = 0 ∧ d = 0 ∧ h = 0 ∧ mi = 0 ∧ s = 0 → parseDate strptime (Spec.fixedForm y mo d h mi s) = .ok none) ∧
    (Spec.RealTime ⟨y, mo, d, h, mi, s⟩ → parseDate strptime (Spec.fixedForm y mo d h mi s) = .ok (some ⟨y, mo, d, h, mi, s⟩)) ∧
    (¬ (y = 0 ∧ mo = 0 ∧ d = 0 ∧ h = 0 ∧ mi = 0 ∧ s = 0) → ¬ Spec.RealTime ⟨y, mo, d, h, mi, s⟩ →
      parseDate strptime (Spec.fixedForm y mo d h mi s) = .error .valueError) := by
  refine ⟨?_, ?_, ?_⟩
  · rintro ⟨rfl, rfl, rfl, rfl, rfl, rfl⟩
    rw [C108_missing]; exact Or.inr (by decide +kernel)
  · intro real
    exact (C108_exact _ _).2 ((fixedForm_text hy hmo hd hh hmi hs _).2 ⟨rfl, real⟩)
  · intro hz hr
    rw [C108_error]
    refine ⟨?_, ?_, ?_⟩
    · intro e
      have := congrArg List.length e
      simp [Spec.fixedForm, Spec.two] at this
    · intro e
      apply hz
      simp only [Spec.fixedForm, Spec.two, List.cons_append, List.nil_append, List.cons.injEq, and_true, true_and] at e
      obtain ⟨a1, a2, a3, a4, b1, b2, c1, c2, d1, d2, e1, e2, f1, f2⟩ := e
      have := digit_eq_zero a1; have := digit_eq_zero a2; have := digit_eq_zero a3; have := digit_eq_zero a4
      have := digit_eq_zero b1; have := digit_eq_zero b2; have := digit_eq_zero c1; have := digit_eq_zero c2
      have := digit_eq_zero d1; have := digit_eq_zero d2; have := digit_eq_zero e1; have := digit_eq_zero e2
      have := digit_eq_zero f1; have := digit_eq_zero f2
      omega
    · intro t ht
      obtain ⟨rfl, real⟩ := (fixedForm_text hy hmo hd hh hmi hs t).1 ht
      exact hr real

/-- C108: a time written in the form of the exports is read back. -/
theorem C108_read_back {t : DateTime} (h : Spec.RealTime t) : parseDate strptime (Spec.stamp t) = .ok (some t) := by
  have h0 := h.year
  have h1 := h.month
  have h2 := h.day.1
  have h3 := realTime_day h
  have h4 := h.hour
  have h5 := h.minute
  have h6 := h.second
  have key : t = ⟨(t.year.toNat : Int), (t.month.toNat : Int), (t.day.toNat : Int), (t.hour.toNat : Int), (t.minute.toNat : Int), (t.second.toNat : Int)⟩ := by
    obtain ⟨a, b, c, d, e, f⟩ := t
    simp only at *
    simp only [DateTime.mk.injEq]
    omega
  have := (C108_fixed_form (y := t.year.toNat) (mo := t.month.toNat) (d := t.day.toNat) (h := t.hour.toNat) (mi := t.minute.toNat) (s := t.second.toNat)
    (by omega) (by omega) (by omega) (by omega) (by omega) (by omega)).2.1 (by rw [← key]; exact h)
  rw [← key] at this
  exact this

theorem stamp_written {t : DateTime} (h : Spec.RealTime t) :
    strptime (Spec.stamp t) = .ok t ∧ Spec.stamp t ≠ u!"\\N" ∧ Spec.stamp t ≠ u!"0000-00-00 00:00:00" := by
  have ht := (C108_exact _ _).1 (C108_read_back h)
  exact ⟨strptime_iff.2 ht, timeText_not_null ht⟩

/-- C108: the details of an export with times are read back: `details` answers with user name and times of the last sentence with the id. -/
theorem C108_details (languages : Option (List Str)) (lim : Nat) (recs : List (Spec.DetailRec DateTime))
    (hreal : ∀ r ∈ recs, ∀ t, r.added = some t ∨ r.modified = some t → Spec.RealTime t)
    (text : Str) (hne : recs ≠ []) (ht : Spec.TextOf (recs.map (fun r => Spec.tabbed (r.values Spec.stamp))) text)
    (hf : ∀ r ∈ recs, ∀ f ∈ r.values Spec.stamp, Spec.CleanField f ∧ f.head? ≠ some c!"\"" ∧ f.length ≤ lim)
    (huser : ∀ r ∈ recs, r.user ≠ some u!"\\N") :
    ∃ a, sentLoad strptime languages (loadFile lim (fileLines text)) = .ok a ∧
      (∀ i, a.sentence i = match Spec.lastDetail languages recs i with
        | some r => .ok r.text
        | none => .error .invalidIDError) ∧
      (∀ i, a.details i = match Spec.lastDetail languages recs i with
        | some r => .ok (r.user, r.added, r.modified)
        | none => .error .invalidIDError) := by
  obtain ⟨a, h1, h2, h3, _⟩ :=
    C96_detailed strptime Spec.stamp languages lim recs (fun r hr t h => stamp_written (hreal r hr t h)) text hne ht hf huser
  refine ⟨a, h1, ?_, ?_⟩
  · intro i
    rw [h2 i]
    cases Spec.lastDetail languages recs i <;> rfl
  · intro i
    rw [h3 i]
    cases Spec.lastDetail languages recs i <;> rfl

/-- C108: a file is rejected for a date iff the date is neither missing nor a text for a time. -/
theorem C108_date_ok (s : Str) : Spec.DateOk strptime s ↔ s = u!"\\N" ∨ s = u!"0000-00-00 00:00:00" ∨ ∃ t, Spec.TimeText s t := by
  unfold Spec.DateOk
  simp only [strptime_iff]

/-- C98 with the dates that `strptime` reads: the exception of the first problem. -/
theorem C98_sentence_dates (languages : Option (List Str)) (rows : Rows) (e : PyErr) :
    sentLoad strptime languages rows = .error e ↔
      (rows.1 = [] ∧ e = rows.2.getD .stopIteration) ∨
      ∃ first rest, rows.1 = first :: rest ∧
        ((first.length ≠ 3 ∧ first.length ≠ 6 ∧ e = .invalidFileError) ∨
          ((first.length = 3 ∨ first.length = 6) ∧
            Spec.firstProblem (Spec.sentProblem strptime languages (decide (first.length = 6))) rows = some e)) :=
  C98_sentences (fun _ _ => strptime_error) rows e

/-! ### Cases -/

example : (⟨⟨1, u!"eng", u!"Hi"⟩, some u!"bob", some ⟨2012, 2, 29, 23, 5, 9⟩, none⟩ : Spec.DetailRec DateTime).values Spec.stamp =
    [u!"1", u!"eng", u!"Hi", u!"bob", u!"2012-02-29 23:05:09", u!"\\N"] := by decide +kernel

example : ∀ f ∈ (⟨⟨1, u!"eng", u!"Hi"⟩, some u!"bob", some ⟨2012, 2, 29, 23, 5, 9⟩, none⟩ : Spec.DetailRec DateTime).values Spec.stamp,
    Spec.CleanField f ∧ f.head? ≠ some c!"\"" ∧ f.length ≤ 131072 := by decide +kernel

example : Spec.RealTime ⟨2012, 2, 29, 23, 59, 59⟩ :=
  ⟨by decide, by decide, ⟨by decide, Or.inr ⟨rfl, Or.inl ⟨by decide, by decide⟩, rfl⟩⟩, by decide, by decide, by decide⟩

example : Spec.stamp ⟨2012, 2, 29, 23, 5, 9⟩ = u!"2012-02-29 23:05:09" := by decide +kernel

/-- Shorter forms are accepted as well. -/
example : parseDate strptime u!"2012-2- 9\t 7:5:9" = .ok (some ⟨2012, 2, 9, 7, 5, 9⟩) := by decide +kernel

example : parseDate strptime u!"2011-02-29 23:05:09" = .error .valueError := by decide +kernel

example : parseDate strptime u!"2012-02-29 23:05:60" = .error .valueError := by decide +kernel

example : parseDate strptime u!"2012-02-29 23:05:099" = .error .valueError := by decide +kernel

end Cjk
