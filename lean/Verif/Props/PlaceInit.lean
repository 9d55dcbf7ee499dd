import Verif.Props.Place
/-!
# C90: which place details can be constructed and which can be stored
-/

namespace Cjk
open Py

theorem splitWs_words (s : Str) : ∀ w ∈ splitWs s, Word w := by
  have aux : ∀ (s cur : Str), (∀ c ∈ cur, isSpace c = false) → ∀ w ∈ splitWsAux cur s, Word w := by
    intro s
    induction s with
    | nil =>
      intro cur hc w hw
      unfold splitWsAux at hw
      split at hw
      · simp at hw
      · rename_i hne
        simp only [List.mem_singleton] at hw
        subst hw
        refine ⟨by simpa using hne, fun c h => hc c (by simpa using h)⟩
    | cons x s ih =>
      intro cur hc w hw
      unfold splitWsAux at hw
      split at hw
      · split at hw
        · exact ih [] (by simp) w hw
        · rename_i hne
          rcases List.mem_cons.1 hw with rfl | hw
          · exact ⟨by simpa using hne, fun c h => hc c (by simpa using h)⟩
          · exact ih [] (by simp) w hw
      · rename_i hx
        exact ih (x :: cur) (by
          intro c h
          rcases List.mem_cons.1 h with rfl | h
          · simpa using hx
          · exact hc c h) w hw
  exact aux s [] (by simp)

theorem mem_join_nil (l : List Str) (c : Nat) : c ∈ join [] l ↔ ∃ a ∈ l, c ∈ a := by
  induction l with
  | nil => simp [join]
  | cons a l ih =>
    cases l with
    | nil => simp [join]
    | cons b l => simp only [join, List.append_nil, List.mem_append, ih, List.mem_cons]; grind

/-- C90: constructing a place raises `ValueError` exactly if the label, the reading or one of the aliases contains a space character. -/
theorem C90_init (label : Str) (reading : Option Str) (aliases : Option (List Str)) :
    (placeInit label reading aliases = .ok () ↔
      0x20 ∉ label ∧ (∀ r, reading = some r → 0x20 ∉ r) ∧ ∀ as, aliases = some as → ∀ a ∈ as, 0x20 ∉ a) ∧
    (placeInit label reading aliases ≠ .ok () → placeInit label reading aliases = .error .valueError) := by
  unfold placeInit
  simp only [isInfix_singleton, mem_join_nil]
  constructor
  · constructor
    · intro h
      split at h
      · cases h
      · rename_i hn
        simp only [not_or] at hn
        refine ⟨hn.1, ?_, ?_⟩
        · rintro r rfl; exact hn.2.1
        · rintro as rfl a ha hm; exact hn.2.2 ⟨a, ha, hm⟩
    · rintro ⟨h1, h2, h3⟩
      rw [if_neg]
      rintro (h | h | ⟨a, ha, h⟩)
      · exact h1 h
      · cases reading with
        | none => simp at h
        | some r => exact h2 r rfl h
      · cases aliases with
        | none => simp at ha
        | some as => exact h3 as rfl a ha h
  · intro h
    split
    · rfl
    · rename_i hn; rw [if_neg hn] at h; exact absurd rfl h

/-- Everything read from a line is free of white space and not empty, and no reading is the word `None`. -/
theorem placeFromLine_words {line : Str} {d : Int} {l : Str} {rd : Option Str} {a : Option (List Str)}
    (h : placeFromLine line = .ok (d, l, rd, a)) : Word l ∧ ∀ x, rd = some x → Word x ∧ x ≠ u!"None" := by
  have hw := splitWs_words (rstrip line)
  have key : ∀ reading, Word reading → ∀ x, readReading reading = some x → Word x ∧ x ≠ u!"None" := by
    intro reading hr x hx
    unfold readReading at hx
    split at hx
    · cases hx
    · rename_i hne
      cases hx; exact ⟨hr, hne⟩
  unfold placeFromLine at h
  split at h
  · rename_i depth label reading e
    obtain ⟨_, _, h⟩ := bind_eq_ok.1 h
    obtain ⟨_, _, h⟩ := bind_eq_ok.1 h
    simp only [Except.ok.injEq, Prod.mk.injEq] at h
    obtain ⟨-, rfl, rfl, -⟩ := h
    exact ⟨hw _ (by rw [e]; simp), key _ (hw _ (by rw [e]; simp))⟩
  · rename_i depth label reading aliases e
    obtain ⟨_, _, h⟩ := bind_eq_ok.1 h
    obtain ⟨_, _, h⟩ := bind_eq_ok.1 h
    simp only [Except.ok.injEq, Prod.mk.injEq] at h
    obtain ⟨-, rfl, rfl, -⟩ := h
    exact ⟨hw _ (by rw [e]; simp), key _ (hw _ (by rw [e]; simp))⟩
  · cases h

/-- C90: the details that survive being written and read back (without aliases) are exactly these: the label is not empty and free of
white space of every kind, and so is the reading, which is not the word `None`. -/
theorem C90_storable (r : Str → Str) (d : Nat) (label : Str) (reading : Option Str) :
    placeFromLine (placeToLine r d label reading none ++ u!"\n") = .ok ((d : Int), label, reading, none) ↔
      Word label ∧ ∀ x, reading = some x → Word x ∧ x ≠ u!"None" :=
  ⟨placeFromLine_words, fun h => placeFromLine_toLine r d label reading h.1 h.2⟩

/-- C90 (partial): everything that can be stored can be constructed.

Missing from the claim: that everything that can be constructed can be stored (`C90_refuted`). -/
theorem C90_complete_partial (label : Str) (reading : Option Str) (hl : Word label)
    (hr : ∀ x, reading = some x → Word x ∧ x ≠ u!"None") : placeInit label reading none = .ok () := by
  have ns : ∀ {w : Str}, Word w → 0x20 ∉ w := fun h hm => absurd (h.2 _ hm) (by decide)
  exact (C90_init label reading none).1.2 ⟨ns hl, fun x hx => ns (hr x hx).1, by simp⟩

/-- C90: the check in the constructor does not do what it is there for: details with any other white space than a space, an empty label,
an empty reading and the reading `None` are accepted and do not survive. -/
theorem C90_refuted (r : Str → Str) (d : Nat) :
    (∀ c, isSpace c = true → c ≠ 0x20 → ∀ u v reading, Word u → Word v → (∀ x, reading = some x → Word x) →
      placeInit (u ++ c :: v) reading none = .ok () ∧
      placeFromLine (placeToLine r d (u ++ c :: v) reading none ++ u!"\n") ≠ .ok ((d : Int), u ++ c :: v, reading, none)) ∧
    (∀ label, Word label → ∀ reading ∈ [some [], some u!"None"], placeInit label reading none = .ok () ∧
      placeFromLine (placeToLine r d label reading none ++ u!"\n") ≠ .ok ((d : Int), label, reading, none)) ∧
    (placeInit [] none none = .ok () ∧
      placeFromLine (placeToLine r d [] none none ++ u!"\n") ≠ .ok ((d : Int), [], none, none)) := by
  have ns : ∀ {w : Str}, Word w → 0x20 ∉ w := fun h hm => absurd (h.2 _ hm) (by decide)
  refine ⟨?_, ?_, ?_⟩
  · intro c hc hne u v reading hu hv hr
    refine ⟨(C90_init _ _ _).1.2 ⟨?_, fun x hx => ns (hr x hx), by simp⟩, ?_⟩
    · simp only [List.mem_append, List.mem_cons, not_or]
      exact ⟨ns hu, fun h => hne h.symm, ns hv⟩
    · intro h
      have := ((C90_storable r d _ reading).1 h).1.2 c (by simp)
      rw [hc] at this; cases this
  · intro label hl reading hr
    refine ⟨(C90_init _ _ _).1.2 ⟨ns hl, ?_, by simp⟩, ?_⟩
    · rintro x rfl
      simp only [List.mem_cons, Option.some.injEq, List.not_mem_nil, or_false] at hr
      rcases hr with rfl | rfl <;> decide
    · intro h
      have := ((C90_storable r d label reading).1 h).2
      simp only [List.mem_cons, List.not_mem_nil, or_false] at hr
      rcases hr with rfl | rfl
      · exact (this _ rfl).1.1 rfl
      · exact (this _ rfl).2 rfl
  · refine ⟨(C90_init _ _ _).1.2 ⟨by simp, by simp, by simp⟩, fun h => ((C90_storable r d [] none).1 h).1.1 rfl⟩

/-- A tab in a label. -/
example : placeInit u!"東\t京" none none = .ok () ∧
    placeFromLine (placeToLine (fun s => s) 0 u!"東\t京" none none ++ u!"\n") ≠ .ok (0, u!"東\t京", none, none) :=
  (C90_refuted (fun s => s) 0).1 0x09 (by decide) (by decide) u!"東" u!"京" none (by decide) (by decide) (by simp)

end Cjk
