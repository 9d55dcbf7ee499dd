import Verif.Props.PatternFormat
/-!
# C99: formats whose patterns lack groups

`RegexFormat` does not check the patterns it is given.  What happens when the groups that `parse_line` asks for are missing, or took
no part in the match, is said here for every pattern of the fragment.
-/

namespace Cjk
open Py Spec

/-- Nothing is found exactly if no match begins anywhere; this holds for patterns that match the empty text, too. -/
theorem finditerAux_nil_iff {r : Compiled} (fuel i : Nat) (prev : Option Nat) (s : Str) (hf : s.length < fuel) :
    r.finditerAux fuel i prev s = [] ↔ ∀ u t, s = u ++ t → ¬ Begins r.pat (lastOf prev u) t := by
  induction fuel generalizing i prev s with
  | zero => omega
  | succ fuel ih =>
    simp only [Compiled.finditerAux]
    cases hm : r.matchAt i prev s with
    | none =>
      have h0 := matchAt_none.1 hm
      cases s with
      | nil =>
        simp only [true_iff]
        intro u t hs
        have : u = [] ∧ t = [] := by simpa using hs.symm
        rw [this.1, this.2]
        exact h0
      | cons x s =>
        simp only
        rw [ih (i + 1) (some x) s (by simp at hf; omega)]
        constructor
        · intro h u t hs
          cases u with
          | nil => simp only [List.nil_append] at hs; rw [← hs]; exact h0
          | cons y u =>
            simp only [List.cons_append, List.cons.injEq] at hs
            obtain ⟨rfl, hs⟩ := hs
            rw [lastOf_cons]
            exact h u t hs
        · intro h u t hs
          have := h (x :: u) t (by rw [hs]; rfl)
          rwa [lastOf_cons] at this
    | some q =>
      obtain ⟨m, st⟩ := q
      have hb : Begins r.pat prev s := by
        apply Classical.byContradiction
        intro hb
        rw [matchAt_none.2 hb] at hm
        cases hm
      constructor
      · intro h
        simp only at h
        split at h <;> cases h
      · intro h
        exact absurd hb (h [] s rfl)

theorem finditer_nil_iff (r : Compiled) (s : Str) : r.finditer s = [] ↔ ¬ Inside r s := by
  unfold Compiled.finditer
  rw [finditerAux_nil_iff _ _ _ _ (Nat.lt_succ_self _)]
  unfold Inside
  constructor
  · rintro h ⟨u, t, h1, h2⟩; exact h u t h1 h2
  · intro h u t h1 h2; exact h ⟨u, t, h1, h2⟩

theorem collectSenses_missing {f : TextFormat} (hk : Dict.get? f.sense.names u!"sense" = none) (ms : List MatchObj) :
    f.collectSenses ms = if ms = [] then .ok [] else .error .keyError := by
  cases ms with
  | nil => rfl
  | cons m ms => simp [TextFormat.collectSenses, Compiled.named, hk]

theorem named_missing {r : Compiled} {n : Str} (h : Dict.get? r.names n = none) (m : MatchObj) : r.named m n = none := by
  simp [Compiled.named, h]

theorem named_some {r : Compiled} {n : Str} {i : Nat} (h : Dict.get? r.names n = some i) {m : MatchObj} {ev : List (Nat × Str)}
    (hg : m.group = groupText ev) : r.named m n = some (nameText r ev n) := by
  simp [Compiled.named, nameText, h, hg]

theorem begins_match {r : Compiled} {s : Str} (h : Begins r.pat none s) :
    ∃ m t ev, r.pyMatch s = some m ∧ s = m.text ++ t ∧ Matches r.pat none m.text t ev ∧ m.group = groupText ev := by
  cases hm : r.pyMatch s with
  | none => exact absurd h (pyMatch_none.1 hm)
  | some m =>
    obtain ⟨t, ev, h1, h2, h3⟩ := pyMatch_some hm
    exact ⟨m, t, ev, rfl, h1, h2, h3⟩

/-- C99: a line pattern without a group `word` raises `KeyError` for every line that it matches. -/
theorem C99_no_word (f : TextFormat) (s : Str) (hb : Begins f.line.pat none s) (hw : u!"word" ∉ Dict.keys f.line.names) :
    f.parseLine s = .error .keyError := by
  obtain ⟨m, t, ev, hm, _⟩ := begins_match hb
  simp only [TextFormat.parseLine, hm, named_missing ((Dict.get?_eq_none_iff _ _).2 hw)]

/-- C99: a line pattern that has a group `word` and leaves it out in every way to match the line raises `AttributeError`. -/
theorem C99_word_left_out (f : TextFormat) (s : Str) (hb : Begins f.line.pat none s) (hw : u!"word" ∈ Dict.keys f.line.names)
    (hn : ∀ u t ev, s = u ++ t → Matches f.line.pat none u t ev → nameText f.line ev u!"word" = none) :
    f.parseLine s = .error .attributeError := by
  obtain ⟨m, t, ev, hm, hs, hmt, hg⟩ := begins_match hb
  obtain ⟨i, hi⟩ := Option.isSome_iff_exists.1 ((Dict.get?_isSome_iff _ _).2 hw)
  simp only [TextFormat.parseLine, hm, named_some hi hg, hn _ _ _ hs hmt]

/-- C99: a line pattern with a word but without senses (no group of that name, or one that takes no part) raises `TypeError`. -/
theorem C99_no_senses (f : TextFormat) (s : Str) (hb : Begins f.line.pat none s)
    (hw : ∀ u t ev, s = u ++ t → Matches f.line.pat none u t ev → nameText f.line ev u!"word" ≠ none)
    (hn : ∀ u t ev, s = u ++ t → Matches f.line.pat none u t ev → nameText f.line ev u!"senses" = none) :
    f.parseLine s = .error .typeError := by
  obtain ⟨m, t, ev, hm, hs, hmt, hg⟩ := begins_match hb
  obtain ⟨w, hwd⟩ := Option.ne_none_iff_exists'.1 (hw _ _ _ hs hmt)
  obtain ⟨i, hi⟩ : ∃ i, Dict.get? f.line.names u!"word" = some i := by
    cases h : Dict.get? f.line.names u!"word" with
    | none => simp [nameText, h] at hwd
    | some i => exact ⟨i, rfl⟩
  simp only [TextFormat.parseLine, hm, named_some hi hg, hwd]
  cases h : Dict.get? f.line.names u!"senses" with
  | none => simp only [named_missing h]
  | some j => simp only [named_some h hg, hn _ _ _ hs hmt]

/-- C99: a sense pattern without a group `sense`: a line whose text of senses has a match raises `KeyError`, any other line that
the line pattern matches `FormatError`, so that no line is ever read. -/
theorem C99_no_gloss (f : TextFormat) (s : Str) (hk : u!"sense" ∉ Dict.keys f.sense.names) (hb : Begins f.line.pat none s)
    (hw : ∀ u t ev, s = u ++ t → Matches f.line.pat none u t ev →
      nameText f.line ev u!"word" ≠ none ∧ nameText f.line ev u!"senses" ≠ none) :
    ∃ word reading senses, Described f.line s word reading senses ∧
      (Inside f.sense senses → f.parseLine s = .error .keyError) ∧
      (¬ Inside f.sense senses → f.parseLine s = .error .formatError) := by
  obtain ⟨m, t, ev, hm, hs, hmt, hg⟩ := begins_match hb
  obtain ⟨w, hwd⟩ := Option.ne_none_iff_exists'.1 (hw _ _ _ hs hmt).1
  obtain ⟨sl, hsl⟩ := Option.ne_none_iff_exists'.1 (hw _ _ _ hs hmt).2
  obtain ⟨i, hi⟩ : ∃ i, Dict.get? f.line.names u!"word" = some i := by
    cases h : Dict.get? f.line.names u!"word" with
    | none => simp [nameText, h] at hwd
    | some i => exact ⟨i, rfl⟩
  obtain ⟨j, hj⟩ : ∃ i, Dict.get? f.line.names u!"senses" = some i := by
    cases h : Dict.get? f.line.names u!"senses" with
    | none => simp [nameText, h] at hsl
    | some i => exact ⟨i, rfl⟩
  have hp : f.parseLine s = if f.sense.finditer sl = [] then .error .formatError else .error .keyError := by
    simp only [TextFormat.parseLine, hm, named_some hi hg, hwd, named_some hj hg, hsl,
      collectSenses_missing ((Dict.get?_eq_none_iff _ _).2 hk)]
    by_cases h : f.sense.finditer sl = []
    · rw [if_pos h, if_pos h]; rfl
    · rw [if_neg h, if_neg h]
  have hd : ∃ reading, (∀ r, nameText f.line ev u!"reading" = some r → r ≠ [] → reading = noSpaces r) ∧
      ((∀ r, nameText f.line ev u!"reading" = some r → r = []) → reading = noSpaces w) := by
    cases hr : nameText f.line ev u!"reading" with
    | none => exact ⟨noSpaces w, fun r h => (by cases h), fun _ => rfl⟩
    | some r =>
      by_cases h : r = []
      · exact ⟨noSpaces w, fun r' h1 h2 => absurd ((Option.some.inj h1) ▸ h) h2, fun _ => rfl⟩
      · exact ⟨noSpaces r, fun r' h1 _ => by rw [Option.some.inj h1], fun h1 => absurd (h1 r rfl) h⟩
  obtain ⟨reading, hr1, hr2⟩ := hd
  refine ⟨noSpaces w, reading, sl, ⟨m.text, t, ev, w, hs, hmt, hwd, rfl, hr1, hr2, hsl⟩, fun h => ?_, fun h => ?_⟩
  · rw [hp, if_neg (fun h2 => (finditer_nil_iff _ _).1 h2 h)]
  · rw [hp, if_pos ((finditer_nil_iff _ _).2 h)]

/-- C99: whatever the patterns are, these are the reasons for the exceptions of `parse_line`. -/
theorem C99_exceptions (f : TextFormat) (s : Str) (e : PyErr) (h : f.parseLine s = .error e) :
    e = .formatError ∨
    (e = .keyError ∧ Begins f.line.pat none s ∧
      (u!"word" ∉ Dict.keys f.line.names ∨ u!"sense" ∉ Dict.keys f.sense.names)) ∨
    (e = .attributeError ∧ u!"word" ∈ Dict.keys f.line.names ∧
      ∃ u t ev, s = u ++ t ∧ Matches f.line.pat none u t ev ∧ nameText f.line ev u!"word" = none) ∨
    (e = .typeError ∧
      ∃ u t ev, s = u ++ t ∧ Matches f.line.pat none u t ev ∧ nameText f.line ev u!"senses" = none) := by
  by_cases hb : Begins f.line.pat none s
  · obtain ⟨m, t, ev, hm, hs, hmt, hg⟩ := begins_match hb
    cases hw : Dict.get? f.line.names u!"word" with
    | none =>
      simp only [TextFormat.parseLine, hm, named_missing hw, Except.error.injEq] at h
      exact Or.inr (Or.inl ⟨h.symm, hb, Or.inl ((Dict.get?_eq_none_iff _ _).1 hw)⟩)
    | some i =>
      simp only [TextFormat.parseLine, hm, named_some hw hg] at h
      cases hwd : nameText f.line ev u!"word" with
      | none =>
        rw [hwd] at h
        simp only [Except.error.injEq] at h
        exact Or.inr (Or.inr (Or.inl ⟨h.symm, (Dict.get?_isSome_iff _ _).1 (by rw [hw]; rfl), _, _, _, hs, hmt, hwd⟩))
      | some w =>
        rw [hwd] at h
        simp only at h
        cases hj : Dict.get? f.line.names u!"senses" with
        | none =>
          simp only [named_missing hj, Except.error.injEq] at h
          exact Or.inr (Or.inr (Or.inr ⟨h.symm, _, _, _, hs, hmt, by simp [nameText, hj]⟩))
        | some j =>
          simp only [named_some hj hg] at h
          cases hsl : nameText f.line ev u!"senses" with
          | none =>
            rw [hsl] at h
            simp only [Except.error.injEq] at h
            exact Or.inr (Or.inr (Or.inr ⟨h.symm, _, _, _, hs, hmt, hsl⟩))
          | some sl =>
            rw [hsl] at h
            simp only at h
            cases hk : Dict.get? f.sense.names u!"sense" with
            | none =>
              rw [collectSenses_missing hk] at h
              by_cases hf : f.sense.finditer sl = []
              · rw [if_pos hf] at h
                simp at h
                exact Or.inl h.symm
              · rw [if_neg hf] at h
                simp only [Except.error.injEq] at h
                exact Or.inr (Or.inl ⟨h.symm, hb, Or.inr ((Dict.get?_eq_none_iff _ _).1 hk)⟩)
            | some k =>
              rw [collectSenses_named hk] at h
              simp only at h
              split at h
              · simp only [Except.error.injEq] at h; exact Or.inl h.symm
              · cases h
  · simp only [TextFormat.parseLine, pyMatch_none.2 hb, Except.error.injEq] at h
    exact Or.inl h.symm

-- Patterns without the group `word`, with an optional one, without senses, and with a sense pattern without its group.
example : ∃ f, TextFormat.new u!"a" u!"^#" u!"(?P<senses>.*)" u!"(?P<sense>[^;]+)" = some f ∧
    u!"word" ∉ Dict.keys f.line.names ∧ f.parseLine u!"dog" = .error .keyError := ⟨_, rfl, by decide, by decide⟩
example : ∃ f, TextFormat.new u!"b" u!"^#" u!"(?P<word>[a-z]+)?(?P<senses>.*)" u!"(?P<sense>[^;]+)" = some f ∧
    u!"word" ∈ Dict.keys f.line.names ∧ f.parseLine u!"犬" = .error .attributeError := ⟨_, rfl, by decide, by decide⟩
example : ∃ f, TextFormat.new u!"c" u!"^#" u!"(?P<word>[a-z]+)( (?P<senses>.*))?" u!"(?P<sense>[^;]+)" = some f ∧
    f.parseLine u!"dog" = .error .typeError := ⟨_, rfl, by decide⟩
example : ∃ f, TextFormat.new u!"d" u!"^#" u!"(?P<word>[a-z]+) (?P<senses>.*)" u!"([^;]+)" = some f ∧
    u!"sense" ∉ Dict.keys f.sense.names ∧
    f.parseLine u!"dog a" = .error .keyError ∧ f.parseLine u!"dog ;" = .error .formatError := ⟨_, rfl, by decide, by decide, by decide⟩

end Cjk
