import Verif.Lemmas.PatternFind
import Verif.Spec.CustomFormat
import Verif.Model.PatternText
import Verif.Props.DictLines
/-!
# C99: formats with patterns of the user
-/

namespace Cjk
open Py Spec

theorem named_eq {r : Compiled} {m : MatchObj} {ev : List (Nat × Str)} (h : m.group = groupText ev) (n : Str) :
    (r.named m n).getD none = nameText r ev n := by
  unfold Compiled.named nameText
  rw [h]
  cases Dict.get? r.names n <;> rfl

theorem collectSenses_named {f : TextFormat} {k : Nat} (hk : Dict.get? f.sense.names u!"sense" = some k) (ms : List MatchObj) :
    f.collectSenses ms = .ok (ms.map (fun m => m.group k)) := by
  induction ms with
  | nil => rfl
  | cons m ms ih => simp only [TextFormat.collectSenses, Compiled.named, hk, Option.map_some, ih, List.map_cons]

/-- What the lookups of `parse_line` give for a match. -/
theorem custom_parseLine {f : TextFormat} {s : Str} {m : MatchObj} (hm : f.line.pyMatch s = some m) (hw : WellMade f.line f.sense) :
    ∃ word reading senses k occ, Described f.line s word reading senses ∧ Dict.get? f.sense.names u!"sense" = some k ∧
      Occurrences f.sense.pat false none senses occ ∧
      f.parseLine s = if occ = [] then .error .formatError else .ok (word, reading, occ.map (fun o => groupText o.2 k)) := by
  obtain ⟨t, ev, hs, hmt, hg⟩ := pyMatch_some hm
  obtain ⟨k, hk, _⟩ := hw.gloss
  obtain ⟨w, hwd⟩ := Option.ne_none_iff_exists'.1 (hw.word _ _ _ hmt)
  obtain ⟨sl, hsl⟩ := Option.ne_none_iff_exists'.1 (hw.senses _ _ _ hmt)
  obtain ⟨occ, ho, he⟩ := finditer_occ sl
  have ha := named_eq (r := f.line) hg u!"word"
  have hb := named_eq (r := f.line) hg u!"reading"
  have hc := named_eq (r := f.line) hg u!"senses"
  rw [hwd] at ha
  rw [hsl] at hc
  have ha' : f.line.named m u!"word" = some (some w) := by
    cases h : f.line.named m u!"word" <;> rw [h] at ha <;> simp_all
  have hc' : f.line.named m u!"senses" = some (some sl) := by
    cases h : f.line.named m u!"senses" <;> rw [h] at hc <;> simp_all
  have he' : (f.sense.finditer sl).map (fun m => m.group k) = occ.map (fun o => groupText o.2 k) := by
    have := congrArg (List.map (fun q : Str × (Nat → Option Str) => q.2 k)) he
    simpa only [List.map_map, Function.comp_def] using this
  have hemp : (occ.map (fun o => groupText o.2 k)).isEmpty = true ↔ occ = [] := by simp
  let r := match f.line.named m u!"reading" with
        | some (some r) => if r.isEmpty then replaceChr 0x20 [] w else r
        | _ => replaceChr 0x20 [] w
  refine ⟨noSpaces w, replaceChr 0x20 [] r, sl, k, occ, ⟨m.text, t, ev, w, hs, hmt, hwd, rfl, ?_, ?_, hsl⟩, hk, ho, ?_⟩
  · intro r0 hr0 hne
    rw [hr0] at hb
    have hb' : f.line.named m u!"reading" = some (some r0) := by
      cases h : f.line.named m u!"reading" <;> rw [h] at hb <;> simp_all
    have : r = r0 := by
      show (match f.line.named m u!"reading" with
        | some (some r) => if r.isEmpty then replaceChr 0x20 [] w else r
        | _ => replaceChr 0x20 [] w) = r0
      rw [hb']
      simp [hne]
    rw [this, replaceChr_nil_eq]
  · intro h
    have : r = replaceChr 0x20 [] w := by
      show (match f.line.named m u!"reading" with
        | some (some r) => if r.isEmpty then replaceChr 0x20 [] w else r
        | _ => replaceChr 0x20 [] w) = _
      cases h1 : f.line.named m u!"reading" with
      | none => rfl
      | some o =>
        cases o with
        | none => rfl
        | some r0 =>
          rw [h1] at hb
          have := h r0 hb.symm
          simp [this]
    rw [this, replaceChr_nil_eq, replaceChr_nil_eq]
    unfold noSpaces
    rw [List.filter_filter]
    simp
  · simp only [TextFormat.parseLine, hm, ha', hc', collectSenses_named hk, he']
    rw [← replaceChr_nil_eq]
    by_cases h : occ = []
    · rw [if_pos h, if_pos (hemp.2 h)]
    · rw [if_neg h, if_neg (fun x => h (hemp.1 x))]
      show _ = Except.ok (_, replaceChr 0x20 [] (match f.line.named m u!"reading" with
        | some (some r) => if r.isEmpty then replaceChr 0x20 [] w else r
        | _ => replaceChr 0x20 [] w), _)
      cases f.line.named m u!"reading" with
      | none => rfl
      | some o => cases o <;> rfl

/-- C99: a format with well-made patterns refuses a line with `FormatError` if its line pattern describes no beginning of the
line; otherwise the line is described by the pattern with some word, reading and text of senses, it is refused with `FormatError`
exactly if no sense is in that text, and else the entry has that word and reading and the senses that the sense pattern finds from
left to right. -/
theorem C99_custom_format (f : TextFormat) (hw : WellMade f.line f.sense) (s : Str) :
    (¬ Begins f.line.pat none s → f.parseLine s = .error .formatError) ∧
    (Begins f.line.pat none s → ∃ word reading senses, Described f.line s word reading senses ∧
      (¬ Inside f.sense senses → f.parseLine s = .error .formatError) ∧
      (Inside f.sense senses → ∃ k occ, ∃ glosses : List Str, Dict.get? f.sense.names u!"sense" = some k ∧
        Occurrences f.sense.pat false none senses occ ∧ occ ≠ [] ∧ occ.map (fun o => groupText o.2 k) = glosses.map some ∧
        f.parseLine s = .ok (word, reading, glosses.map some))) := by
  constructor
  · intro h
    have := pyMatch_none.2 h
    simp only [TextFormat.parseLine, this]
  · intro h
    cases hm : f.line.pyMatch s with
    | none => exact absurd h (pyMatch_none.1 hm)
    | some m =>
      obtain ⟨word, reading, senses, k, occ, hd, hk, ho, hp⟩ := custom_parseLine hm hw
      have hin : Inside f.sense senses ↔ occ ≠ [] := by
        rw [ne_eq, occurrences_nil_iff ho]
        unfold Inside
        constructor
        · rintro ⟨u, t, h1, h2⟩ h3
          exact h3 u t h1 h2
        · intro h3
          apply Classical.byContradiction
          intro h4
          exact h3 (fun u t h1 h2 => h4 ⟨u, t, h1, h2⟩)
      refine ⟨word, reading, senses, hd, ?_, ?_⟩
      · intro hi
        have : occ = [] := Classical.byContradiction (fun h => hi (hin.2 h))
        rw [hp, if_pos this]
      · intro hi
        obtain ⟨k', hk', hset⟩ := hw.gloss
        have hkk : k' = k := by rw [hk'] at hk; exact Option.some.inj hk
        subst hkk
        have hall : ∀ {after prev s occ}, Occurrences f.sense.pat after prev s occ → ∃ gl : List Str, occ.map (fun o => groupText o.2 k') = gl.map some := by
          intro after prev s occ ho
          induction ho with
          | nil _ => exact ⟨[], rfl⟩
          | @cons _ _ u v w ev rest _ hm _ _ ih =>
            obtain ⟨gl, hgl⟩ := ih
            obtain ⟨g, hg⟩ := Option.ne_none_iff_exists'.1 (hset _ _ _ _ hm)
            exact ⟨g :: gl, by simp only [List.map_cons, hgl, hg]⟩
        obtain ⟨gl, hgl⟩ := hall ho
        exact ⟨k', occ, gl, hk, ho, hin.1 hi, hgl, by rw [hp, if_neg (hin.1 hi), hgl]⟩

/-- C99: the entry is determined if the line pattern describes the line in one way only. -/
theorem C99_unambiguous (f : TextFormat) (hw : WellMade f.line f.sense) (s word reading senses : Str)
    (hd : Described f.line s word reading senses)
    (hu : ∀ w r t, Described f.line s w r t → w = word ∧ r = reading ∧ t = senses) :
    (f.parseLine s = .error .formatError ∧ ¬ Inside f.sense senses) ∨
    (∃ glosses : List Str, f.parseLine s = .ok (word, reading, glosses.map some) ∧ Inside f.sense senses ∧
      ∃ k occ, Dict.get? f.sense.names u!"sense" = some k ∧ Occurrences f.sense.pat false none senses occ ∧
        occ.map (fun o => groupText o.2 k) = glosses.map some) := by
  have hb : Begins f.line.pat none s := by
    obtain ⟨u, t, ev, w, h1, h2, _⟩ := hd
    exact ⟨u, t, ev, h1, h2⟩
  obtain ⟨w, r, t, h1, h2, h3⟩ := (C99_custom_format f hw s).2 hb
  obtain ⟨rfl, rfl, rfl⟩ := hu w r t h1
  by_cases hi : Inside f.sense t
  · obtain ⟨k, occ, gl, hk, ho, _, hgl, hp⟩ := h3 hi
    exact Or.inr ⟨gl, hp, hi, k, occ, hk, ho, hgl⟩
  · exact Or.inl ⟨h2 hi, hi⟩

/-! ### Formats that meet the hypotheses -/

/-- A check on the pattern: every match sets the group. -/
def Pat.sets (i : Nat) : Pat → Bool
  | .cat a b => Pat.sets i a || Pat.sets i b
  | .alt a b => Pat.sets i a && Pat.sets i b
  | .plus _ a => Pat.sets i a
  | .group j a => j == i || Pat.sets i a
  | _ => false

theorem groupText_append_ne {e e' : List (Nat × Str)} {i : Nat} (h : groupText e i ≠ none ∨ groupText e' i ≠ none) :
    groupText (e ++ e') i ≠ none := by
  have := get?_setAll [] (e ++ e') i
  unfold groupText at *
  simp only [ne_eq, Option.map_eq_none_iff, List.find?_eq_none, List.mem_reverse, decide_eq_true_eq, List.mem_append] at *
  rcases h with h | h
  · exact fun hn => h (fun x hx => hn x (Or.inl hx))
  · exact fun hn => h (fun x hx => hn x (Or.inr hx))

theorem sets_sound {i : Nat} {p : Pat} {prev : Option Nat} {u t : Str} {ev : List (Nat × Str)} (h : Matches p prev u t ev)
    (hp : Pat.sets i p = true) : groupText ev i ≠ none := by
  induction h with
  | cat _ _ iha ihb =>
    simp only [Pat.sets, Bool.or_eq_true] at hp
    exact groupText_append_ne (hp.imp iha ihb)
  | altL _ ih => simp only [Pat.sets, Bool.and_eq_true] at hp; exact ih hp.1
  | altR _ ih => simp only [Pat.sets, Bool.and_eq_true] at hp; exact ih hp.2
  | plus _ _ iha _ => exact groupText_append_ne (Or.inl (iha (by simpa [Pat.sets] using hp)))
  | @group j _ _ u _ _ _ ih =>
    simp only [Pat.sets, Bool.or_eq_true, beq_iff_eq] at hp
    rcases hp with rfl | hp
    · exact groupText_append_ne (Or.inr (by simp [groupText]))
    · exact groupText_append_ne (Or.inl (ih hp))
  | _ => simp [Pat.sets] at hp

/-- A sufficient check for well-made patterns. -/
theorem wellMade_of {line sense : Compiled} {a b k : Nat} (ha : Dict.get? line.names u!"word" = some a)
    (hb : Dict.get? line.names u!"senses" = some b) (hk : Dict.get? sense.names u!"sense" = some k)
    (h1 : Pat.sets a line.pat = true) (h2 : Pat.sets b line.pat = true) (h3 : Pat.sets k sense.pat = true) : WellMade line sense where
  word u t ev h := by simp only [nameText, ha, Option.bind_some]; exact sets_sound h h1
  senses u t ev h := by simp only [nameText, hb, Option.bind_some]; exact sets_sound h h2
  gloss := ⟨k, hk, fun prev u t ev h => sets_sound h h3⟩

/-- C99: the four formats of the library are well made, too. -/
theorem C99_known_formats : ∀ o ∈ knownTextFormats, ∃ f, o = some f ∧ WellMade f.line f.sense := by
  have h : ∀ o ∈ knownTextFormats, ∃ f, o = some f ∧ ∃ a b k, Dict.get? f.line.names u!"word" = some a ∧
      Dict.get? f.line.names u!"senses" = some b ∧ Dict.get? f.sense.names u!"sense" = some k ∧
      Pat.sets a f.line.pat = true ∧ Pat.sets b f.line.pat = true ∧ Pat.sets k f.sense.pat = true := by
    intro o ho
    simp only [knownTextFormats, knownTexts, List.map_cons, List.map_nil, List.mem_cons, List.not_mem_nil, or_false] at ho
    rcases ho with rfl | rfl | rfl | rfl
    · exact ⟨_, rfl, 1, 4, 1, rfl, rfl, rfl, rfl, rfl, rfl⟩
    · exact ⟨_, rfl, 1, 3, 1, rfl, rfl, rfl, rfl, rfl, rfl⟩
    · exact ⟨_, rfl, 1, 3, 2, rfl, rfl, rfl, rfl, rfl, rfl⟩
    · exact ⟨_, rfl, 1, 4, 1, rfl, rfl, rfl, rfl, rfl, rfl⟩
  intro o ho
  obtain ⟨f, hf, a, b, k, h1, h2, h3, h4, h5, h6⟩ := h o ho
  exact ⟨f, hf, wellMade_of h1 h2 h3 h4 h5 h6⟩

-- A format for lines like `犬<tab>dog;hound`.
example : ∃ f, TextFormat.new u!"tabs" u!"^#" u!"^(?P<word>[^\t]+)\t(?P<senses>.*)$" u!"(?P<sense>[^;]+);?" = some f ∧
    WellMade f.line f.sense ∧ f.parseLine u!"犬\tdog;hound" = .ok (u!"犬", u!"犬", [some u!"dog", some u!"hound"]) ∧
    f.parseLine u!"犬 dog" = .error .formatError :=
  ⟨_, rfl, wellMade_of (a := 1) (b := 2) (k := 1) rfl rfl rfl rfl rfl rfl, by decide, by decide⟩

-- A sense may be empty: here the sense pattern matches the empty text at the end.
example : ∃ f, TextFormat.new u!"tabs" u!"^#" u!"^(?P<word>[^\t]+)\t(?P<senses>.*)$" u!"(?P<sense>[^;]*);?" = some f ∧
    WellMade f.line f.sense ∧ f.parseLine u!"犬\tdog;hound" = .ok (u!"犬", u!"犬", [some u!"dog", some u!"hound", some []]) :=
  ⟨_, rfl, wellMade_of (a := 1) (b := 2) (k := 1) rfl rfl rfl rfl rfl rfl, by decide⟩

end Cjk
