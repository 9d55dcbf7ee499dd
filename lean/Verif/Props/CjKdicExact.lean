import Verif.Props.DictGrammar
/-!
# C32: exactly which cj_kdic lines parse back to their fields
-/

namespace Cjk
open Py

/-- Conditions on a sense of cj_kdic: non-empty text without backslash and newline; the number consists of full-width digits; without a
number the text does not begin with a full-width digit. -/
def Spec.CjSense (ns : Str × Str) : Prop :=
  ns.2 ≠ [] ∧ 0x5c ∉ ns.2 ∧ 0x0a ∉ ns.2 ∧ (∀ c ∈ ns.1, Spec.wideDigit c) ∧ (ns.1 = [] → ∀ c ∈ ns.2.head?, ¬ Spec.wideDigit c)

instance (ns : Str × Str) : Decidable (Spec.CjSense ns) := inferInstanceAs (Decidable (_ ∧ _ ∧ _ ∧ _ ∧ (_ → ∀ _ ∈ _, _)))

theorem cjSense_pieces (ws : List Str) (h : ∀ w ∈ ws, w ≠ [] ∧ 0x5c ∉ w) (final : Bool) (hf : final = true → ws ≠ []) :
    (cjSense.finditer (join u!"\\n" ws ++ (if final then u!"\\n" else []))).map
      (fun m => (Dict.get? m.2 u!"sense").getD []) = ws.map Spec.unnumbered := by
  induction ws with
  | nil =>
    cases final with
    | false => exact congrArg _ cjSense_end
    | true => exact absurd rfl (hf rfl)
  | cons w ws ih =>
    have hw := h w (by simp)
    have hopt : ∀ (t : Str) (c : Caps), Re.first (Re.opt (.group u!"3" (Re.lit u!"\\n"))) (u!"\\n" ++ t) c =
        some (t, Dict.set c u!"3" u!"\\n") := fun t c => Re.first_alt_left (Re.first_group' (Re.first_lit _ _ _))
    have hkeep : ∀ c : Caps, Dict.get? (Dict.set c u!"3" u!"\\n") u!"sense" = Dict.get? c u!"sense" := by
      intro c; rw [Dict.get?_set, if_neg (by decide)]
    have hmid : ∀ t : Str, (cjSense.finditer (w ++ u!"\\n" ++ t)).map
        (fun m => (Dict.get? m.2 u!"sense").getD []) =
        Spec.unnumbered w :: (cjSense.finditer t).map (fun m => (Dict.get? m.2 u!"sense").getD []) := by
      intro t
      obtain ⟨c, hc1, hc2⟩ := cjSense_front w (u!"\\n" ++ t) hw.1 hw.2 (by intro x hx; cases hx; rfl)
      have := hc1 _ (hopt t c)
      rw [← List.append_assoc] at this
      rw [Re.finditer_match _ _ _ _ (by simp) this]
      simp only [List.map_cons, hkeep, hc2]
      rfl
    cases ws with
    | nil =>
      cases final with
      | true =>
        have := hmid []
        simp only [List.append_nil, cjSense_end] at this
        simpa [join] using this
      | false =>
        obtain ⟨c, hc1, hc2⟩ := cjSense_front w [] hw.1 hw.2 (by intro x hx; cases hx)
        have hend : Re.first (Re.opt (.group u!"3" (Re.lit u!"\\n"))) [] c = some ([], c) := by
          refine (Re.first_alt_right ?_).trans (Re.first_eps _ _)
          rfl
        have := Re.finditer_match _ _ _ _ hw.1 (hc1 _ hend)
        simp only [List.append_nil] at this
        simp only [List.map_cons, List.map_nil, join, Bool.false_eq_true, if_false, List.append_nil]
        rw [this, cjSense_end]
        simp [hc2]
    | cons w' ws =>
      have ih' := ih (fun x hx => h x (by simp [hx])) (by simp)
      have hsplit : join u!"\\n" (w :: w' :: ws) = w ++ u!"\\n" ++ join u!"\\n" (w' :: ws) := rfl
      rw [hsplit, List.append_assoc, hmid, ih']
      rfl

/-- A number is recognised unless it contains ６. -/
theorem unnumbered_numbered (ns : Str × Str) (h : Spec.CjSense ns) :
    Spec.unnumbered (Spec.numbered ns) = if c!"６" ∈ ns.1 then Spec.numbered ns else ns.2 := by
  obtain ⟨n, s⟩ := ns
  obtain ⟨h1, _, _, h4, h5⟩ := h
  simp only at h1 h4 h5 ⊢
  have h6 : cjDigit c!"６" = false := by decide +kernel
  by_cases hn : n = []
  · subst hn
    have e : Spec.numbered ([], s) = s := by simp [Spec.numbered]
    rw [e, if_neg (by simp)]
    rcases unnumbered_cases s with ⟨m, r, rfl, hm, hd, _⟩ | ⟨_, hu⟩
    · obtain ⟨x, m, rfl⟩ := List.exists_cons_of_ne_nil hm
      exact absurd (wideDigit_of_cjDigit (hd x (by simp))) (h5 rfl x rfl)
    · exact hu
  · have e : Spec.numbered (n, s) = n ++ 0xff0e :: s := by simp [Spec.numbered, hn]
    rw [e]
    split
    · rename_i hm6
      rcases unnumbered_cases (n ++ 0xff0e :: s) with ⟨m, r, he, hm, hd, _⟩ | ⟨_, hu⟩
      · exfalso
        have hnd : (0xff0e : Nat) ∉ n := fun hx => absurd (h4 _ hx) (by decide)
        have hmd : (0xff0e : Nat) ∉ m := by
          intro hx
          have := hd _ hx
          rw [cjDigit_dot] at this
          cases this
        have : n = m := by
          have h1 : (n ++ 0xff0e :: s).takeWhile (· ≠ 0xff0e) = n := by
            rw [List.takeWhile_append_of_pos (by intro x hx; simp only [decide_eq_true_eq]; rintro rfl; exact hnd hx)]
            simp
          have h2 : (m ++ 0xff0e :: r).takeWhile (· ≠ 0xff0e) = m := by
            rw [List.takeWhile_append_of_pos (by intro x hx; simp only [decide_eq_true_eq]; rintro rfl; exact hmd hx)]
            simp
          rw [← h1, he, h2]
        subst this
        have := hd _ hm6
        rw [h6] at this
        cases this
      · exact hu
    · rename_i hm6
      exact unnumbered_number hn (fun x hx => cjDigit_of (h4 x hx) (fun hx6 => hm6 (hx6 ▸ hx))) h1

/-- C32: exactly what a cj_kdic line parses to: every sense loses its number, except that a number with the digit ６ stays. -/
theorem C32_cj_kdic_exact (word reading : Str) (senses : List (Str × Str)) (final nl : Bool)
    (hw : word ≠ []) (hw' : 0x09 ∉ word) (hr : reading ≠ []) (hr' : 0x5c ∉ reading)
    (hne : senses ≠ []) (hs : ∀ ns ∈ senses, Spec.CjSense ns) :
    cjKdic.parseLine (Spec.cjText word reading senses final nl) =
      .ok ⟨Spec.noSpaces word, [Spec.noSpaces reading],
        senses.map (fun ns => if c!"６" ∈ ns.1 then Spec.numbered ns else ns.2)⟩ := by
  have hsl := cjSense_pieces (senses.map Spec.numbered) (by
    intro w hm
    obtain ⟨ns, hns, rfl⟩ := List.mem_map.1 hm
    obtain ⟨h1, h2, _, h4, _⟩ := hs ns hns
    unfold Spec.numbered
    split
    · exact ⟨h1, h2⟩
    · refine ⟨by simp, ?_⟩
      simp only [List.mem_append, not_or]
      exact ⟨⟨fun hx => absurd (h4 _ hx) (by decide), by decide⟩, h2⟩) final (fun _ => by simpa using hne)
  rw [List.map_map, List.map_congr_left (f := Spec.unnumbered ∘ Spec.numbered) (g := fun ns => if c!"６" ∈ ns.1 then Spec.numbered ns else ns.2)
    (fun ns hns => unnumbered_numbered ns (hs ns hns))] at hsl
  have hnn : 0x0a ∉ join u!"\\n" (senses.map Spec.numbered) ++ (if final then u!"\\n" else []) := by
    intro hm
    rcases List.mem_append.1 hm with hm | hm
    · rcases mem_join hm with hm | ⟨x, h1, h2⟩
      · exact absurd hm (by decide)
      · obtain ⟨ns, hns, rfl⟩ := List.mem_map.1 h1
        obtain ⟨_, _, h3, h4, _⟩ := hs ns hns
        unfold Spec.numbered at h2
        split at h2
        · exact h3 h2
        · simp only [List.mem_append] at h2
          rcases h2 with (h2 | h2) | h2
          · exact absurd (h4 _ h2) (by decide)
          · exact absurd h2 (by decide)
          · exact h3 h2
    · cases final
      · cases hm
      · exact absurd hm (by decide)
  have hmatch : cjLine.first (Spec.cjText word reading senses final nl) [] =
      some (Spec.eol nl, Dict.set (Dict.set (Dict.set [] u!"word" word) u!"reading" reading) u!"senses"
        (join u!"\\n" (senses.map Spec.numbered) ++ (if final then u!"\\n" else []))) := by
    unfold cjLine Spec.cjText
    rw [List.append_assoc _ _ (Spec.eol nl), List.append_assoc _ _ ((if final then u!"\\n" else []) ++ Spec.eol nl),
      ← List.append_assoc (join _ _), List.append_assoc, List.append_assoc, List.append_assoc]
    refine Re.first_seq (Re.first_group' (Re.first_plus word _ [] hw (all_notChr hw') ?_))
      (Re.first_seq (Re.first_lit _ _ _) (Re.first_seq (Re.first_group' (Re.first_plus reading _ _ hr (all_notChr hr') ?_))
        (Re.first_seq (Re.first_lit _ _ _) (Re.first_seq
          (Re.first_group' (Re.first_many _ _ _ (all_dot hnn) (eol_head nl))) ?_))))
    · intro x hx; cases hx; rfl
    · intro x hx; cases hx; rfl
    · cases nl
      · exact Re.first_eol_nil _
      · exact Re.first_eol_nl _
  have hpm : cjKdic.line.pyMatch (Spec.cjText word reading senses final nl) =
      some (Dict.set (Dict.set (Dict.set [] u!"word" word) u!"reading" reading) u!"senses"
        (join u!"\\n" (senses.map Spec.numbered) ++ (if final then u!"\\n" else []))) := by
    show (cjLine.first _ []).map Prod.snd = _
    rw [hmatch]; rfl
  have := parseLine_of_match cjKdic _ _ word _ (some reading) _ hpm rfl rfl
    (fun x hx => by cases hx; exact hr) rfl hsl (by simpa using hne)
  rw [this]
  rfl

/-- C32: so a cj_kdic line parses back to its fields exactly if no sense number contains ６. -/
theorem C32_cj_kdic_iff (word reading : Str) (senses : List (Str × Str)) (final nl : Bool)
    (hw : word ≠ []) (hw' : 0x09 ∉ word) (hr : reading ≠ []) (hr' : 0x5c ∉ reading)
    (hne : senses ≠ []) (hs : ∀ ns ∈ senses, Spec.CjSense ns) :
    cjKdic.parseLine (Spec.cjText word reading senses final nl) =
      .ok ⟨Spec.noSpaces word, [Spec.noSpaces reading], senses.map Prod.snd⟩ ↔ ∀ ns ∈ senses, c!"６" ∉ ns.1 := by
  rw [C32_cj_kdic_exact word reading senses final nl hw hw' hr hr' hne hs]
  simp only [Except.ok.injEq, Entry.mk.injEq, true_and]
  rw [List.map_inj_left]
  constructor
  · intro h ns hns h6
    have := h ns hns
    rw [if_pos h6] at this
    have hl := congrArg List.length this
    have hn : ns.1 ≠ [] := by intro h0; rw [h0] at h6; cases h6
    simp [Spec.numbered, hn] at hl
    omega
  · intro h ns hns
    rw [if_neg (h ns hns)]

example : (∀ ns ∈ [(u!"５", u!"五"), (u!"１６", u!"六"), ([], u!"七")], Spec.CjSense ns) ∧
    [(u!"５", u!"五"), (u!"１６", u!"六"), ([], u!"七")].map (fun ns => if c!"６" ∈ ns.1 then Spec.numbered ns else ns.2) =
      [u!"五", u!"１６．六", u!"七"] := by
  constructor <;> decide +kernel

end Cjk
