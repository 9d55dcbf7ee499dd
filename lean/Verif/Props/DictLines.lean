import Verif.Props.DictFormat
/-!
# C31, C32: dictionary lines parse back to their fields
-/

namespace Cjk
open Py

theorem replaceChr_nil_eq (s : Str) : replaceChr 0x20 [] s = Spec.noSpaces s := by
  unfold replaceChr Spec.noSpaces
  induction s with
  | nil => rfl
  | cons c s ih =>
    rw [List.flatMap_cons, List.filter_cons, ih]
    by_cases h : c = 0x20 <;> simp [h]

theorem noSpaces_of_not_mem {s : Str} (h : 0x20 ∉ s) : Spec.noSpaces s = s := by
  unfold Spec.noSpaces
  rw [List.filter_eq_self]
  intro c hc
  simp only [bne_iff_ne, ne_eq]
  rintro rfl; exact h hc

theorem noSpaces_idem (s : Str) : Spec.noSpaces (Spec.noSpaces s) = Spec.noSpaces s := by
  unfold Spec.noSpaces; simp

/-- What `parse_line` does once the patterns have matched. -/
theorem parseLine_of_match (f : RegexFormat) (s : Str) (caps : Caps) (w sl : Str) (r : Option Str) (senses : List Str)
    (hm : f.line.pyMatch s = some caps) (hw : Dict.get? caps u!"word" = some w)
    (hr : Dict.get? caps u!"reading" = r) (hrne : ∀ x, r = some x → x ≠ [])
    (hs : Dict.get? caps u!"senses" = some sl)
    (hsenses : (f.sense.finditer sl).map (fun m => (Dict.get? m.2 u!"sense").getD []) = senses) (hne : senses ≠ []) :
    f.parseLine s = .ok ⟨Spec.noSpaces w, [Spec.noSpaces (r.getD w)], senses⟩ := by
  unfold RegexFormat.parseLine
  simp only [hm, hw, hr, hs, hsenses, replaceChr_nil_eq]
  have h1 : senses.isEmpty = false := by cases senses with
    | nil => exact absurd rfl hne
    | cons _ _ => rfl
  simp only [h1, Entry.new, List.length_singleton, true_or, if_true, Bool.false_eq_true, if_false]
  cases r with
  | none => simp [noSpaces_idem]
  | some x =>
    have : x.isEmpty = false := by cases x with
      | nil => exact absurd rfl (hrne _ rfl)
      | cons _ _ => rfl
    simp [this]

/-! ### The sense patterns -/

theorem notChr_of_ne {x c : Nat} (h : c ≠ x) : notChr x c = true := by simp [notChr, h]
theorem notChr_self (x : Nat) : notChr x x = false := by simp [notChr]

theorem all_notChr {x : Nat} {s : Str} (h : x ∉ s) : ∀ c ∈ s, notChr x c = true := by
  intro c hc; apply notChr_of_ne; rintro rfl; exact h hc

theorem all_dot {s : Str} (h : 0x0a ∉ s) : ∀ c ∈ s, Re.dot c = true := by
  intro c hc; simp only [Re.dot, bne_iff_ne, ne_eq]; rintro rfl; exact h hc

theorem eol_head (nl : Bool) : ∀ x, (Spec.eol nl).head? = some x → Re.dot x = false := by
  intro x h
  cases nl
  · cases h
  · cases h; rfl

/-- `/sense` at the front of `/sense/...`. -/
theorem slashSense_first (s t : Str) (hs : s ≠ []) (hs' : 0x2f ∉ s) (ht : t.head? = some 0x2f) (c : Caps) :
    slashSense.first ((u!"/" ++ s) ++ t) c = some (t, Dict.set c u!"sense" s) := by
  unfold slashSense
  rw [List.append_assoc]
  refine Re.first_seq (Re.first_lit _ _ _) (Re.first_group' (Re.first_plus s t c hs (all_notChr hs') ?_))
  intro x hx; rw [ht] at hx; cases hx; rfl

theorem slashSense_end : slashSense.finditer u!"/" = [] := by decide +kernel

theorem slashSense_finditer (senses : List Str) (h1 : ∀ s ∈ senses, s ≠ []) (h2 : ∀ s ∈ senses, 0x2f ∉ s) :
    (slashSense.finditer (Spec.slashes senses)).map (fun m => (Dict.get? m.2 u!"sense").getD []) = senses := by
  induction senses with
  | nil => exact congrArg _ slashSense_end
  | cons s senses ih =>
    have hsplit : Spec.slashes (s :: senses) = (u!"/" ++ s) ++ Spec.slashes senses := by
      simp [Spec.slashes]
    have hhead : (Spec.slashes senses).head? = some 0x2f := by
      cases senses <;> rfl
    rw [hsplit, Re.finditer_match _ _ _ _ (by simp) (slashSense_first s _ (h1 s (by simp)) (h2 s (by simp)) hhead [])]
    simp only [List.map_cons]
    rw [ih (fun x hx => h1 x (by simp [hx])) (fun x hx => h2 x (by simp [hx]))]
    rfl

theorem slashes_no_newline {senses : List Str} (h : ∀ s ∈ senses, 0x0a ∉ s) : 0x0a ∉ Spec.slashes senses := by
  intro hm
  unfold Spec.slashes at hm
  simp only [List.mem_append, List.mem_flatMap] at hm
  rcases hm with ⟨s, hs, hm | hm⟩ | hm
  · exact absurd hm (by decide)
  · exact h s hs hm
  · exact absurd hm (by decide)

theorem slashes_head (senses : List Str) : (Spec.slashes senses).head? = some 0x2f := by
  cases senses <;> rfl

/-! ### C31 -/

/-- C31: an EDICT line parses back to its fields. -/
theorem C31_roundtrip (word : Str) (reading : Option Str) (senses : List Str) (nl : Bool)
    (hw : word ≠ []) (hw' : 0x20 ∉ word)
    (hr : ∀ r, reading = some r → r ≠ [] ∧ 0x5d ∉ r)
    (hne : senses ≠ []) (hs : ∀ s ∈ senses, s ≠ [] ∧ 0x2f ∉ s ∧ 0x0a ∉ s) :
    edict.parseLine (Spec.edictText word reading senses nl) =
      .ok ⟨word, [Spec.noSpaces (reading.getD word)], senses⟩ := by
  have hsl := slashSense_finditer senses (fun s h => (hs s h).1) (fun s h => (hs s h).2.1)
  have hnn := slashes_no_newline (fun s h => (hs s h).2.2)
  have hsenses : ∀ c : Caps, (Re.seq (.group u!"senses" (.many Re.dot)) .eol).first (Spec.slashes senses ++ Spec.eol nl) c =
      some (Spec.eol nl, Dict.set c u!"senses" (Spec.slashes senses)) := by
    intro c
    refine Re.first_seq (Re.first_group' (Re.first_many _ _ c (all_dot hnn) (eol_head nl))) ?_
    cases nl
    · exact Re.first_eol_nil _
    · exact Re.first_eol_nl _
  have hword : ∀ t, (Re.group u!"word" (Re.plus (notChr 0x20))).first (word ++ (u!" " ++ t)) [] =
      some (u!" " ++ t, Dict.set [] u!"word" word) := by
    intro t
    refine Re.first_group' (Re.first_plus word _ [] hw (all_notChr hw') ?_)
    intro x hx; cases hx; rfl
  have hmatch : edictLine.first (Spec.edictText word reading senses nl) [] =
      some (Spec.eol nl, Dict.set (match reading with
        | none => Dict.set [] u!"word" word
        | some r => Dict.set (Dict.set [] u!"word" word) u!"reading" r) u!"senses" (Spec.slashes senses)) := by
    unfold edictLine Spec.edictText
    simp only [List.append_assoc]
    refine Re.first_seq (hword _) (Re.first_seq (Re.first_lit _ _ _) ?_)
    cases reading with
    | none =>
      refine Re.first_seq (s1 := Spec.slashes senses ++ Spec.eol nl) (c1 := Dict.set [] u!"word" word) ?_ (hsenses _)
      refine (Re.first_alt_right ?_).trans (Re.first_eps _ _)
      apply Re.run_seq_nil_left
      apply Re.run_lit_ne
      rintro ⟨t, ht⟩
      have h1 := slashes_head senses
      have h2 : (u!"[" ++ t).head? = (Spec.slashes senses ++ Spec.eol nl).head? := by rw [ht]; rfl
      have h3 : (Spec.slashes senses ++ Spec.eol nl).head? = some 0x2f := by rw [List.head?_append, h1]; rfl
      rw [h3] at h2
      cases h2
    | some r =>
      obtain ⟨hr1, hr2⟩ := hr r rfl
      simp only [List.append_assoc]
      refine Re.first_seq (Re.first_alt_left (Re.first_seq (Re.first_lit _ _ _)
        (Re.first_seq (Re.first_group' (Re.first_plus r _ _ hr1 (all_notChr hr2) ?_)) (Re.first_lit _ _ _)))) (hsenses _)
      intro x hx; cases hx; rfl
  have hpm : edict.line.pyMatch (Spec.edictText word reading senses nl) = some (Dict.set (match reading with
        | none => Dict.set [] u!"word" word
        | some r => Dict.set (Dict.set [] u!"word" word) u!"reading" r) u!"senses" (Spec.slashes senses)) := by
    show (edictLine.first _ []).map Prod.snd = _
    rw [hmatch]; rfl
  have := parseLine_of_match edict _ _ word (Spec.slashes senses) reading senses hpm
    (by cases reading <;> rfl) (by cases reading <;> rfl) (fun x hx => (hr x hx).1) (by cases reading <;> rfl) hsl hne
  rw [this, noSpaces_of_not_mem hw']

/-- The hypotheses of `C31_roundtrip` are met by real entries. -/
example : edict.parseLine (Spec.edictText u!"明日" (some u!"あした") [u!"(n-t) tomorrow", u!"near future"] true) =
    .ok ⟨u!"明日", [u!"あした"], [u!"(n-t) tomorrow", u!"near future"]⟩ :=
  C31_roundtrip _ _ _ _ (by decide) (by decide) (by intro r h; cases h; decide) (by decide) (by decide)

/-! ### C32: CEDICT -/

theorem slashSense_skip_space (t : Str) : slashSense.finditer (u!" " ++ t) = slashSense.finditer t := by
  refine Re.finditer_skip _ _ _ ?_
  rw [Re.first_eq_none]
  apply Re.run_seq_nil_left
  apply Re.run_lit_ne
  rintro ⟨u, hu⟩
  cases hu

/-- C32: a CEDICT line parses back to its simplified word, its reading with the spaces removed, and
its senses. -/
theorem C32_cedict (trad word : Str) (reading : Option Str) (senses : List Str) (nl : Bool)
    (ht : trad ≠ []) (ht' : 0x20 ∉ trad) (hw : word ≠ []) (hw' : 0x20 ∉ word)
    (hr : ∀ r, reading = some r → r ≠ [] ∧ 0x5d ∉ r)
    (hne : senses ≠ []) (hs : ∀ s ∈ senses, s ≠ [] ∧ 0x2f ∉ s ∧ 0x0a ∉ s) :
    cedict.parseLine (Spec.cedictText trad word reading senses nl) =
      .ok ⟨word, [Spec.noSpaces (reading.getD word)], senses⟩ := by
  have hsl := slashSense_finditer senses (fun s h => (hs s h).1) (fun s h => (hs s h).2.1)
  have hnn := slashes_no_newline (fun s h => (hs s h).2.2)
  have hsenses : ∀ (l : Str) (c : Caps), 0x0a ∉ l → (Re.group u!"senses" (.many Re.dot)).first (l ++ Spec.eol nl) c =
      some (Spec.eol nl, Dict.set c u!"senses" l) := by
    intro l c hl
    exact Re.first_group' (Re.first_many _ _ c (all_dot hl) (eol_head nl))
  have hpl : ∀ (w t : Str) (c : Caps), w ≠ [] → 0x20 ∉ w → (Re.plus (notChr 0x20)).first (w ++ (u!" " ++ t)) c =
      some (u!" " ++ t, c) := by
    intro w t c h1 h2
    refine Re.first_plus w _ c h1 (all_notChr h2) ?_
    intro x hx; cases hx; rfl
  have hmatch : cedictLine.first (Spec.cedictText trad word reading senses nl) [] =
      some (Spec.eol nl, match reading with
        | none => Dict.set (Dict.set [] u!"word" word) u!"senses" (Spec.slashes senses)
        | some r => Dict.set (Dict.set (Dict.set [] u!"word" word) u!"reading" r) u!"senses" (u!" " ++ Spec.slashes senses)) := by
    unfold cedictLine Spec.cedictText
    simp only [List.append_assoc]
    refine Re.first_seq (hpl trad _ _ ht ht') (Re.first_seq (Re.first_lit _ _ _)
      (Re.first_seq (Re.first_group' (hpl word _ _ hw hw')) (Re.first_seq (Re.first_lit _ _ _) ?_)))
    cases reading with
    | none =>
      refine Re.first_seq (s1 := Spec.slashes senses ++ Spec.eol nl) (c1 := Dict.set [] u!"word" word) ?_ (hsenses _ _ hnn)
      refine (Re.first_alt_right ?_).trans (Re.first_eps _ _)
      apply Re.run_seq_nil_left
      apply Re.run_lit_ne
      rintro ⟨t, ht⟩
      have h1 := slashes_head senses
      have h2 : (u!"[" ++ t).head? = (Spec.slashes senses ++ Spec.eol nl).head? := by rw [ht]; rfl
      have h3 : (Spec.slashes senses ++ Spec.eol nl).head? = some 0x2f := by rw [List.head?_append, h1]; rfl
      rw [h3] at h2
      cases h2
    | some r =>
      obtain ⟨hr1, hr2⟩ := hr r rfl
      have hsp : (u!"[" ++ (r ++ u!"] ")) ++ (Spec.slashes senses ++ Spec.eol nl) =
          u!"[" ++ (r ++ (u!"]" ++ ((u!" " ++ Spec.slashes senses) ++ Spec.eol nl))) := by simp
      simp only
      rw [hsp]
      refine Re.first_seq (Re.first_alt_left (Re.first_seq (Re.first_lit _ _ _)
        (Re.first_seq (Re.first_group' (Re.first_plus r _ _ hr1 (all_notChr hr2) ?_)) (Re.first_lit _ _ _))))
        (hsenses _ _ (by intro hm; rcases List.mem_append.1 hm with hm | hm; exact absurd hm (by decide); exact hnn hm))
      intro x hx; cases hx; rfl
  have hpm : cedict.line.pyMatch (Spec.cedictText trad word reading senses nl) = some (match reading with
        | none => Dict.set (Dict.set [] u!"word" word) u!"senses" (Spec.slashes senses)
        | some r => Dict.set (Dict.set (Dict.set [] u!"word" word) u!"reading" r) u!"senses" (u!" " ++ Spec.slashes senses)) := by
    cases reading <;> exact congrArg (Option.map Prod.snd) hmatch
  have := parseLine_of_match cedict _ _ word (match reading with
      | none => Spec.slashes senses
      | some _ => u!" " ++ Spec.slashes senses) reading senses hpm
    (by cases reading <;> rfl) (by cases reading <;> rfl) (fun x hx => (hr x hx).1) (by cases reading <;> rfl)
    (by cases reading
        · exact hsl
        · simp only [cedict]; rw [slashSense_skip_space]; exact hsl) hne
  rw [this, noSpaces_of_not_mem hw']

example : cedict.parseLine (Spec.cedictText u!"愛好" u!"爱好" (some u!"ai4 hao4") [u!"to like", u!"hobby"] true) =
    .ok ⟨u!"爱好", [u!"ai4hao4"], [u!"to like", u!"hobby"]⟩ :=
  C32_cedict _ _ _ _ _ (by decide) (by decide) (by decide) (by decide) (by intro r h; cases h; decide) (by decide) (by decide)

/-! ### C32: jc_kdic -/

theorem jcSense_end : jcSense.finditer [] = [] := by decide +kernel

theorem jcSense_finditer (senses : List Str) (h1 : ∀ s ∈ senses, s ≠ []) (h2 : ∀ s ∈ senses, c!"，" ∉ s) :
    (jcSense.finditer (join u!"，" senses)).map (fun m => (Dict.get? m.2 u!"sense").getD []) = senses := by
  have hgrp : ∀ (s t : Str), s ≠ [] → c!"，" ∉ s → (∀ x, t.head? = some x → notChr c!"，" x = false) →
      (Re.group u!"sense" (Re.plus (notChr c!"，"))).first (s ++ t) [] = some (t, Dict.set [] u!"sense" s) := by
    intro s t hs hs' ht
    exact Re.first_group' (Re.first_plus s t [] hs (all_notChr hs') ht)
  induction senses with
  | nil => exact congrArg _ jcSense_end
  | cons s senses ih =>
    cases senses with
    | nil =>
      have hf : jcSense.first (s ++ []) [] = some ([], Dict.set [] u!"sense" s) :=
        Re.first_seq (hgrp s [] (h1 s (by simp)) (h2 s (by simp)) (by intro x hx; cases hx))
          ((Re.first_alt_right (Re.run_lit_ne _ _ _ (by rintro ⟨t, ht⟩; cases ht))).trans (Re.first_eps _ _))
      have := Re.finditer_match jcSense s [] _ (h1 s (by simp)) hf
      rw [List.append_nil] at this
      simp only [join]
      rw [this, jcSense_end]
      rfl
    | cons s' senses =>
      have ih' := ih (fun x hx => h1 x (by simp [hx])) (fun x hx => h2 x (by simp [hx]))
      have hsplit : join u!"，" (s :: s' :: senses) = (s ++ u!"，") ++ join u!"，" (s' :: senses) := rfl
      have hf : jcSense.first ((s ++ u!"，") ++ join u!"，" (s' :: senses)) [] =
          some (join u!"，" (s' :: senses), Dict.set [] u!"sense" s) := by
        rw [List.append_assoc]
        exact Re.first_seq (hgrp s _ (h1 s (by simp)) (h2 s (by simp)) (by intro x hx; cases hx; rfl))
          (Re.first_alt_left (Re.first_lit _ _ _))
      rw [hsplit, Re.finditer_match _ _ _ _ (by simp) hf]
      simp only [List.map_cons]
      rw [ih']
      rfl

theorem mem_join {sep : Str} {l : List Str} {c : Chr} (h : c ∈ join sep l) : c ∈ sep ∨ ∃ s ∈ l, c ∈ s := by
  induction l with
  | nil => simp [join] at h
  | cons p ps ih =>
    cases ps with
    | nil => exact Or.inr ⟨p, by simp, by simpa [join] using h⟩
    | cons q ps =>
      simp only [join, List.mem_append] at h
      rcases h with (h | h) | h
      · exact Or.inr ⟨p, by simp, h⟩
      · exact Or.inl h
      · rcases ih h with h | ⟨s, hs, hc⟩
        · exact Or.inl h
        · exact Or.inr ⟨s, List.mem_cons_of_mem _ hs, hc⟩

/-- C32: a jc_kdic line parses back to its fields. -/
theorem C32_jc_kdic (word reading : Str) (senses : List Str) (nl : Bool)
    (hw : word ≠ []) (hw' : 0x20 ∉ word) (hr : reading ≠ []) (hr' : 0x5d ∉ reading)
    (hne : senses ≠ []) (hs : ∀ s ∈ senses, s ≠ [] ∧ c!"，" ∉ s ∧ 0x0a ∉ s) :
    jcKdic.parseLine (Spec.jcText word reading senses nl) = .ok ⟨word, [Spec.noSpaces reading], senses⟩ := by
  have hsl := jcSense_finditer senses (fun s h => (hs s h).1) (fun s h => (hs s h).2.1)
  have hnn : 0x0a ∉ join u!"，" senses := by
    intro hm
    rcases mem_join hm with hm | ⟨s, h1, h2⟩
    · exact absurd hm (by decide)
    · exact (hs s h1).2.2 h2
  have hmatch : jcLine.first (Spec.jcText word reading senses nl) [] =
      some (Spec.eol nl, Dict.set (Dict.set (Dict.set [] u!"word" word) u!"reading" reading) u!"senses" (join u!"，" senses)) := by
    unfold jcLine Spec.jcText
    simp only [List.append_assoc]
    refine Re.first_seq (Re.first_group' (Re.first_plus word _ [] hw (all_notChr hw') ?_))
      (Re.first_seq (Re.first_lit _ _ _) (Re.first_seq (Re.first_group' (Re.first_plus reading _ _ hr (all_notChr hr') ?_))
        (Re.first_seq (Re.first_lit _ _ _) (Re.first_seq
          (Re.first_group' (Re.first_many _ _ _ (all_dot hnn) (eol_head nl))) ?_))))
    · intro x hx; cases hx; rfl
    · intro x hx; cases hx; rfl
    · cases nl
      · exact Re.first_eol_nil _
      · exact Re.first_eol_nl _
  have hpm : jcKdic.line.pyMatch (Spec.jcText word reading senses nl) =
      some (Dict.set (Dict.set (Dict.set [] u!"word" word) u!"reading" reading) u!"senses" (join u!"，" senses)) := by
    show (jcLine.first _ []).map Prod.snd = _
    rw [hmatch]; rfl
  have := parseLine_of_match jcKdic _ _ word (join u!"，" senses) (some reading) senses hpm rfl rfl
    (fun x hx => by cases hx; exact hr) rfl hsl hne
  rw [this, noSpaces_of_not_mem hw']
  rfl

example : jcKdic.parseLine (Spec.jcText u!"愛好" u!"あいこう" [u!"爱好", u!"嗜好"] true) =
    .ok ⟨u!"愛好", [u!"あいこう"], [u!"爱好", u!"嗜好"]⟩ :=
  C32_jc_kdic _ _ _ _ (by decide) (by decide) (by decide) (by decide) (by decide) (by decide)

/-! ### C32: cj_kdic -/

theorem cjSense_end : cjSense.finditer [] = [] := by decide +kernel

/-- What the pattern needs to recognise a sense number: full-width digits without ６. -/
def cjNumber (n : Str) : Prop := ∀ c ∈ n, Spec.wideDigit c ∧ c ≠ c!"６"

instance (n : Str) : Decidable (cjNumber n) := inferInstanceAs (Decidable (∀ _ ∈ _, _))

theorem cjDigit_of {c : Chr} (h : Spec.wideDigit c) (h6 : c ≠ c!"６") : cjDigit c = true := by
  unfold Spec.wideDigit at h
  obtain ⟨h1, h2⟩ := h
  obtain ⟨k, rfl⟩ : ∃ k, c = 0xff10 + k := ⟨c - 0xff10, by omega⟩
  have hk : k < 10 := by omega
  have hk6 : k ≠ 6 := by rintro rfl; exact h6 rfl
  have : ∀ k < 10, k ≠ 6 → cjDigit (0xff10 + k) = true := by decide +kernel
  exact this k hk hk6

theorem wideDigit_of_cjDigit {c : Chr} (h : cjDigit c = true) : Spec.wideDigit c := by
  have : ∀ c ∈ u!"１２３４５７８９０", Spec.wideDigit c := by decide +kernel
  apply this
  simpa [cjDigit, List.contains_iff_mem] using h

/-- Conditions on a sense of cj_kdic: non-empty text without backslash and newline; the number consists
of full-width digits other than ６; without a number the text does not begin with a full-width digit. -/
def cjOk (ns : Str × Str) : Prop :=
  ns.2 ≠ [] ∧ 0x5c ∉ ns.2 ∧ 0x0a ∉ ns.2 ∧ cjNumber ns.1 ∧ (ns.1 = [] → ∀ c ∈ ns.2.head?, ¬ Spec.wideDigit c)

instance (ns : Str × Str) : Decidable (cjOk ns) := inferInstanceAs (Decidable (_ ∧ _ ∧ _ ∧ _ ∧ (_ → ∀ _ ∈ _, _)))

/-- One sense at the front, followed by nothing or a backslash. -/
theorem cjSense_prefix (ns : Str × Str) (h : cjOk ns) (t : Str) (ht : ∀ x, t.head? = some x → x = 0x5c) :
    ∃ c, (∀ r, Re.first (Re.opt (.group u!"3" (Re.lit u!"\\n"))) t c = some r →
        cjSense.first (Spec.numbered ns ++ t) [] = some r) ∧
      Dict.get? c u!"sense" = some ns.2 ∧ Spec.numbered ns ≠ [] := by
  obtain ⟨n, s⟩ := ns
  obtain ⟨h1, h2, h3, h4, h5⟩ := h
  simp only at h1 h2 h3 h4 h5
  have hsense : ∀ c : Caps, (Re.group u!"sense" (Re.plus (notChr 0x5c))).first (s ++ t) c =
      some (t, Dict.set c u!"sense" s) := by
    intro c
    refine Re.first_group' (Re.first_plus s t c h1 (all_notChr h2) ?_)
    intro x hx; rw [ht x hx]; rfl
  by_cases hn : n = []
  · subst hn
    refine ⟨Dict.set [] u!"sense" s, ?_, by rw [Dict.get?_set, if_pos rfl], by simp [Spec.numbered, h1]⟩
    intro r hr
    refine Re.first_seq (s1 := s ++ t) (c1 := []) ?_ (Re.first_seq (hsense []) hr)
    refine (Re.first_alt_right ?_).trans (Re.first_eps _ _)
    simp only [Re.run, List.map_eq_nil_iff]
    obtain ⟨x, s', rfl⟩ := List.exists_cons_of_ne_nil h1
    have hx : cjDigit x = false := by
      cases hd : cjDigit x with
      | false => rfl
      | true => exact absurd (wideDigit_of_cjDigit hd) (h5 rfl x rfl)
    simp [Spec.numbered, Re.plus, Re.run, hx]
  · refine ⟨Dict.set (Dict.set [] u!"1" (n ++ u!"．")) u!"sense" s, ?_, by rw [Dict.get?_set, if_pos rfl], by simp [Spec.numbered]; split <;> simp [*]⟩
    intro r hr
    have hsp : Spec.numbered (n, s) ++ t = (n ++ u!"．") ++ (s ++ t) := by
      simp [Spec.numbered, hn]
    rw [hsp]
    refine Re.first_seq (Re.first_alt_left (Re.first_group' ?_)) (Re.first_seq (hsense _) hr)
    rw [List.append_assoc]
    refine Re.first_seq (Re.first_plus n _ _ hn ?_ ?_) (Re.first_lit _ _ _)
    · intro x hx; exact cjDigit_of (h4 x hx).1 (h4 x hx).2
    · intro x hx; cases hx; decide

theorem cjSense_finditer (senses : List (Str × Str)) (h : ∀ ns ∈ senses, cjOk ns) (final : Bool) (hf : final = true → senses ≠ []) :
    (cjSense.finditer (join u!"\\n" (senses.map Spec.numbered) ++ (if final then u!"\\n" else []))).map
      (fun m => (Dict.get? m.2 u!"sense").getD []) = senses.map Prod.snd := by
  induction senses with
  | nil =>
    cases final with
    | false => exact congrArg _ cjSense_end
    | true => exact absurd rfl (hf rfl)
  | cons ns senses ih =>
    have hopt : ∀ (t : Str) (c : Caps), Re.first (Re.opt (.group u!"3" (Re.lit u!"\\n"))) (u!"\\n" ++ t) c =
        some (t, Dict.set c u!"3" u!"\\n") := fun t c => Re.first_alt_left (Re.first_group' (Re.first_lit _ _ _))
    have hkeep : ∀ c : Caps, Dict.get? (Dict.set c u!"3" u!"\\n") u!"sense" = Dict.get? c u!"sense" := by
      intro c; rw [Dict.get?_set, if_neg (by decide)]
    have hmid : ∀ t : Str, (cjSense.finditer (Spec.numbered ns ++ u!"\\n" ++ t)).map
        (fun m => (Dict.get? m.2 u!"sense").getD []) =
        ns.2 :: (cjSense.finditer t).map (fun m => (Dict.get? m.2 u!"sense").getD []) := by
      intro t
      obtain ⟨c, hc1, hc2, hc3⟩ := cjSense_prefix ns (h ns (by simp)) (u!"\\n" ++ t) (by intro x hx; cases hx; rfl)
      have := hc1 _ (hopt t c)
      rw [← List.append_assoc] at this
      rw [Re.finditer_match _ _ _ _ (by simp) this]
      simp only [List.map_cons, hkeep, hc2]
      rfl
    cases senses with
    | nil =>
      cases final with
      | true =>
        have := hmid []
        simp only [List.append_nil, cjSense_end] at this
        simpa [join] using this
      | false =>
        obtain ⟨c, hc1, hc2, hc3⟩ := cjSense_prefix ns (h ns (by simp)) [] (by intro x hx; cases hx)
        have hend : Re.first (Re.opt (.group u!"3" (Re.lit u!"\\n"))) [] c = some ([], c) := by
          refine (Re.first_alt_right ?_).trans (Re.first_eps _ _)
          rfl
        have := Re.finditer_match _ _ _ _ hc3 (hc1 _ hend)
        simp only [List.append_nil] at this
        simp only [List.map_cons, List.map_nil, join, Bool.false_eq_true, if_false, List.append_nil]
        rw [this, cjSense_end]
        simp [hc2]
    | cons ns' senses =>
      have ih' := ih (fun x hx => h x (by simp [hx])) (by simp)
      have hsplit : join u!"\\n" ((ns :: ns' :: senses).map Spec.numbered) =
          Spec.numbered ns ++ u!"\\n" ++ join u!"\\n" ((ns' :: senses).map Spec.numbered) := rfl
      rw [hsplit, List.append_assoc, hmid, ih']
      rfl

/-- C32 (partial): a cj_kdic line parses back to its fields, the sense numbers removed, provided no
number contains the digit ６. -/
theorem C32_cj_kdic_partial (word reading : Str) (senses : List (Str × Str)) (final nl : Bool)
    (hw : word ≠ []) (hw' : 0x09 ∉ word) (hr : reading ≠ []) (hr' : 0x5c ∉ reading)
    (hne : senses ≠ []) (hs : ∀ ns ∈ senses, cjOk ns) :
    cjKdic.parseLine (Spec.cjText word reading senses final nl) =
      .ok ⟨Spec.noSpaces word, [Spec.noSpaces reading], senses.map Prod.snd⟩ := by
  have hsl := cjSense_finditer senses hs final (fun _ => hne)
  have hnn : 0x0a ∉ join u!"\\n" (senses.map Spec.numbered) ++ (if final then u!"\\n" else []) := by
    intro hm
    rcases List.mem_append.1 hm with hm | hm
    · rcases mem_join hm with hm | ⟨x, h1, h2⟩
      · exact absurd hm (by decide)
      · obtain ⟨ns, hns, rfl⟩ := List.mem_map.1 h1
        obtain ⟨_, _, h3, h4, _⟩ := hs ns hns
        unfold Spec.numbered at h2
        split at h2
        · exact h3 h2
        · simp only [List.mem_append] at h2
          rcases h2 with (h2 | h2) | h2
          · exact absurd (h4 _ h2).1 (by decide)
          · exact absurd h2 (by decide)
          · exact h3 h2
    · cases final
      · cases hm
      · exact absurd hm (by decide)
  have hmatch : cjLine.first (Spec.cjText word reading senses final nl) [] =
      some (Spec.eol nl, Dict.set (Dict.set (Dict.set [] u!"word" word) u!"reading" reading) u!"senses"
        (join u!"\\n" (senses.map Spec.numbered) ++ (if final then u!"\\n" else []))) := by
    unfold cjLine Spec.cjText
    rw [List.append_assoc _ _ (Spec.eol nl), List.append_assoc _ _ ((if final then u!"\\n" else []) ++ Spec.eol nl),
      ← List.append_assoc (join _ _), List.append_assoc, List.append_assoc, List.append_assoc]
    refine Re.first_seq (Re.first_group' (Re.first_plus word _ [] hw (all_notChr hw') ?_))
      (Re.first_seq (Re.first_lit _ _ _) (Re.first_seq (Re.first_group' (Re.first_plus reading _ _ hr (all_notChr hr') ?_))
        (Re.first_seq (Re.first_lit _ _ _) (Re.first_seq
          (Re.first_group' (Re.first_many _ _ _ (all_dot hnn) (eol_head nl))) ?_))))
    · intro x hx; cases hx; rfl
    · intro x hx; cases hx; rfl
    · cases nl
      · exact Re.first_eol_nil _
      · exact Re.first_eol_nl _
  have hpm : cjKdic.line.pyMatch (Spec.cjText word reading senses final nl) =
      some (Dict.set (Dict.set (Dict.set [] u!"word" word) u!"reading" reading) u!"senses"
        (join u!"\\n" (senses.map Spec.numbered) ++ (if final then u!"\\n" else []))) := by
    show (cjLine.first _ []).map Prod.snd = _
    rw [hmatch]; rfl
  have := parseLine_of_match cjKdic _ _ word _ (some reading) (senses.map Prod.snd) hpm rfl rfl
    (fun x hx => by cases hx; exact hr) rfl hsl (by simpa using hne)
  rw [this]
  rfl

example : cjKdic.parseLine (Spec.cjText u!"爱好" u!"aihao" [(u!"１", u!"好む"), (u!"２", u!"趣味"), ([], u!"x")] false true) =
    .ok ⟨u!"爱好", [u!"aihao"], [u!"好む", u!"趣味", u!"x"]⟩ :=
  C32_cj_kdic_partial _ _ _ _ _ (by decide) (by decide) (by decide) (by decide) (by decide) (by decide +kernel)

/-- C32: the number ６ is not recognised: the sixth sense of a cj_kdic entry keeps its number. -/
theorem C32_six_kept :
    cjKdic.parseLine (Spec.cjText u!"语" u!"yu" [(u!"５", u!"五"), (u!"６", u!"六"), (u!"７", u!"七")] false true) =
      .ok ⟨u!"语", [u!"yu"], [u!"五", u!"６．六", u!"七"]⟩ := by decide +kernel

end Cjk
