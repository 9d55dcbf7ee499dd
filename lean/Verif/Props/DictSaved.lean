import Verif.Props.TextFiles
import Verif.Props.DictLines
import Verif.Props.RadkSaved
/-!
# C188: a dictionary that was read can be saved in its format and read again
-/

namespace Cjk
open Py

/-! ### Specification -/

/-- A field that is read with its spaces removed: an empty one is written as a space. -/
def Spec.dictField (r : Str) : Str := if r = [] then u!" " else r

/-- A line of a dictionary in the format with the given name.  In EDICT and CEDICT a reading that is the word itself is left out; in cj_kdic each sense gets a number. -/
def Spec.dictLine (name word reading : Str) (senses : List Str) : Str :=
  if name = u!"edict" then Spec.edictText word (if reading = word then none else some (Spec.dictField reading)) senses false
  else if name = u!"jc_kdic" then Spec.jcText word (Spec.dictField reading) senses false
  else if name = u!"cj_kdic" then Spec.cjText (Spec.dictField word) (Spec.dictField reading) (senses.map (fun s => (u!"１", s))) false false
  else Spec.cedictText word word (if reading = word then none else some (Spec.dictField reading)) senses false

/-- The lines of an entry: one line if it has one reading, otherwise one for each sense. -/
def Spec.entryLines (name : Str) (e : Entry) : List Str :=
  match e.readings with
  | [r] => [Spec.dictLine name e.word r e.senses]
  | rs => (rs.zip e.senses).map (fun p => Spec.dictLine name e.word p.1 [p.2])

/-- The lines of a saved dictionary, without the header. -/
def Spec.savedDictionary (name : Str) (d : Dict Str Entry) : List Str := d.flatMap (fun e => Spec.entryLines name e.2)

/-- A word that can stand in the format. -/
def Spec.DictWord (name w : Str) : Prop := 0x20 ∉ w ∧ if name = u!"cj_kdic" then 0x09 ∉ w else w ≠ []

/-- A reading that can stand in the format. -/
def Spec.DictReading (name w r : Str) : Prop :=
  0x20 ∉ r ∧ if name = u!"cj_kdic" then 0x5c ∉ r else if name = u!"jc_kdic" then 0x5d ∉ r else r = w ∨ 0x5d ∉ r

/-- A sense that can stand in the format: not empty, without newline and without the separator. -/
def Spec.DictSense (name s : Str) : Prop :=
  s ≠ [] ∧ 0x0a ∉ s ∧ (if name = u!"cj_kdic" then 0x5c else if name = u!"jc_kdic" then c!"，" else 0x2f) ∉ s

/-- An entry that can stand in the format. -/
structure Spec.EntryFits (name : Str) (e : Entry) : Prop where
  word : Spec.DictWord name e.word
  some : e.senses ≠ []
  aligned : Spec.Aligned e
  readings : ∀ r ∈ e.readings, Spec.DictReading name e.word r
  senses : ∀ s ∈ e.senses, Spec.DictSense name s

/-! ### Reading a written line -/

theorem noSpaces_dictField {r : Str} (h : 0x20 ∉ r) : Spec.noSpaces (Spec.dictField r) = r := by
  unfold Spec.dictField
  split
  · rename_i hr; rw [hr]; rfl
  · exact noSpaces_of_not_mem h

theorem dictField_ne (r : Str) : Spec.dictField r ≠ [] := by
  unfold Spec.dictField
  split
  · decide
  · assumption

theorem mem_dictField {r : Str} {c : Chr} (hc : c ∈ Spec.dictField r) : c ∈ r ∨ c = 0x20 := by
  unfold Spec.dictField at hc
  split at hc
  · exact .inr (List.mem_singleton.1 hc)
  · exact .inl hc

theorem eol_none (s : Str) : s ++ Spec.eol false = s := by simp [Spec.eol]

theorem dictLine_reads (f : RegexFormat) (hf : f ∈ knownFormats) {w r : Str} {ss : List Str} (hw : Spec.DictWord f.name w) (hr : Spec.DictReading f.name w r)
    (hne : ss ≠ []) (hs : ∀ s ∈ ss, Spec.DictSense f.name s) (nl : Bool) :
    f.parseLine (Spec.dictLine f.name w r ss ++ Spec.eol nl) = .ok ⟨w, [r], ss⟩ := by
  simp only [knownFormats, List.mem_cons, List.not_mem_nil, or_false] at hf
  have hopt : (0x20 ∉ r ∧ (r = w ∨ 0x5d ∉ r)) → 0x20 ∉ w →
      Spec.noSpaces ((if r = w then none else some (Spec.dictField r) : Option Str).getD w) = r ∧
      ∀ x, (if r = w then none else some (Spec.dictField r) : Option Str) = some x → x ≠ [] ∧ 0x5d ∉ x := by
    intro hr hw
    by_cases h : r = w
    · rw [if_pos h]
      exact ⟨by rw [h]; exact noSpaces_of_not_mem hw, by simp⟩
    · rw [if_neg h]
      refine ⟨noSpaces_dictField hr.1, ?_⟩
      intro x hx
      cases hx
      refine ⟨dictField_ne r, fun hc => ?_⟩
      rcases mem_dictField hc with hc | hc
      · exact (hr.2.resolve_left h) hc
      · cases hc
  rcases hf with rfl | rfl | rfl | rfl
  · simp only [edict, Spec.DictWord, Spec.DictReading, Spec.DictSense, Spec.dictLine, if_neg (show ¬ (u!"edict" = u!"cj_kdic") by decide),
      if_neg (show ¬ (u!"edict" = u!"jc_kdic") by decide), if_true] at hw hr hs ⊢
    obtain ⟨h1, h2⟩ := hopt hr hw.1
    have := C31_roundtrip w (if r = w then none else some (Spec.dictField r)) ss nl hw.2 hw.1 h2 hne (fun s h => ⟨(hs s h).1, (hs s h).2.2, (hs s h).2.1⟩)
    rw [h1] at this
    rw [← this]
    simp only [Spec.edictText, eol_none]
    rfl
  · simp only [jcKdic, Spec.DictWord, Spec.DictReading, Spec.DictSense, Spec.dictLine, if_neg (show ¬ (u!"jc_kdic" = u!"cj_kdic") by decide),
      if_neg (show ¬ (u!"jc_kdic" = u!"edict") by decide), if_true] at hw hr hs ⊢
    have := C32_jc_kdic w (Spec.dictField r) ss nl hw.2 hw.1 (dictField_ne r) (fun hc => by
      rcases mem_dictField hc with hc | hc
      · exact hr.2 hc
      · cases hc) hne (fun s h => ⟨(hs s h).1, (hs s h).2.2, (hs s h).2.1⟩)
    rw [noSpaces_dictField hr.1] at this
    rw [← this]
    simp only [Spec.jcText, eol_none]
    rfl
  · simp only [cjKdic, Spec.DictWord, Spec.DictReading, Spec.DictSense, Spec.dictLine, if_neg (show ¬ (u!"cj_kdic" = u!"jc_kdic") by decide),
      if_neg (show ¬ (u!"cj_kdic" = u!"edict") by decide), if_true] at hw hr hs ⊢
    have := C32_cj_kdic_partial (Spec.dictField w) (Spec.dictField r) (ss.map (fun s => (u!"１", s))) false nl (dictField_ne w) (fun hc => by
      rcases mem_dictField hc with hc | hc
      · exact hw.2 hc
      · cases hc) (dictField_ne r) (fun hc => by
      rcases mem_dictField hc with hc | hc
      · exact hr.2 hc
      · cases hc) (by simpa using hne) (by
      intro ns hns
      obtain ⟨s, h, rfl⟩ := List.mem_map.1 hns
      exact ⟨(hs s h).1, (hs s h).2.2, (hs s h).2.1, (by decide : cjNumber u!"１"), by simp⟩)
    have e : (ss.map (fun s => (u!"１", s))).map Prod.snd = ss := by rw [List.map_map]; exact List.map_id ss
    rw [noSpaces_dictField hr.1, noSpaces_dictField hw.1, e] at this
    rw [← this]
    simp only [Spec.cjText, eol_none]
    rfl
  · simp only [cedict, Spec.DictWord, Spec.DictReading, Spec.DictSense, Spec.dictLine, if_neg (show ¬ (u!"cedict" = u!"cj_kdic") by decide),
      if_neg (show ¬ (u!"cedict" = u!"jc_kdic") by decide), if_neg (show ¬ (u!"cedict" = u!"edict") by decide)] at hw hr hs ⊢
    obtain ⟨h1, h2⟩ := hopt hr hw.1
    have := C32_cedict w w (if r = w then none else some (Spec.dictField r)) ss nl hw.2 hw.1 hw.2 hw.1 h2 hne
      (fun s h => ⟨(hs s h).1, (hs s h).2.2, (hs s h).2.1⟩)
    rw [h1] at this
    rw [← this]
    simp only [Spec.cedictText, eol_none]
    rfl

/-! ### What a line that was read gives -/

theorem cut_fields {x : Chr} {s w t : Str} (h : Spec.cut x s = some (w, t)) : x ∉ w ∧ (∀ c ∈ w, c ∈ s) ∧ ∀ c ∈ t, c ∈ s := by
  unfold Spec.cut at h
  split at h
  · cases h
    refine ⟨fun hc => ?_, fun c hc => (List.takeWhile_sublist _).subset hc, fun c hc => (List.dropWhile_sublist _).subset (List.mem_of_mem_drop hc)⟩
    have := List.all_takeWhile (p := (· != x)) (l := s)
    rw [List.all_eq_true] at this
    simpa using this x hc
  · cases h

theorem bracketed_fields {close t : Str} : (∀ r, (Spec.bracketed close t).1 = some r → r ≠ [] ∧ 0x5d ∉ r ∧ ∀ c ∈ r, c ∈ t) ∧
    ∀ c ∈ (Spec.bracketed close t).2, c ∈ t := by
  unfold Spec.bracketed
  split
  · rename_i u
    split
    · rename_i r v h
      obtain ⟨h1, h2, h3⟩ := cut_fields h
      split
      · rename_i hr
        refine ⟨?_, fun c hc => List.mem_cons_of_mem _ (h3 c (List.mem_of_mem_drop hc))⟩
        intro r' hr'
        cases hr'
        exact ⟨hr.1, h1, fun c hc => List.mem_cons_of_mem _ (h2 c hc)⟩
      · exact ⟨by simp, fun c hc => hc⟩
    · exact ⟨by simp, fun c hc => hc⟩
  · exact ⟨by simp, fun c hc => hc⟩

theorem takeWhile_noNl (s : Str) : 0x0a ∉ s.takeWhile (· != 0x0a) := by
  intro hc
  have := List.all_takeWhile (p := (· != 0x0a)) (l := s)
  rw [List.all_eq_true] at this
  simpa using this _ hc

theorem chomp_fields {s t : Str} (h : Spec.chomp s = some t) : 0x0a ∉ t ∧ ∀ c ∈ t, c ∈ s := by
  unfold Spec.chomp at h
  split at h
  · cases h
  · cases h
    exact ⟨takeWhile_noNl s, fun c hc => (List.takeWhile_sublist _).subset hc⟩

/-- The fields of a line. -/
structure LineFields (Q : Nat → Prop) (name : Str) (e : Entry) : Prop where
  one : e.readings.length = 1
  fits : Spec.EntryFits name e
  chars : (∀ c ∈ e.word, Q c) ∧ (∀ r ∈ e.readings, ∀ c ∈ r, Q c) ∧ ∀ s ∈ e.senses, ∀ c ∈ s, Q c

theorem lineEntry_fields {Q : Nat → Prop} {name word : Str} {reading : Option Str} {senses : List Str} {e : Entry} (h : Spec.lineEntry word reading senses = .ok e)
    (hw : Spec.DictWord name (Spec.unspaced word)) (hr : Spec.DictReading name (Spec.unspaced word) (Spec.unspaced (reading.getD word)))
    (hs : ∀ s ∈ senses, Spec.DictSense name s) (q1 : ∀ c ∈ word, Q c) (q2 : ∀ r, reading = some r → ∀ c ∈ r, Q c) (q3 : ∀ s ∈ senses, ∀ c ∈ s, Q c) :
    LineFields Q name e := by
  unfold Spec.lineEntry at h
  split at h
  · cases h
  · rename_i hne
    cases h
    refine ⟨rfl, ⟨hw, hne, .inl rfl, ?_, hs⟩, ?_, ?_, q3⟩
    · intro r hr'
      rw [List.mem_singleton.1 hr']; exact hr
    · intro c hc
      exact q1 c (List.mem_filter.1 hc).1
    · intro r hr' c hc
      rw [List.mem_singleton.1 hr'] at hc
      have hc' := (List.mem_filter.1 hc).1
      cases hg : reading with
      | none => rw [hg] at hc'; exact q1 c hc'
      | some x => rw [hg] at hc'; exact q2 x hg c hc'

theorem unspaced_space (s : Str) : 0x20 ∉ Spec.unspaced s := by
  intro h
  have := (List.mem_filter.1 h).2
  simp at this

theorem unspaced_same {s : Str} (h : 0x20 ∉ s) : Spec.unspaced s = s := noSpaces_of_not_mem h

theorem mem_unspaced {s : Str} {c : Chr} (h : c ∈ Spec.unspaced s) : c ∈ s := (List.mem_filter.1 h).1

theorem slashPieces_fields {s : Str} (hs : 0x0a ∉ s) : ∀ p ∈ Spec.slashPieces s, (p ≠ [] ∧ 0x0a ∉ p ∧ 0x2f ∉ p) ∧ ∀ c ∈ p, c ∈ s := by
  intro p hp
  unfold Spec.slashPieces at hp
  obtain ⟨h1, h2⟩ := List.mem_filter.1 hp
  have h3 := List.mem_of_mem_drop h1
  have h4 := splitChr_mem_sub _ _ p h3
  exact ⟨⟨by simpa using h2, fun hc => hs (h4 _ hc), not_mem_of_mem_splitChr h3⟩, h4⟩

theorem unnumbered_fields {q : Str} (hq : q ≠ []) : Spec.unnumbered q ≠ [] ∧ ∀ c ∈ Spec.unnumbered q, c ∈ q := by
  unfold Spec.unnumbered
  split
  · rename_i r hr
    split
    · rename_i h
      refine ⟨h.2, fun c hc => ?_⟩
      have : c ∈ q.dropWhile (fun c => u!"１２３４５７８９０".contains c) := by rw [hr]; simp [hc]
      exact (List.dropWhile_sublist _).subset this
    · exact ⟨hq, fun c hc => hc⟩
  · exact ⟨hq, fun c hc => hc⟩

theorem cjPieces_fields (ps : List Str) : ∀ prev, ∀ s ∈ Spec.cjPieces prev ps, s ≠ [] ∧ ∃ p ∈ ps, ∀ c ∈ s, c ∈ p := by
  induction ps with
  | nil => intro prev s hs; cases hs
  | cons p ps ih =>
    intro prev s hs
    simp only [Spec.cjPieces] at hs
    have hq : ∀ c ∈ (if prev = true ∧ p.head? = some c!"n" then p.drop 1 else p), c ∈ p := by
      intro c hc
      split at hc
      · exact List.mem_of_mem_drop hc
      · exact hc
    generalize (if prev = true ∧ p.head? = some c!"n" then p.drop 1 else p) = q at hs hq
    split at hs
    · obtain ⟨h1, p', hp', h2⟩ := ih _ s hs
      exact ⟨h1, p', by simp [hp'], h2⟩
    · rename_i hne
      rcases List.mem_cons.1 hs with rfl | hs
      · obtain ⟨h1, h2⟩ := unnumbered_fields hne
        exact ⟨h1, p, by simp, fun c hc => hq c (h2 c hc)⟩
      · obtain ⟨h1, p', hp', h2⟩ := ih _ s hs
        exact ⟨h1, p', by simp [hp'], h2⟩

theorem parsed_fields {Q : Nat → Prop} (f : RegexFormat) (hf : f ∈ knownFormats) {s : Str} {e : Entry} (h : f.parseLine s = .ok e) (hQ : ∀ c ∈ s, Q c) :
    LineFields Q f.name e := by
  simp only [knownFormats, List.mem_cons, List.not_mem_nil, or_false] at hf
  rcases hf with rfl | rfl | rfl | rfl
  · rw [C92_edict] at h
    unfold Spec.readEdict at h
    cases hc : Spec.cut 0x20 s with
    | none => rw [hc] at h; cases h
    | some p =>
      obtain ⟨word, t⟩ := p
      obtain ⟨c1, c2, c3⟩ := cut_fields hc
      rw [hc] at h
      simp only at h
      split at h
      · cases h
      · rename_i hne
        split at h
        · cases h
        · rename_i senses hch
          obtain ⟨b1, b2⟩ := bracketed_fields (close := u!" ") (t := t)
          obtain ⟨n1, n2⟩ := chomp_fields hch
          have hs := slashPieces_fields n1
          refine lineEntry_fields h ?_ ?_ ?_ (fun c hc => hQ c (c2 c hc)) (fun r hr c hc => hQ c (c3 c ((b1 r hr).2.2 c hc)))
            (fun x hx c hc => hQ c (c3 c (b2 c (n2 c ((hs x hx).2 c hc)))))
          · exact ⟨unspaced_space _, by simpa [edict, unspaced_same c1] using hne⟩
          · refine ⟨unspaced_space _, ?_⟩
            rw [if_neg (by decide), if_neg (by decide)]
            cases hr : (Spec.bracketed u!" " t).1 with
            | none => exact .inl rfl
            | some r => exact .inr (fun hc => (b1 r hr).2.1 (mem_unspaced hc))
          · intro x hx
            exact ⟨(hs x hx).1.1, (hs x hx).1.2.1, by rw [if_neg (by decide), if_neg (by decide)]; exact (hs x hx).1.2.2⟩
  · rw [C92_jc_kdic] at h
    unfold Spec.readJcKdic at h
    cases hc : Spec.cut 0x20 s with
    | none => rw [hc] at h; cases h
    | some p =>
      obtain ⟨word, t⟩ := p
      obtain ⟨c1, c2, c3⟩ := cut_fields hc
      obtain ⟨b1, b2⟩ := bracketed_fields (close := u!"\t") (t := t)
      rw [hc] at h
      simp only at h
      cases hb : Spec.bracketed u!"\t" t with
      | mk o u =>
        rw [hb] at h b1 b2
        cases o with
        | none => cases h
        | some reading =>
          simp only at h
          split at h
          · cases h
          · rename_i senses hch
            obtain ⟨n1, n2⟩ := chomp_fields hch
            split at h
            · cases h
            · rename_i hne
              have hb' := b1 reading rfl
              have hp : ∀ x ∈ (splitChr c!"，" senses).filter (· ≠ []), x ≠ [] ∧ c!"，" ∉ x ∧ ∀ c ∈ x, c ∈ senses := by
                intro x hx
                obtain ⟨h1, h2⟩ := List.mem_filter.1 hx
                exact ⟨by simpa using h2, not_mem_of_mem_splitChr h1, splitChr_mem_sub _ _ x h1⟩
              refine lineEntry_fields h ?_ ?_ ?_ (fun c hc => hQ c (c2 c hc)) (fun r hr c hc => ?_)
                (fun x hx c hc => hQ c (c3 c (b2 c (n2 c ((hp x hx).2.2 c hc)))))
              · exact ⟨unspaced_space _, by simpa [jcKdic, unspaced_same c1] using hne⟩
              · refine ⟨unspaced_space _, ?_⟩
                rw [if_neg (by decide), if_pos (by decide)]
                exact fun hc => hb'.2.1 (mem_unspaced hc)
              · intro x hx
                exact ⟨(hp x hx).1, fun hc => n1 ((hp x hx).2.2 _ hc), by rw [if_neg (by decide), if_pos (by decide)]; exact (hp x hx).2.1⟩
              · cases hr
                exact hQ c (c3 c (hb'.2.2 c hc))
  · rw [C92_cj_kdic] at h
    unfold Spec.readCjKdic at h
    cases hc : Spec.cut 0x09 s with
    | none => rw [hc] at h; cases h
    | some p =>
      obtain ⟨word, t⟩ := p
      obtain ⟨c1, c2, c3⟩ := cut_fields hc
      rw [hc] at h
      simp only at h
      cases hd : Spec.cut 0x5c t with
      | none => rw [hd] at h; cases h
      | some q =>
        obtain ⟨reading, u⟩ := q
        obtain ⟨d1, d2, d3⟩ := cut_fields hd
        rw [hd] at h
        simp only at h
        split at h
        · cases h
        · split at h
          · cases h
          · rename_i senses hch
            obtain ⟨n1, n2⟩ := chomp_fields hch
            have hp : ∀ x ∈ Spec.cjPieces false (splitChr 0x5c senses), x ≠ [] ∧ 0x5c ∉ x ∧ ∀ c ∈ x, c ∈ senses := by
              intro x hx
              obtain ⟨h1, p, hp, h2⟩ := cjPieces_fields _ _ x hx
              exact ⟨h1, fun hc => not_mem_of_mem_splitChr hp (h2 _ hc), fun c hc => splitChr_mem_sub _ _ p hp c (h2 c hc)⟩
            refine lineEntry_fields h ?_ ?_ ?_ (fun c hc => hQ c (c2 c hc)) (fun r hr c hc => ?_)
              (fun x hx c hc => hQ c (c3 c (d3 c (List.mem_of_mem_drop (n2 c ((hp x hx).2.2 c hc))))))
            · refine ⟨unspaced_space _, ?_⟩
              rw [if_pos (by decide)]
              exact fun hc => c1 (mem_unspaced hc)
            · refine ⟨unspaced_space _, ?_⟩
              rw [if_pos (by decide)]
              exact fun hc => d1 (mem_unspaced hc)
            · intro x hx
              exact ⟨(hp x hx).1, fun hc => n1 ((hp x hx).2.2 _ hc), by rw [if_pos (by decide)]; exact (hp x hx).2.1⟩
            · cases hr
              exact hQ c (c3 c (d2 c hc))
  · rw [C92_cedict] at h
    unfold Spec.readCedict at h
    cases hc : Spec.cut 0x20 s with
    | none => rw [hc] at h; cases h
    | some p =>
      obtain ⟨trad, t⟩ := p
      obtain ⟨_, _, c3⟩ := cut_fields hc
      rw [hc] at h
      simp only at h
      cases hd : Spec.cut 0x20 t with
      | none => rw [hd] at h; cases h
      | some q =>
        obtain ⟨word, u⟩ := q
        obtain ⟨d1, d2, d3⟩ := cut_fields hd
        rw [hd] at h
        simp only at h
        split at h
        · cases h
        · rename_i hne
          rw [not_or] at hne
          obtain ⟨b1, b2⟩ := bracketed_fields (close := []) (t := u)
          have hs := slashPieces_fields (takeWhile_noNl (Spec.bracketed [] u).2)
          refine lineEntry_fields h ?_ ?_ ?_ (fun c hc => hQ c (c3 c (d2 c hc))) (fun r hr c hc => hQ c (c3 c (d3 c ((b1 r hr).2.2 c hc))))
            (fun x hx c hc => hQ c (c3 c (d3 c (b2 c ((List.takeWhile_sublist _).subset ((hs x hx).2 c hc))))))
          · exact ⟨unspaced_space _, by simpa [cedict, unspaced_same d1] using hne.2⟩
          · refine ⟨unspaced_space _, ?_⟩
            rw [if_neg (by decide), if_neg (by decide)]
            cases hr : (Spec.bracketed [] u).1 with
            | none => exact .inl rfl
            | some r => exact .inr (fun hc => (b1 r hr).2.1 (mem_unspaced hc))
          · intro x hx
            exact ⟨(hs x hx).1.1, (hs x hx).1.2.1, by rw [if_neg (by decide), if_neg (by decide)]; exact (hs x hx).1.2.2⟩

/-! ### What a dictionary that was read holds -/

structure DictRead (Q : Nat → Prop) (name : Str) (d : Dict Str Entry) : Prop where
  wf : Dict.WF d
  entries : ∀ p ∈ d, p.2.word = p.1 ∧ Spec.EntryFits name p.2 ∧
    (∀ c ∈ p.2.word, Q c) ∧ (∀ r ∈ p.2.readings, ∀ c ∈ r, Q c) ∧ ∀ s ∈ p.2.senses, ∀ c ∈ s, Q c

theorem mem_padded_reading {e : Entry} {r : Str} (h : r ∈ e.padded) : r ∈ e.readings := by
  unfold Entry.padded repeatList at h
  split at h
  · obtain ⟨l, hl, hr⟩ := List.mem_flatten.1 h
    rw [(List.mem_replicate.1 hl).2] at hr
    exact hr
  · exact h

theorem setDict_entry {K V : Type} [DecidableEq K] {d : Dict K V} {k : K} {v : V} {e : K × V} (h : e ∈ Dict.set d k v) : e ∈ d ∨ e = (k, v) := by
  induction d with
  | nil => exact .inr (List.mem_singleton.1 h)
  | cons x d ih =>
    obtain ⟨k', w⟩ := x
    simp only [Dict.set] at h
    split at h
    · rename_i hk
      rcases List.mem_cons.1 h with h | h
      · exact .inr (by rw [h, hk])
      · exact .inl (by simp [h])
    · rcases List.mem_cons.1 h with h | h
      · exact .inl (by simp [h])
      · rcases ih h with h | h
        · exact .inl (by simp [h])
        · exact .inr h

theorem dictRead_add {Q : Nat → Prop} {name : Str} {b b' : Dict Str Entry} {e : Entry} (hb : DictRead Q name b) (he : LineFields Q name e) (h : addEntry b e = .ok b') :
    DictRead Q name b' := by
  unfold addEntry at h
  cases hg : Dict.get? b e.word with
  | none =>
    rw [hg] at h
    cases h
    refine ⟨Dict.WF_set hb.wf _ _, ?_⟩
    intro p hp
    rcases setDict_entry hp with hp | rfl
    · exact hb.entries p hp
    · exact ⟨rfl, he.fits, he.chars⟩
  | some old =>
    rw [hg] at h
    obtain ⟨hw, hf, o1, o2, o3⟩ := hb.entries _ (Dict.mem_of_get?_eq_some hg)
    simp only at hw hf o1 o2 o3
    have hu : old.update e = .ok (⟨old.word, old.padded ++ e.padded, old.senses ++ e.senses⟩, ⟨e.word, e.padded, e.senses⟩) := by
      simp [Entry.update, hw]
    simp only [hu, bind_ok] at h
    cases h
    refine ⟨Dict.WF_set hb.wf _ _, ?_⟩
    intro p hp
    rcases setDict_entry hp with hp | rfl
    · exact hb.entries p hp
    · refine ⟨hw, ⟨hf.word, by simp [hf.some], .inr ?_, ?_, ?_⟩, o1, ?_, ?_⟩
      · simp [Entry.padded_length hf.aligned, Entry.padded_length he.fits.aligned]
      · intro r hr
        rcases List.mem_append.1 hr with hr | hr
        · exact hf.readings r (mem_padded_reading hr)
        · have := he.fits.readings r (mem_padded_reading hr)
          rw [← hw] at this
          exact this
      · intro x hx
        rcases List.mem_append.1 hx with hx | hx
        · exact hf.senses x hx
        · exact he.fits.senses x hx
      · intro r hr
        rcases List.mem_append.1 hr with hr | hr
        · exact o2 r (mem_padded_reading hr)
        · exact he.chars.2.1 r (mem_padded_reading hr)
      · intro x hx
        rcases List.mem_append.1 hx with hx | hx
        · exact o3 x hx
        · exact he.chars.2.2 x hx

theorem dictRead_loop {Q : Nat → Prop} (f : RegexFormat) (ls : List Str) (hl : ∀ l ∈ ls, ∀ e, f.parseLine l = .ok e → LineFields Q f.name e) :
    ∀ {b d : Dict Str Entry}, DictRead Q f.name b → parseLoop f.parseLine b ls = .ok d → DictRead Q f.name d := by
  induction ls with
  | nil => intro b d hb h; cases h; exact hb
  | cons l ls ih =>
    intro b d hb h
    simp only [parseLoop] at h
    cases hp : f.parseLine l with
    | error x => rw [hp] at h; cases h
    | ok e =>
      rw [hp, bind_ok] at h
      cases ha : addEntry b e with
      | error x => rw [ha] at h; cases h
      | ok b' =>
        rw [ha, bind_ok] at h
        exact ih (fun l' h' => hl l' (by simp [h'])) (dictRead_add hb (hl l (by simp) e hp) ha) h

theorem loaded_format {name h : Str} (hh : Spec.isHeader name h) : ∃ f ∈ knownFormats, f.name = name ∧ ∀ ls, loadDictionary (h :: ls) = parseLoop f.parseLine [] ls := by
  obtain ⟨f, hf, rfl⟩ := isHeader_known hh
  refine ⟨f, hf, rfl, fun ls => ?_⟩
  have hd : detectFormat h = .ok f := ((C33_detect_exact h).1 f).2 ⟨hf, hh⟩
  simp only [loadDictionary, hd, bind_ok, parseDictionary]

/-! ### Reading the saved lines -/

theorem set_lastKey {K V : Type} [DecidableEq K] {d : Dict K V} {k : K} {v w : V} (h : k ∉ Dict.keys d) : Dict.set (d ++ [(k, v)]) k w = d ++ [(k, w)] := by
  induction d with
  | nil => simp [Dict.set]
  | cons x d ih =>
    obtain ⟨k', u⟩ := x
    simp only [Dict.keys_cons, List.mem_cons, not_or] at h
    simp only [List.cons_append, Dict.set, if_neg (Ne.symm h.1), ih h.2]

theorem get_lastKey {K V : Type} [DecidableEq K] {d : Dict K V} {k : K} {v : V} (h : k ∉ Dict.keys d) : Dict.get? (d ++ [(k, v)]) k = some v := by
  induction d with
  | nil => simp [Dict.get?]
  | cons x d ih =>
    obtain ⟨k', u⟩ := x
    simp only [Dict.keys_cons, List.mem_cons, not_or] at h
    rw [List.cons_append, Dict.get?_cons, if_neg (Ne.symm h.1)]
    exact ih h.2

theorem parseLoop_append (parse : Str → Except PyErr Entry) (a c : List Str) : ∀ b, parseLoop parse b (a ++ c) =
    (parseLoop parse b a).bind (fun b' => parseLoop parse b' c) := by
  induction a with
  | nil => intro b; rfl
  | cons l a ih =>
    intro b
    simp only [List.cons_append, parseLoop]
    cases parse l with
    | error x => rfl
    | ok e =>
      simp only [bind_ok]
      cases addEntry b e with
      | error x => rfl
      | ok b' => exact ih b'

theorem parseLoop_rest (f : RegexFormat) (hf : f ∈ knownFormats) {w : Str} (hw : Spec.DictWord f.name w) (ps : List (Str × Str))
    (hr : ∀ p ∈ ps, Spec.DictReading f.name w p.1 ∧ Spec.DictSense f.name p.2) :
    ∀ (b : Dict Str Entry) (rs ss : List Str), w ∉ Dict.keys b → rs.length = ss.length →
    parseLoop f.parseLine (b ++ [(w, ⟨w, rs, ss⟩)]) (ps.map (fun p => Spec.dictLine f.name w p.1 [p.2] ++ [0x0a])) =
      .ok (b ++ [(w, ⟨w, rs ++ ps.map Prod.fst, ss ++ ps.map Prod.snd⟩)]) := by
  induction ps with
  | nil => intro b rs ss _ _; simp [parseLoop]
  | cons p ps ih =>
    intro b rs ss hb hlen
    have hp := hr p (by simp)
    have hl := dictLine_reads f hf hw hp.1 (ss := [p.2]) (by simp) (by simpa using hp.2) true
    have hl' : f.parseLine (Spec.dictLine f.name w p.1 [p.2] ++ [0x0a]) = .ok ⟨w, [p.1], [p.2]⟩ := hl
    have hadd : addEntry (b ++ [(w, ⟨w, rs, ss⟩)]) ⟨w, [p.1], [p.2]⟩ = .ok (b ++ [(w, ⟨w, rs ++ [p.1], ss ++ [p.2]⟩)]) := by
      have e1 : (⟨w, rs, ss⟩ : Entry).padded = rs := Entry.padded_of_eq hlen
      have e2 : (⟨w, [p.1], [p.2]⟩ : Entry).padded = [p.1] := Entry.padded_of_eq rfl
      unfold addEntry
      simp only [get_lastKey hb, Entry.update, if_true, e1, e2, bind_ok, set_lastKey hb]
    simp only [List.map_cons, parseLoop, hl', bind_ok, hadd]
    rw [ih (fun q hq => hr q (by simp [hq])) b _ _ hb (by simp [hlen])]
    simp

theorem parseLoop_entry (f : RegexFormat) (hf : f ∈ knownFormats) {e : Entry} (he : Spec.EntryFits f.name e) (b : Dict Str Entry) (hb : e.word ∉ Dict.keys b) :
    parseLoop f.parseLine b ((Spec.entryLines f.name e).map (fun l => l ++ [0x0a])) = .ok (b ++ [(e.word, e)]) := by
  obtain ⟨w, rs, ss⟩ := e
  have hnone := (Dict.get?_eq_none_iff _ _).2 hb
  have hone : ∀ r ss', Spec.DictReading f.name w r → ss' ≠ [] → (∀ s ∈ ss', Spec.DictSense f.name s) → ∀ ls,
      parseLoop f.parseLine b ((Spec.dictLine f.name w r ss' ++ [0x0a]) :: ls) = parseLoop f.parseLine (b ++ [(w, ⟨w, [r], ss'⟩)]) ls := by
    intro r ss' hr hne hs ls
    have hl : f.parseLine (Spec.dictLine f.name w r ss' ++ [0x0a]) = .ok ⟨w, [r], ss'⟩ := dictLine_reads f hf he.word hr hne hs true
    have hadd : addEntry b ⟨w, [r], ss'⟩ = .ok (b ++ [(w, ⟨w, [r], ss'⟩)]) := by
      unfold addEntry
      simp only at hnone hb
      simp only [hnone, Dict.set_of_not_mem _ _ _ hb]
    simp only [parseLoop, hl, bind_ok, hadd]
  cases rs with
  | nil =>
    rcases he.aligned with h | h
    · simp at h
    · exact absurd (List.length_eq_zero_iff.1 (by simpa using h.symm)) he.some
  | cons r rs =>
    cases rs with
    | nil =>
      simp only [Spec.entryLines, List.map_cons, List.map_nil]
      rw [hone r ss (he.readings r (by simp)) he.some he.senses]
      rfl
    | cons r2 rs =>
      have hlen : (r :: r2 :: rs).length = ss.length := by
        rcases he.aligned with h | h
        · simp at h
        · exact h
      cases ss with
      | nil => simp at hlen
      | cons s ss =>
        have hl2 : (r2 :: rs).length = ss.length := by simpa using hlen
        have e1 : Spec.entryLines f.name ⟨w, r :: r2 :: rs, s :: ss⟩ =
            Spec.dictLine f.name w r [s] :: ((r2 :: rs).zip ss).map (fun p => Spec.dictLine f.name w p.1 [p.2]) := rfl
        rw [e1, List.map_cons, hone r [s] (he.readings r (by simp)) (by simp) (by simpa using he.senses s (by simp)), List.map_map]
        have := parseLoop_rest f hf he.word ((r2 :: rs).zip ss) (by
          intro p hp
          exact ⟨he.readings _ (List.mem_cons_of_mem _ (List.of_mem_zip hp).1), he.senses _ (List.mem_cons_of_mem _ (List.of_mem_zip hp).2)⟩) b [r] [s] hb rfl
        refine Eq.trans this ?_
        rw [List.map_fst_zip (Nat.le_of_eq hl2), List.map_snd_zip (Nat.le_of_eq hl2.symm)]
        rfl

theorem parseLoop_saved (f : RegexFormat) (hf : f ∈ knownFormats) (d : Dict Str Entry) : ∀ b : Dict Str Entry, (Dict.keys (b ++ d)).Nodup →
    (∀ p ∈ d, p.2.word = p.1 ∧ Spec.EntryFits f.name p.2) →
    parseLoop f.parseLine b ((Spec.savedDictionary f.name d).map (fun l => l ++ [0x0a])) = .ok (b ++ d) := by
  induction d with
  | nil => intro b _ _; simp [Spec.savedDictionary, parseLoop]
  | cons p d ih =>
    intro b hnd hd
    obtain ⟨k, e⟩ := p
    obtain ⟨hk, he⟩ := hd (k, e) (by simp)
    simp only at hk he
    subst hk
    have hb : e.word ∉ Dict.keys b := by
      intro hm
      simp only [Dict.keys, List.map_append, List.map_cons] at hnd hm
      exact (List.nodup_append.1 hnd).2.2 _ hm _ (by simp) rfl
    have : Spec.savedDictionary f.name ((e.word, e) :: d) = Spec.entryLines f.name e ++ Spec.savedDictionary f.name d := rfl
    rw [this, List.map_append, parseLoop_append, parseLoop_entry f hf he b hb]
    simp only [Except.bind]
    rw [ih (b ++ [(e.word, e)]) (by simpa using hnd) (fun q hq => hd q (by simp [hq]))]
    simp

/-! ### Theorems -/

/-- C188: any dictionary is read again from the lines it is saved as iff its entries stand under their words and fit the format. -/
theorem C188_iff (name h : Str) (hh : Spec.isHeader name h) (d : Dict Str Entry) :
    loadDictionary (h :: (Spec.savedDictionary name d).map (fun l => l ++ u!"\n")) = .ok d ↔
      Dict.WF d ∧ ∀ p ∈ d, p.2.word = p.1 ∧ Spec.EntryFits name p.2 := by
  obtain ⟨f, hf, rfl, hload⟩ := loaded_format hh
  rw [hload]
  constructor
  · intro h'
    have := dictRead_loop (Q := fun _ => True) f _ (fun l _ e he => parsed_fields f hf he (by simp)) ⟨Dict.WF_nil, by simp⟩ h'
    exact ⟨this.wf, fun p hp => ⟨(this.entries p hp).1, (this.entries p hp).2.1⟩⟩
  · rintro ⟨h1, h2⟩
    have := parseLoop_saved f hf d [] h1 h2
    rw [List.nil_append] at this
    exact this

/-- C188: a dictionary read from lines of any of the four formats is read again, with all entries, readings and senses in the same order, from the lines it is saved as in that format. -/
theorem C188_lines (name h h' : Str) (hh : Spec.isHeader name h) (hh' : Spec.isHeader name h') (ls : List Str) (d : Dict Str Entry) (hd : loadDictionary (h :: ls) = .ok d) :
    loadDictionary (h' :: (Spec.savedDictionary name d).map (fun l => l ++ u!"\n")) = .ok d := by
  rw [C188_iff name h' hh']
  obtain ⟨f, hf, rfl, hload⟩ := loaded_format hh
  rw [hload] at hd
  have := dictRead_loop (Q := fun _ => True) f _ (fun l _ e he => parsed_fields f hf he (by simp)) ⟨Dict.WF_nil, by simp⟩ hd
  exact ⟨this.wf, fun p hp => ⟨(this.entries p hp).1, (this.entries p hp).2.1⟩⟩

/-- C188: an EDICT dictionary can be saved as CEDICT and the other way round. -/
theorem C188_convert (h h' : Str) (hh : Spec.isHeader u!"edict" h) (hh' : Spec.isHeader u!"cedict" h') (d : Dict Str Entry) (ls : List Str) :
    (loadDictionary (h :: ls) = .ok d → loadDictionary (h' :: (Spec.savedDictionary u!"cedict" d).map (fun l => l ++ u!"\n")) = .ok d) ∧
    (loadDictionary (h' :: ls) = .ok d → loadDictionary (h :: (Spec.savedDictionary u!"edict" d).map (fun l => l ++ u!"\n")) = .ok d) := by
  have same : ∀ e, Spec.EntryFits u!"edict" e ↔ Spec.EntryFits u!"cedict" e := by
    have h1 : Spec.DictWord u!"edict" = Spec.DictWord u!"cedict" := by
      funext w; simp only [Spec.DictWord]; rw [if_neg (by decide), if_neg (by decide)]
    have h2 : Spec.DictReading u!"edict" = Spec.DictReading u!"cedict" := by
      funext w r; simp only [Spec.DictReading]; rw [if_neg (by decide), if_neg (by decide), if_neg (by decide), if_neg (by decide)]
    have h3 : Spec.DictSense u!"edict" = Spec.DictSense u!"cedict" := by
      funext s; simp only [Spec.DictSense]; rw [if_neg (by decide), if_neg (by decide), if_neg (by decide), if_neg (by decide)]
    intro e
    constructor
    · rintro ⟨a, b, c, x, y⟩; exact ⟨h1 ▸ a, b, c, h2 ▸ x, h3 ▸ y⟩
    · rintro ⟨a, b, c, x, y⟩; exact ⟨h1 ▸ a, b, c, h2 ▸ x, h3 ▸ y⟩
  constructor
  · intro hd
    have := (C188_iff _ h hh d).1 (C188_lines _ h h hh hh ls d hd)
    exact (C188_iff _ h' hh' d).2 ⟨this.1, fun p hp => ⟨(this.2 p hp).1, (same _).1 (this.2 p hp).2⟩⟩
  · intro hd
    have := (C188_iff _ h' hh' d).1 (C188_lines _ h' h' hh' hh' ls d hd)
    exact (C188_iff _ h hh d).2 ⟨this.1, fun p hp => ⟨(this.2 p hp).1, (same _).2 (this.2 p hp).2⟩⟩

/-! ### Files -/

theorem mem_slashes {ss : List Str} {c : Chr} (h : c ∈ Spec.slashes ss) : c = 0x2f ∨ ∃ s ∈ ss, c ∈ s := by
  unfold Spec.slashes at h
  rcases List.mem_append.1 h with h | h
  · obtain ⟨s, hs, hc⟩ := List.mem_flatMap.1 h
    rcases List.mem_append.1 hc with hc | hc
    · exact .inl (List.mem_singleton.1 hc)
    · exact .inr ⟨s, hs, hc⟩
  · exact .inl (List.mem_singleton.1 h)

theorem mem_dictLine {name w r : Str} {ss : List Str} {c : Chr} (h : c ∈ Spec.dictLine name w r ss) :
    c ∈ w ∨ c ∈ r ∨ (∃ s ∈ ss, c ∈ s) ∨ c ∈ u!" []\t/\\n，１．" := by
  have hopt : c ∈ (match (if r = w then none else some (Spec.dictField r) : Option Str) with | none => [] | some r => u!"[" ++ r ++ u!"] ") →
      c ∈ r ∨ c ∈ u!" []\t/\\n，１．" := by
    intro hc
    by_cases he : r = w
    · rw [if_pos he] at hc; cases hc
    · rw [if_neg he] at hc
      simp only [List.mem_append] at hc
      rcases hc with (hc | hc) | hc
      · exact .inr ((by decide : ∀ x ∈ u!"[", x ∈ u!" []\t/\\n，１．") c hc)
      · rcases mem_dictField hc with hc | rfl
        · exact .inl hc
        · exact .inr (by decide)
      · exact .inr ((by decide : ∀ x ∈ u!"] ", x ∈ u!" []\t/\\n，１．") c hc)
  have hsl : c ∈ Spec.slashes ss → (∃ s ∈ ss, c ∈ s) ∨ c ∈ u!" []\t/\\n，１．" := by
    intro hc
    rcases mem_slashes hc with rfl | hc
    · exact .inr (by decide)
    · exact .inl hc
  have hf : ∀ x, c ∈ Spec.dictField x → c ∈ x ∨ c ∈ u!" []\t/\\n，１．" := by
    intro x hc
    rcases mem_dictField hc with hc | rfl
    · exact .inl hc
    · exact .inr (by decide)
  have h1 : c ∈ u!" " → c ∈ u!" []\t/\\n，１．" := fun hc => (by decide : ∀ x ∈ u!" ", x ∈ u!" []\t/\\n，１．") c hc
  unfold Spec.dictLine at h
  split at h
  · simp only [Spec.edictText, eol_none, List.mem_append] at h
    rcases h with ((h | h) | h) | h
    · exact .inl h
    · exact .inr (.inr (.inr (h1 h)))
    · rcases hopt h with h | h
      · exact .inr (.inl h)
      · exact .inr (.inr (.inr h))
    · exact .inr (.inr (hsl h))
  · split at h
    · simp only [Spec.jcText, eol_none, List.mem_append] at h
      rcases h with (((h | h) | h) | h) | h
      · exact .inl h
      · exact .inr (.inr (.inr ((by decide : ∀ x ∈ u!" [", x ∈ u!" []\t/\\n，１．") c h)))
      · rcases hf _ h with h | h
        · exact .inr (.inl h)
        · exact .inr (.inr (.inr h))
      · exact .inr (.inr (.inr ((by decide : ∀ x ∈ u!"]\t", x ∈ u!" []\t/\\n，１．") c h)))
      · rcases mem_join h with h | h
        · exact .inr (.inr (.inr ((by decide : ∀ x ∈ u!"，", x ∈ u!" []\t/\\n，１．") c h)))
        · exact .inr (.inr (.inl h))
    · split at h
      · simp only [Spec.cjText, eol_none, List.mem_append] at h
        rcases h with ((((h | h) | h) | h) | h) | h
        · rcases hf _ h with h | h
          · exact .inl h
          · exact .inr (.inr (.inr h))
        · exact .inr (.inr (.inr ((by decide : ∀ x ∈ u!"\t", x ∈ u!" []\t/\\n，１．") c h)))
        · rcases hf _ h with h | h
          · exact .inr (.inl h)
          · exact .inr (.inr (.inr h))
        · exact .inr (.inr (.inr ((by decide : ∀ x ∈ u!"\\n", x ∈ u!" []\t/\\n，１．") c h)))
        · rcases mem_join h with h | ⟨x, hx, hc⟩
          · exact .inr (.inr (.inr ((by decide : ∀ x ∈ u!"\\n", x ∈ u!" []\t/\\n，１．") c h)))
          · rw [List.map_map] at hx
            obtain ⟨s, hs, rfl⟩ := List.mem_map.1 hx
            have hc' : c ∈ u!"１．" ++ s := hc
            rcases List.mem_append.1 hc' with hc | hc
            · exact .inr (.inr (.inr ((by decide : ∀ x ∈ u!"１．", x ∈ u!" []\t/\\n，１．") c hc)))
            · exact .inr (.inr (.inl ⟨s, hs, hc⟩))
        · cases h
      · simp only [Spec.cedictText, eol_none, List.mem_append] at h
        rcases h with ((((h | h) | h) | h) | h) | h
        · exact .inl h
        · exact .inr (.inr (.inr (h1 h)))
        · exact .inl h
        · exact .inr (.inr (.inr (h1 h)))
        · rcases hopt h with h | h
          · exact .inr (.inl h)
          · exact .inr (.inr (.inr h))
        · exact .inr (.inr (hsl h))

/-- C188: the same for files: whatever file a dictionary was read from, it is read again from the file it is saved as, with any header of the format and any line ending. -/
theorem C188_file (text name h h' : Str) (hh : Spec.isHeader name h) (hfirst : (fileLines text).head? = some h) (hh' : Spec.isHeader name h') (hn : NoEol h')
    (eol : Str) (he : eol = u!"\n" ∨ eol = u!"\r\n" ∨ eol = u!"\r") (d : Dict Str Entry) (hd : loadDictionary (fileLines text) = .ok d) :
    loadDictionary (fileLines ((h' :: Spec.savedDictionary name d).flatMap (fun l => l ++ eol))) = .ok d := by
  obtain ⟨ls, hls⟩ : ∃ ls, fileLines text = h :: ls := by
    cases hx : fileLines text with
    | nil => rw [hx] at hfirst; cases hfirst
    | cons x ls => rw [hx] at hfirst; cases hfirst; exact ⟨ls, rfl⟩
  rw [hls] at hd
  have hh'' : Spec.isHeader name (h' ++ [0x0a]) := eol_isHeader hn.2 true hh'
  have hmain := C188_lines name h (h' ++ [0x0a]) hh hh'' ls d hd
  have hread : DictRead (fun c => c ≠ 0x0d ∧ c ≠ 0x0a) name d := by
    obtain ⟨f, hf, rfl, hload⟩ := loaded_format hh
    rw [hload] at hd
    refine dictRead_loop f ls (fun l hl e hp => ?_) ⟨Dict.WF_nil, by simp⟩ hd
    obtain ⟨s, hs, hle⟩ := fileLinesAux_form text [] (by decide) l (by
      have : l ∈ fileLines text := by rw [hls]; simp [hl]
      exact this)
    have hp' : f.parseLine s = .ok e := by
      rcases hle with rfl | rfl
      · exact hp
      · have := parseLine_eol f hf hs.2 true
        rw [← this]; exact hp
    exact parsed_fields f hf hp' (fun c hc => ⟨fun e => hs.1 (e ▸ hc), fun e => hs.2 (e ▸ hc)⟩)
  rw [fileLines_uniform eol he]
  · exact hmain
  · intro l hl
    rcases List.mem_cons.1 hl with rfl | hl
    · exact hn
    · obtain ⟨p, hp, hl⟩ := List.mem_flatMap.1 hl
      obtain ⟨_, _, q1, q2, q3⟩ := hread.entries p hp
      have key : ∀ r ss, r ∈ p.2.readings → (∀ s ∈ ss, s ∈ p.2.senses) → l = Spec.dictLine name p.2.word r ss → NoEol l := by
        intro r ss hr hs hle
        have : ∀ c ∈ l, c ≠ 0x0d ∧ c ≠ 0x0a := by
          intro c hc
          rw [hle] at hc
          rcases mem_dictLine hc with hc | hc | ⟨s, hs', hc⟩ | hc
          · exact q1 c hc
          · exact q2 r hr c hc
          · exact q3 s (hs s hs') c hc
          · exact (by decide : ∀ x ∈ u!" []\t/\\n，１．", x ≠ 0x0d ∧ x ≠ 0x0a) c hc
        exact ⟨fun hc => (this _ hc).1 rfl, fun hc => (this _ hc).2 rfl⟩
      unfold Spec.entryLines at hl
      split at hl
      · rename_i r hr
        exact key r _ (by rw [hr]; simp) (fun s hs => hs) (List.mem_singleton.1 hl)
      · obtain ⟨q, hq, rfl⟩ := List.mem_map.1 hl
        exact key q.1 [q.2] (List.of_mem_zip hq).1 (by simpa using (List.of_mem_zip hq).2) rfl

/-- Not vacuous: homographs, a reading that is only spaces, one that is the word, and a sense without final slash. -/
example : ∃ d, loadDictionary (fileLines u!"　？？？ x\na [b c] /x y/z/\r\nd]e /1/2\na [ ] /w/\n") = .ok d ∧
    (Spec.savedDictionary u!"edict" d).flatMap (fun l => l ++ u!"\n") = u!"a [bc] /x y/\na [bc] /z/\na [ ] /w/\nd]e /1/2/\n" := by
  refine ⟨[(u!"a", ⟨u!"a", [u!"bc", u!"bc", []], [u!"x y", u!"z", u!"w"]⟩), (u!"d]e", ⟨u!"d]e", [u!"d]e"], [u!"1", u!"2"]⟩)], ?_, ?_⟩ <;> decide +kernel

end Cjk
