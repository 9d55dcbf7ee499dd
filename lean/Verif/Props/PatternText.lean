import Verif.Lemmas.PatternPlain
import Verif.Lemmas.PatternLang
import Verif.Props.Pinyin
import Verif.Props.Zhuyin
import Verif.Props.DictFormat
/-!
# Pattern texts

The other property files speak of the regular expressions of cjktools as expressions.  Here it is shown that the pattern *texts* in
the source, read as `re.compile` reads them, behave the same, so that those theorems are theorems about the texts.
-/

namespace Cjk
open Py

/-! ### The dictionary formats -/

theorem named_get {r : Compiled} {m : MatchObj} {nm : Nat → Option Str} (hnm : NmInj nm) {n : Str} {i : Nat}
    (h1 : Dict.get? r.names n = some i) (h2 : nm i = some n) : r.named m n = some (Dict.get? (named nm m.caps) n) := by
  simp only [Compiled.named, h1, Option.map_some, MatchObj.group, get?_named hnm m.caps i n h2]

theorem collectSenses_eq {F : TextFormat} {nm : Nat → Option Str} (hnm : NmInj nm) {i : Nat}
    (h1 : Dict.get? F.sense.names u!"sense" = some i) (h2 : nm i = some u!"sense") (ms : List MatchObj) :
    F.collectSenses ms = .ok (ms.map (fun m => Dict.get? (named nm m.caps) u!"sense")) := by
  induction ms with
  | nil => rfl
  | cons m ms ih => simp only [TextFormat.collectSenses, named_get hnm h1 h2, ih, List.map_cons]

/-- A format given by pattern texts and one given by expressions that behave the same. -/
theorem format_agree {F : TextFormat} {f : RegexFormat} {nmL nmS : Nat → Option Str} (hnL : NmInj nmL) (hnS : NmInj nmS)
    (hL : ∀ s, (F.line.pyMatch s).map (fun m => named nmL m.caps) = f.line.pyMatch s)
    (hS : ∀ s, (F.sense.finditer s).map (fun m => (m.text, named nmS m.caps)) = f.sense.finditer s)
    (hw : ∃ i, Dict.get? F.line.names u!"word" = some i ∧ nmL i = some u!"word")
    (hr : ∃ i, Dict.get? F.line.names u!"reading" = some i ∧ nmL i = some u!"reading")
    (hs : ∃ i, Dict.get? F.line.names u!"senses" = some i ∧ nmL i = some u!"senses")
    (hse : ∃ i, Dict.get? F.sense.names u!"sense" = some i ∧ nmS i = some u!"sense")
    (hb : Re.Binds u!"sense" f.sense) (s : Str) :
    (∀ e, F.parseLine s = .error e → f.parseLine s = .error e) ∧
    (∀ w r ss, F.parseLine s = .ok (w, r, ss) → ∃ ss', ss = ss'.map some ∧ f.parseLine s = Entry.new w [r] ss') := by
  obtain ⟨iw, hw1, hw2⟩ := hw
  obtain ⟨ir, hr1, hr2⟩ := hr
  obtain ⟨is, hs1, hs2⟩ := hs
  obtain ⟨ie, he1, he2⟩ := hse
  have hLs := hL s
  unfold TextFormat.parseLine RegexFormat.parseLine
  cases hm : F.line.pyMatch s with
  | none =>
    rw [hm] at hLs
    simp only [Option.map_none] at hLs
    rw [← hLs]
    exact ⟨fun e h => (by cases h; rfl), fun w r ss h => (by cases h)⟩
  | some m =>
    rw [hm] at hLs
    simp only [Option.map_some] at hLs
    rw [← hLs]
    simp only [named_get hnL hw1 hw2, named_get hnL hr1 hr2, named_get hnL hs1 hs2]
    generalize named nmL m.caps = caps
    cases Dict.get? caps u!"word" with
    | none => exact ⟨fun e h => (by cases h; rfl), fun w r ss h => (by cases h)⟩
    | some w =>
      simp only
      generalize Dict.get? caps u!"reading" = rd
      cases Dict.get? caps u!"senses" with
      | none => exact ⟨fun e h => (by cases h; rfl), fun w r ss h => (by cases h)⟩
      | some sl =>
        simp only [collectSenses_eq hnS he1 he2, List.isEmpty_map]
        have hlist : (f.sense.finditer sl).map (fun m => (Dict.get? m.2 u!"sense").getD []) =
            (F.sense.finditer sl).map (fun m => (Dict.get? (named nmS m.caps) u!"sense").getD []) := by
          rw [← hS sl, List.map_map]; rfl
        have hsome : ∀ m ∈ F.sense.finditer sl, (Dict.get? (named nmS m.caps) u!"sense").isSome = true := by
          intro m hmem
          have hin : (m.text, named nmS m.caps) ∈ f.sense.finditer sl := by
            rw [← hS sl]; exact List.mem_map.2 ⟨m, hmem, rfl⟩
          have key : ∀ n s x, x ∈ f.sense.finditerAux n s → (Dict.get? x.2 u!"sense").isSome = true := by
            intro n
            induction n with
            | zero => intro s x hx; simp [Re.finditerAux] at hx
            | succ n ih =>
              intro s x hx
              simp only [Re.finditerAux] at hx
              cases hf : f.sense.first s [] with
              | none =>
                rw [hf] at hx
                cases s with
                | nil => simp at hx
                | cons c s => exact ih s x hx
              | some tc =>
                have hbind := Re.run_binds u!"sense" f.sense hb s [] tc (Re.first_mem hf)
                rw [hf] at hx
                simp only at hx
                split at hx
                · rcases List.mem_cons.1 hx with rfl | hx
                  · exact hbind
                  · exact ih _ x hx
                · rcases List.mem_cons.1 hx with rfl | hx
                  · exact hbind
                  · cases hf' : f.sense.firstMore s with
                    | some tc' =>
                      have hbind' := Re.run_binds u!"sense" f.sense hb s [] tc' (List.mem_of_find?_eq_some hf')
                      rw [hf'] at hx
                      rcases List.mem_cons.1 hx with rfl | hx
                      · exact hbind'
                      · exact ih _ x hx
                    | none =>
                      rw [hf'] at hx
                      cases s with
                      | nil => simp at hx
                      | cons c s => exact ih s x hx
          exact key _ _ _ hin
        have hemp : (f.sense.finditer sl).isEmpty = (F.sense.finditer sl).isEmpty := by rw [← hS sl, List.isEmpty_map]
        rw [hlist, hemp]
        cases hfi : F.sense.finditer sl with
        | nil => exact ⟨fun e h => (by cases h; rfl), fun w r ss h => (by cases h)⟩
        | cons m0 ms =>
          rw [hfi] at hsome
          simp only [List.isEmpty_cons, Bool.false_eq_true, if_false]
          refine ⟨fun e h => (by cases h), fun w' r ss h => ?_⟩
          simp only [Except.ok.injEq, Prod.mk.injEq] at h
          obtain ⟨rfl, rfl, rfl⟩ := h
          refine ⟨(m0 :: ms).map (fun m => (Dict.get? (named nmS m.caps) u!"sense").getD []), ?_, by cases rd <;> rfl⟩
          rw [List.map_map]
          apply List.map_congr_left
          intro m hm
          have := hsome m hm
          cases hg : Dict.get? (named nmS m.caps) u!"sense" with
          | none => rw [hg] at this; simp at this
          | some v => simp [hg]

theorem match_text_bol {p : Pat} {names : Dict Str Nat} {l : List (Nat × Str)} {R : Re} (hl : (l.map Prod.snd).Nodup)
    (h : ∃ r, p.toRe (nmOf l) = some r ∧ Re.Same r R) (s : Str) :
    ((⟨.cat .bol p, names⟩ : Compiled).pyMatch s).map (fun m => named (nmOf l) m.caps) = R.pyMatch s := by
  obtain ⟨r, h1, h2⟩ := h
  rw [compiled_pyMatch_bol (nmOf_inj hl) p names r h1 s, h2.pyMatch]

theorem finditer_text {p : Pat} {names : Dict Str Nat} {l : List (Nat × Str)} {R : Re} (hl : (l.map Prod.snd).Nodup)
    (h : ∃ r, p.toRe (nmOf l) = some r ∧ Re.Same r R) (s : Str) :
    ((⟨p, names⟩ : Compiled).finditer s).map (fun m => (m.text, named (nmOf l) m.caps)) = R.finditer s := by
  obtain ⟨r, h1, h2⟩ := h
  rw [compiled_finditer (nmOf_inj hl) p names r h1 s, h2.finditer]

theorem isSome_header {F : Compiled} {R : Re} {g : MatchObj → Caps} (h : ∀ s, (F.pyMatch s).map g = R.pyMatch s) (s : Str) :
    (F.pyMatch s).isSome = (R.pyMatch s).isSome := by
  rw [← h s, Option.isSome_map]

/-- What it means that a format given by texts does what a format given by expressions does. -/
def SameFormat (F : TextFormat) (f : RegexFormat) : Prop :=
  F.name = f.name ∧ (∀ s, F.matchHeader s = f.matchHeader s) ∧
  ∀ s, (∀ e, F.parseLine s = .error e → f.parseLine s = .error e) ∧
    (∀ w r ss, F.parseLine s = .ok (w, r, ss) → ∃ ss', ss = ss'.map some ∧ f.parseLine s = Entry.new w [r] ss')

theorem sameFormat_intro {F : TextFormat} {f : RegexFormat} {hp lp sp : Pat} {hn ln sn : Dict Str Nat} {hl ll sl : List (Nat × Str)}
    (hF : F = ⟨f.name, ⟨.cat .bol hp, hn⟩, ⟨.cat .bol lp, ln⟩, ⟨sp, sn⟩⟩)
    (h1 : (hl.map Prod.snd).Nodup) (h2 : (ll.map Prod.snd).Nodup) (h3 : (sl.map Prod.snd).Nodup)
    (hh : ∃ r, hp.toRe (nmOf hl) = some r ∧ Re.Same r f.header) (hL : ∃ r, lp.toRe (nmOf ll) = some r ∧ Re.Same r f.line)
    (hS : ∃ r, sp.toRe (nmOf sl) = some r ∧ Re.Same r f.sense)
    (hw : ∃ i, Dict.get? ln u!"word" = some i ∧ nmOf ll i = some u!"word")
    (hr : ∃ i, Dict.get? ln u!"reading" = some i ∧ nmOf ll i = some u!"reading")
    (hs : ∃ i, Dict.get? ln u!"senses" = some i ∧ nmOf ll i = some u!"senses")
    (hse : ∃ i, Dict.get? sn u!"sense" = some i ∧ nmOf sl i = some u!"sense")
    (hb : Re.Binds u!"sense" f.sense) : SameFormat F f := by
  subst hF
  refine ⟨rfl, fun s => isSome_header (fun s => match_text_bol h1 hh s) s, fun s => ?_⟩
  exact format_agree (nmOf_inj h2) (nmOf_inj h3) (fun s => match_text_bol h2 hL s) (fun s => finditer_text h3 hS s) hw hr hs hse hb s

/-- C92: the four built-in formats, as the pattern texts in the source define them, do what the model's formats do: the texts
compile, they recognise the same headers, and they read the same word, reading and senses from every line or raise the same
exception. -/
theorem C92_pattern_texts : ∀ p ∈ knownTexts.zip knownFormats,
    ∃ F, TextFormat.new p.1.1 p.1.2.1 p.1.2.2.1 p.1.2.2.2 = some F ∧ SameFormat F p.2 := by
  have new_eq : ∀ {n h l s : Str} {H L S : Compiled}, compile h = some H → compile l = some L → compile s = some S →
      TextFormat.new n h l s = some ⟨n, H, L, S⟩ := by
    intro n h l s H L S h1 h2 h3
    simp only [TextFormat.new, h1, h2, h3]
  intro p hp
  simp only [knownTexts, knownFormats, List.zip_cons_cons, List.zip_nil_right, List.mem_cons, List.not_mem_nil, or_false] at hp
  rcases hp with rfl | rfl | rfl | rfl
  · exact ⟨_, new_eq edictHeader_compile edictLine_compile slashSense_compile,
      sameFormat_intro (f := edict) rfl (by decide) (by decide) (by decide) edictHeader_toRe edictLine_toRe slashSense_toRe
        ⟨1, by decide, by decide⟩ ⟨3, by decide, by decide⟩ ⟨4, by decide, by decide⟩ ⟨1, by decide, by decide⟩
        (by simp [edict, slashSense, Re.Binds])⟩
  · exact ⟨_, new_eq jcHeader_compile jcLine_compile jcSense_compile,
      sameFormat_intro (f := jcKdic) rfl (by decide) (by decide) (by decide) jcHeader_toRe jcLine_toRe jcSense_toRe
        ⟨1, by decide, by decide⟩ ⟨2, by decide, by decide⟩ ⟨3, by decide, by decide⟩ ⟨1, by decide, by decide⟩
        (by simp [jcKdic, jcSense, Re.Binds])⟩
  · exact ⟨_, new_eq cjHeader_compile cjLine_compile cjSense_compile,
      sameFormat_intro (f := cjKdic) rfl (by decide) (by decide) (by decide) cjHeader_toRe cjLine_toRe cjSense_toRe
        ⟨1, by decide, by decide⟩ ⟨2, by decide, by decide⟩ ⟨3, by decide, by decide⟩ ⟨2, by decide, by decide⟩
        (by simp [cjKdic, cjSense, Re.cat, Re.Binds])⟩
  · exact ⟨_, new_eq cedictHeader_compile cedictLine_compile slashSense_compile,
      sameFormat_intro (f := cedict) rfl (by decide) (by decide) (by decide) cedictHeader_toRe cedictLine_toRe slashSense_toRe
        ⟨1, by decide, by decide⟩ ⟨3, by decide, by decide⟩ ⟨4, by decide, by decide⟩ ⟨1, by decide, by decide⟩
        (by simp [cedict, slashSense, Re.Binds])⟩

/-! ### The other patterns -/

/-- C38: the text of `segment_pattern` compiles and cuts every line into the same segments as the model's expression. -/
theorem C38_pattern_text : ∃ r, compile segmentText = some r ∧ ∀ s, segmentsByText r s = segments s := by
  refine ⟨_, segmentPattern_compile, fun s => ?_⟩
  have := finditer_text (names := []) (l := segmentPatternNm) (by decide) segmentPattern_toRe s
  unfold segmentsByText segments
  rw [← this, List.map_map]
  rfl

/-- C35: the text of `_code_pattern` compiles and finds the same code groups as the model's expression. -/
theorem C35_pattern_text : ∃ r, compile codeText = some r ∧ ∀ s, codeGroupsByText r s = codeGroups s := by
  refine ⟨_, codePattern_compile, fun s => ?_⟩
  have := finditer_text (names := []) (l := codePatternNm) (by decide) codePattern_toRe s
  unfold codeGroupsByText codeGroups
  rw [← this, List.map_map]
  apply List.map_congr_left
  intro m _
  simp only [MatchObj.group, Function.comp_apply]
  rw [get?_named (nmOf_inj (l := codePatternNm) (by decide)) m.caps 1 u!"1" (by decide)]

/-- C60: the text of `word_re` compiles, and `from_text` with it reads every text as the model's expression does. -/
theorem C60_pattern_text : ∃ r, compile wordText = some r ∧ ∀ s, fromTextByText r s = Tanaka.fromText s := by
  refine ⟨_, wordRe_compile, fun s => ?_⟩
  have hinj : NmInj (nmOf wordReNm) := nmOf_inj (by decide)
  obtain ⟨r, h1, h2⟩ := wordRe_toRe
  have hm := compiled_pyMatch hinj wordRePat
    [(u!"headword", 1), (u!"reading", 2), (u!"sense", 3), (u!"display", 4), (u!"example", 5)] r h1 s
  rw [h2.pyMatch] at hm
  unfold fromTextByText Tanaka.fromText
  rw [← hm]
  cases (⟨wordRePat, [(u!"headword", 1), (u!"reading", 2), (u!"sense", 3), (u!"display", 4), (u!"example", 5)]⟩ : Compiled).pyMatch s with
  | none => rfl
  | some m =>
    have g : ∀ n i, Dict.get? [(u!"headword", 1), (u!"reading", 2), (u!"sense", 3), (u!"display", 4), (u!"example", 5)] n = some i →
        nmOf wordReNm i = some n →
        ((⟨wordRePat, [(u!"headword", 1), (u!"reading", 2), (u!"sense", 3), (u!"display", 4), (u!"example", 5)]⟩ : Compiled).named m
          n).getD none = Dict.get? (named (nmOf wordReNm) m.caps) n := by
      intro n i h1 h2
      rw [named_get hinj (i := i) h1 h2, Option.getD_some]
    simp only [Option.map_some, g u!"headword" 1 (by decide) (by decide), g u!"reading" 2 (by decide) (by decide),
      g u!"sense" 3 (by decide) (by decide), g u!"display" 4 (by decide) (by decide), g u!"example" 5 (by decide) (by decide)]
    cases Dict.get? (named (nmOf wordReNm) m.caps) u!"sense" with
    | none => rfl
    | some v => cases pyInt 10 v <;> rfl

/-- C21: the text of `_long_finder` compiles and finds the same positions as the model's scan. -/
theorem C21_pattern_text : ∃ r, compile longText = some r ∧ ∀ s, longPositionsByText r s = longPositions 0 none s := by
  refine ⟨_, long_compile, fun s => ?_⟩
  have hlong : ∀ x, Cls.has ⟨false, [.range 0x3041 0x3096]⟩ x = true ↔ 0x3041 ≤ x ∧ x ≤ 0x3096 := by
    intro x; simp [Cls.has, ClsItem.has]
  have key : ∀ n i prev s, s.length < n →
      ((⟨longPat, []⟩ : Compiled).finditerAux n i prev s).map (·.start) = longPositions i prev s := by
    intro n
    induction n with
    | zero => intro i prev s h; omega
    | succ n ih =>
      intro i prev s hn
      cases s with
      | nil =>
        cases prev with
        | none => rfl
        | some p =>
          have : (⟨longPat, []⟩ : Compiled).matchAt i (some p) [] = none := by
            simp only [Compiled.matchAt, longPat, Pat.run]
            by_cases h : Cls.has ⟨false, [.range 0x3041 0x3096]⟩ p = true <;> simp [h]
          simp only [Compiled.finditerAux, this, longPositions, List.map_nil]
      | cons c s =>
        have hlen : s.length < n := by simpa using hn
        have hrest := ih (i + 1) (some c) s hlen
        cases prev with
        | none =>
          have : (⟨longPat, []⟩ : Compiled).matchAt i none (c :: s) = none := by
            simp only [Compiled.matchAt, longPat, Pat.run]
            rfl
          simp only [Compiled.finditerAux, this, longPositions]
          exact hrest
        | some p =>
          by_cases h1 : 0x3041 ≤ p ∧ p ≤ 0x3096
          · by_cases h2 : c = 0x30fc
            · subst h2
              have : (⟨longPat, []⟩ : Compiled).matchAt i (some p) (0x30fc :: s) =
                  some (⟨i, [0x30fc], []⟩, ⟨some 0x30fc, s, []⟩) := by
                simp only [Compiled.matchAt, longPat, Pat.run, (hlong p).2 h1, has_one]
                simp
              simp only [Compiled.finditerAux, this, List.length_cons, Nat.lt_succ_self, if_true, List.map_cons]
              have e : i + (s.length + 1 - s.length) = i + 1 := by omega
              rw [e, hrest]
              simp only [longPositions, h1, and_self, if_true]
            · have : (⟨longPat, []⟩ : Compiled).matchAt i (some p) (c :: s) = none := by
                simp only [Compiled.matchAt, longPat, Pat.run, (hlong p).2 h1, has_one]
                simp [h2]
              simp only [Compiled.finditerAux, this, longPositions, h2, false_and, if_false]
              exact hrest
          · have : (⟨longPat, []⟩ : Compiled).matchAt i (some p) (c :: s) = none := by
              have hf : Cls.has ⟨false, [.range 0x3041 0x3096]⟩ p = false := by
                rw [Bool.eq_false_iff]; intro h; exact h1 ((hlong p).1 h)
              simp only [Compiled.matchAt, longPat, Pat.run, hf]
              rfl
            simp only [Compiled.finditerAux, this, longPositions]
            rw [if_neg (fun h => h1 h.2)]
            exact hrest
  exact key _ _ _ _ (Nat.lt_succ_self _)

end Cjk
