import Verif.Lemmas.Pattern
import Verif.Model.PatternText
/-!
# The syntax trees of the pattern texts

For every pattern text of cjktools: what `re.compile` makes of it, and that this is the expression used in the other model files.
-/

set_option linter.unusedSimpArgs false

namespace Cjk
open Py

/-- A naming of groups given by a list. -/
def nmOf (l : List (Nat × Str)) (i : Nat) : Option Str := (l.find? (fun p => p.1 == i)).map Prod.snd

theorem nmOf_inj {l : List (Nat × Str)} (h : (l.map Prod.snd).Nodup) : NmInj (nmOf l) := by
  intro i j n hi hj
  simp only [nmOf, Option.map_eq_some_iff] at hi hj
  obtain ⟨a, ha, rfl⟩ := hi
  obtain ⟨b, hb, hab⟩ := hj
  have ham := List.mem_of_find?_eq_some ha
  have hbm := List.mem_of_find?_eq_some hb
  have ha1 : a.1 = i := by simpa using List.find?_some ha
  have hb1 : b.1 = j := by simpa using List.find?_some hb
  have : a = b := by
    clear ha hb ha1 hb1
    induction l with
    | nil => simp at ham
    | cons x l ih =>
      simp only [List.map_cons, List.nodup_cons, List.mem_map, not_exists, not_and] at h
      rcases List.mem_cons.1 ham with rfl | ha'
      · rcases List.mem_cons.1 hbm with rfl | hb'
        · rfl
        · exact absurd hab (h.1 b hb')
      · rcases List.mem_cons.1 hbm with rfl | hb'
        · exact absurd hab.symm (h.1 a ha')
        · exact ih h.2 ha' hb'
  rw [← ha1, ← hb1, this]

theorem has_one (c : Nat) : Cls.has ⟨false, [.one c]⟩ = fun x => x == c := by
  funext x; simp [Cls.has, ClsItem.has]

theorem has_not_one (c : Nat) : Cls.has ⟨true, [.one c]⟩ = fun x => x != c := by
  funext x; simp only [Cls.has, ClsItem.has, List.any_cons, List.any_nil, bne]; cases x == c <;> rfl

theorem has_digit : Cls.has ⟨false, [.digit]⟩ = isDigit := by
  funext x; simp [Cls.has, ClsItem.has]

theorem has_head : Cls.has ⟨true, [.one 0x28, .one 0x5b, .one 0x7b, .one 0x7c, .one 0x7e]⟩ = isHeadChr := by
  funext x
  simp only [Cls.has, ClsItem.has, isHeadChr, List.any_cons, List.any_nil, bne]
  cases x == 0x28 <;> cases x == 0x5b <;> cases x == 0x7b <;> cases x == 0x7c <;> cases x == 0x7e <;> rfl

theorem has_seg : Cls.has ⟨true, [.one 0x20, .one 0x7b]⟩ = fun c => c != 0x20 && c != 0x7b := by
  funext x
  simp only [Cls.has, ClsItem.has, List.any_cons, List.any_nil, bne]
  cases x == 0x20 <;> cases x == 0x7b <;> rfl

theorem has_code : Cls.has ⟨false, [.range 0x61 0x7a, .range 0x41 0x5a, .range 0x30 0x39, .one 0x2c, .one 0x2d]⟩ = codeChr := by
  funext x
  simp only [Cls.has, ClsItem.has, codeChr, List.any_cons, List.any_nil, Bool.or_false, Bool.bne_false]
  simp [Bool.or_assoc]

theorem has_cjDigit : Cls.has ⟨false, [.one 0xff11, .one 0xff12, .one 0xff13, .one 0xff14, .one 0xff15, .one 0xff17, .one 0xff18,
    .one 0xff19, .one 0xff10]⟩ = cjDigit := by
  funext x
  simp only [Cls.has, ClsItem.has, cjDigit, List.any_cons, List.any_nil, Bool.or_false, Bool.bne_false, List.contains_cons]
  simp

/-- The tree of the pattern text of `edictHeader` behind its `^`. -/
def edictHeaderPat : Pat :=
  (.cat (.chr ⟨true, [.one 0xa]⟩) (.cat (.chr ⟨false, [.one 0xff1f]⟩) (.cat (.chr ⟨false, [.one 0xff1f]⟩) (.cat (.chr
  ⟨false, [.one 0xff1f]⟩) (.cat (.star true (.chr ⟨true, [.one 0xa]⟩)) (.cat .eol .eps))))))

theorem edictHeader_compile : compile ((knownTexts.getD 0 default).2.1) = some ⟨.cat .bol edictHeaderPat,
    []⟩ := by decide +kernel

/-- The names of its groups. -/
def edictHeaderNm : List (Nat × Str) := []

theorem edictHeader_toRe : ∃ r, edictHeaderPat.toRe (nmOf edictHeaderNm) = some r ∧ Re.Same r edictHeader := by
  refine ⟨_, rfl, Re.same_of_norm ?_⟩
  simp only [Re.norm, edictHeader, Re.lit, Re.cat, Re.opt, Re.plus, notChr, Re.dot, has_one, has_not_one, has_digit, has_head, has_seg,
    has_code, has_cjDigit] <;> rfl

/-- The tree of the pattern text of `edictLine` behind its `^`. -/
def edictLinePat : Pat :=
  (.cat (.group 1 (.cat (.plus true (.chr ⟨true, [.one 0x20]⟩)) .eps)) (.cat (.chr ⟨false, [.one 0x20]⟩) (.cat (.opt
  true (.group 2 (.cat (.chr ⟨false, [.one 0x5b]⟩) (.cat (.group 3 (.cat (.plus true (.chr ⟨true, [.one 0x5d]⟩))
  .eps)) (.cat (.chr ⟨false, [.one 0x5d]⟩) (.cat (.chr ⟨false, [.one 0x20]⟩) .eps)))))) (.cat (.group 4 (.cat (.star
  true (.chr ⟨true, [.one 0xa]⟩)) .eps)) (.cat .eol .eps)))))

theorem edictLine_compile : compile ((knownTexts.getD 0 default).2.2.1) = some ⟨.cat .bol edictLinePat,
    [(u!"word", 1), (u!"reading", 3), (u!"senses", 4)]⟩ := by decide +kernel

/-- The names of its groups. -/
def edictLineNm : List (Nat × Str) := [(1, u!"word"), (3, u!"reading"), (4, u!"senses")]

theorem edictLine_toRe : ∃ r, edictLinePat.toRe (nmOf edictLineNm) = some r ∧ Re.Same r edictLine := by
  refine ⟨_, rfl, Re.same_of_norm ?_⟩
  simp only [Re.norm, edictLine, Re.lit, Re.cat, Re.opt, Re.plus, notChr, Re.dot, has_one, has_not_one, has_digit, has_head, has_seg,
    has_code, has_cjDigit] <;> rfl

/-- The tree of the pattern text of `slashSense`. -/
def slashSensePat : Pat :=
  (.cat (.chr ⟨false, [.one 0x2f]⟩) (.cat (.group 1 (.cat (.plus true (.chr ⟨true, [.one 0x2f]⟩)) .eps)) .eps))

theorem slashSense_compile : compile ((knownTexts.getD 0 default).2.2.2) = some ⟨slashSensePat,
    [(u!"sense", 1)]⟩ := by decide +kernel

/-- The names of its groups. -/
def slashSenseNm : List (Nat × Str) := [(1, u!"sense")]

theorem slashSense_toRe : ∃ r, slashSensePat.toRe (nmOf slashSenseNm) = some r ∧ Re.Same r slashSense := by
  refine ⟨_, rfl, Re.same_of_norm ?_⟩
  simp only [Re.norm, slashSense, Re.lit, Re.cat, Re.opt, Re.plus, notChr, Re.dot, has_one, has_not_one, has_digit, has_head, has_seg,
    has_code, has_cjDigit] <;> rfl

/-- The tree of the pattern text of `jcHeader` behind its `^`. -/
def jcHeaderPat : Pat :=
  (.cat (.chr ⟨false, [.one 0x46]⟩) (.cat (.chr ⟨false, [.one 0x4f]⟩) (.cat (.chr ⟨false, [.one 0x52]⟩) (.cat (.chr
  ⟨false, [.one 0x4d]⟩) (.cat (.chr ⟨false, [.one 0x41]⟩) (.cat (.chr ⟨false, [.one 0x54]⟩) (.cat (.chr ⟨false, [.one
  0x20]⟩) (.cat (.chr ⟨false, [.one 0x6a]⟩) (.cat (.chr ⟨false, [.one 0x63]⟩) (.cat (.chr ⟨false, [.one 0x5f]⟩) (.cat
  (.chr ⟨false, [.one 0x6b]⟩) (.cat (.chr ⟨false, [.one 0x64]⟩) (.cat (.chr ⟨false, [.one 0x69]⟩) (.cat (.chr ⟨false,
  [.one 0x63]⟩) (.cat .eol .eps)))))))))))))))

theorem jcHeader_compile : compile ((knownTexts.getD 1 default).2.1) = some ⟨.cat .bol jcHeaderPat,
    []⟩ := by decide +kernel

/-- The names of its groups. -/
def jcHeaderNm : List (Nat × Str) := []

theorem jcHeader_toRe : ∃ r, jcHeaderPat.toRe (nmOf jcHeaderNm) = some r ∧ Re.Same r jcHeader := by
  refine ⟨_, rfl, Re.same_of_norm ?_⟩
  simp only [Re.norm, jcHeader, Re.lit, Re.cat, Re.opt, Re.plus, notChr, Re.dot, has_one, has_not_one, has_digit, has_head, has_seg,
    has_code, has_cjDigit] <;> rfl

/-- The tree of the pattern text of `jcLine` behind its `^`. -/
def jcLinePat : Pat :=
  (.cat (.group 1 (.cat (.plus true (.chr ⟨true, [.one 0x20]⟩)) .eps)) (.cat (.chr ⟨false, [.one 0x20]⟩) (.cat (.chr
  ⟨false, [.one 0x5b]⟩) (.cat (.group 2 (.cat (.plus true (.chr ⟨true, [.one 0x5d]⟩)) .eps)) (.cat (.chr ⟨false, [.one
  0x5d]⟩) (.cat (.chr ⟨false, [.one 0x9]⟩) (.cat (.group 3 (.cat (.star true (.chr ⟨true, [.one 0xa]⟩)) .eps)) (.cat
  .eol .eps))))))))

theorem jcLine_compile : compile ((knownTexts.getD 1 default).2.2.1) = some ⟨.cat .bol jcLinePat,
    [(u!"word", 1), (u!"reading", 2), (u!"senses", 3)]⟩ := by decide +kernel

/-- The names of its groups. -/
def jcLineNm : List (Nat × Str) := [(1, u!"word"), (2, u!"reading"), (3, u!"senses")]

theorem jcLine_toRe : ∃ r, jcLinePat.toRe (nmOf jcLineNm) = some r ∧ Re.Same r jcLine := by
  refine ⟨_, rfl, Re.same_of_norm ?_⟩
  simp only [Re.norm, jcLine, Re.lit, Re.cat, Re.opt, Re.plus, notChr, Re.dot, has_one, has_not_one, has_digit, has_head, has_seg,
    has_code, has_cjDigit] <;> rfl

/-- The tree of the pattern text of `jcSense`. -/
def jcSensePat : Pat :=
  (.cat (.group 1 (.cat (.plus true (.chr ⟨true, [.one 0xff0c]⟩)) .eps)) (.cat (.opt true (.chr ⟨false, [.one
  0xff0c]⟩)) .eps))

theorem jcSense_compile : compile ((knownTexts.getD 1 default).2.2.2) = some ⟨jcSensePat,
    [(u!"sense", 1)]⟩ := by decide +kernel

/-- The names of its groups. -/
def jcSenseNm : List (Nat × Str) := [(1, u!"sense")]

theorem jcSense_toRe : ∃ r, jcSensePat.toRe (nmOf jcSenseNm) = some r ∧ Re.Same r jcSense := by
  refine ⟨_, rfl, Re.same_of_norm ?_⟩
  simp only [Re.norm, jcSense, Re.lit, Re.cat, Re.opt, Re.plus, notChr, Re.dot, has_one, has_not_one, has_digit, has_head, has_seg,
    has_code, has_cjDigit] <;> rfl

/-- The tree of the pattern text of `cjHeader` behind its `^`. -/
def cjHeaderPat : Pat :=
  (.cat (.chr ⟨false, [.one 0x46]⟩) (.cat (.chr ⟨false, [.one 0x4f]⟩) (.cat (.chr ⟨false, [.one 0x52]⟩) (.cat (.chr
  ⟨false, [.one 0x4d]⟩) (.cat (.chr ⟨false, [.one 0x41]⟩) (.cat (.chr ⟨false, [.one 0x54]⟩) (.cat (.chr ⟨false, [.one
  0x20]⟩) (.cat (.chr ⟨false, [.one 0x63]⟩) (.cat (.chr ⟨false, [.one 0x6a]⟩) (.cat (.chr ⟨false, [.one 0x5f]⟩) (.cat
  (.chr ⟨false, [.one 0x6b]⟩) (.cat (.chr ⟨false, [.one 0x64]⟩) (.cat (.chr ⟨false, [.one 0x69]⟩) (.cat (.chr ⟨false,
  [.one 0x63]⟩) (.cat .eol .eps)))))))))))))))

theorem cjHeader_compile : compile ((knownTexts.getD 2 default).2.1) = some ⟨.cat .bol cjHeaderPat,
    []⟩ := by decide +kernel

/-- The names of its groups. -/
def cjHeaderNm : List (Nat × Str) := []

theorem cjHeader_toRe : ∃ r, cjHeaderPat.toRe (nmOf cjHeaderNm) = some r ∧ Re.Same r cjHeader := by
  refine ⟨_, rfl, Re.same_of_norm ?_⟩
  simp only [Re.norm, cjHeader, Re.lit, Re.cat, Re.opt, Re.plus, notChr, Re.dot, has_one, has_not_one, has_digit, has_head, has_seg,
    has_code, has_cjDigit] <;> rfl

/-- The tree of the pattern text of `cjLine` behind its `^`. -/
def cjLinePat : Pat :=
  (.cat (.group 1 (.cat (.plus true (.chr ⟨true, [.one 0x9]⟩)) .eps)) (.cat (.chr ⟨false, [.one 0x9]⟩) (.cat (.group 2
  (.cat (.plus true (.chr ⟨true, [.one 0x5c]⟩)) .eps)) (.cat (.chr ⟨false, [.one 0x5c]⟩) (.cat (.chr ⟨false, [.one
  0x6e]⟩) (.cat (.group 3 (.cat (.star true (.chr ⟨true, [.one 0xa]⟩)) .eps)) (.cat .eol .eps)))))))

theorem cjLine_compile : compile ((knownTexts.getD 2 default).2.2.1) = some ⟨.cat .bol cjLinePat,
    [(u!"word", 1), (u!"reading", 2), (u!"senses", 3)]⟩ := by decide +kernel

/-- The names of its groups. -/
def cjLineNm : List (Nat × Str) := [(1, u!"word"), (2, u!"reading"), (3, u!"senses")]

theorem cjLine_toRe : ∃ r, cjLinePat.toRe (nmOf cjLineNm) = some r ∧ Re.Same r cjLine := by
  refine ⟨_, rfl, Re.same_of_norm ?_⟩
  simp only [Re.norm, cjLine, Re.lit, Re.cat, Re.opt, Re.plus, notChr, Re.dot, has_one, has_not_one, has_digit, has_head, has_seg,
    has_code, has_cjDigit] <;> rfl

/-- The tree of the pattern text of `cjSense`. -/
def cjSensePat : Pat :=
  (.cat (.opt true (.group 1 (.cat (.plus true (.chr ⟨false, [.one 0xff11, .one 0xff12, .one 0xff13, .one 0xff14, .one
  0xff15, .one 0xff17, .one 0xff18, .one 0xff19, .one 0xff10]⟩)) (.cat (.chr ⟨false, [.one 0xff0e]⟩) .eps)))) (.cat
  (.group 2 (.cat (.plus true (.chr ⟨true, [.one 0x5c]⟩)) .eps)) (.cat (.opt true (.group 3 (.cat (.chr ⟨false, [.one
  0x5c]⟩) (.cat (.chr ⟨false, [.one 0x6e]⟩) .eps)))) .eps)))

theorem cjSense_compile : compile ((knownTexts.getD 2 default).2.2.2) = some ⟨cjSensePat,
    [(u!"sense", 2)]⟩ := by decide +kernel

/-- The names of its groups. -/
def cjSenseNm : List (Nat × Str) := [(1, u!"1"), (2, u!"sense"), (3, u!"3")]

theorem cjSense_toRe : ∃ r, cjSensePat.toRe (nmOf cjSenseNm) = some r ∧ Re.Same r cjSense := by
  refine ⟨_, rfl, Re.same_of_norm ?_⟩
  simp only [Re.norm, cjSense, Re.lit, Re.cat, Re.opt, Re.plus, notChr, Re.dot, has_one, has_not_one, has_digit, has_head, has_seg,
    has_code, has_cjDigit] <;> rfl

/-- The tree of the pattern text of `cedictHeader` behind its `^`. -/
def cedictHeaderPat : Pat :=
  (.cat (.chr ⟨false, [.one 0x23]⟩) (.cat (.chr ⟨false, [.one 0x20]⟩) (.cat (.chr ⟨false, [.one 0x43]⟩) (.cat (.chr
  ⟨false, [.one 0x45]⟩) (.cat (.chr ⟨false, [.one 0x44]⟩) (.cat (.chr ⟨false, [.one 0x49]⟩) (.cat (.chr ⟨false, [.one
  0x43]⟩) (.cat (.chr ⟨false, [.one 0x54]⟩) (.cat (.star true (.chr ⟨true, [.one 0xa]⟩)) (.cat .eol .eps))))))))))

theorem cedictHeader_compile : compile ((knownTexts.getD 3 default).2.1) = some ⟨.cat .bol cedictHeaderPat,
    []⟩ := by decide +kernel

/-- The names of its groups. -/
def cedictHeaderNm : List (Nat × Str) := []

theorem cedictHeader_toRe : ∃ r, cedictHeaderPat.toRe (nmOf cedictHeaderNm) = some r ∧ Re.Same r cedictHeader := by
  refine ⟨_, rfl, Re.same_of_norm ?_⟩
  simp only [Re.norm, cedictHeader, Re.lit, Re.cat, Re.opt, Re.plus, notChr, Re.dot, has_one, has_not_one, has_digit, has_head, has_seg,
    has_code, has_cjDigit] <;> rfl

/-- The tree of the pattern text of `cedictLine` behind its `^`. -/
def cedictLinePat : Pat :=
  (.cat (.plus true (.chr ⟨true, [.one 0x20]⟩)) (.cat (.chr ⟨false, [.one 0x20]⟩) (.cat (.group 1 (.cat (.plus true
  (.chr ⟨true, [.one 0x20]⟩)) .eps)) (.cat (.chr ⟨false, [.one 0x20]⟩) (.cat (.opt true (.group 2 (.cat (.chr ⟨false,
  [.one 0x5b]⟩) (.cat (.group 3 (.cat (.plus true (.chr ⟨true, [.one 0x5d]⟩)) .eps)) (.cat (.chr ⟨false, [.one 0x5d]⟩)
  .eps))))) (.cat (.group 4 (.cat (.star true (.chr ⟨true, [.one 0xa]⟩)) .eps)) .eps))))))

theorem cedictLine_compile : compile ((knownTexts.getD 3 default).2.2.1) = some ⟨.cat .bol cedictLinePat,
    [(u!"word", 1), (u!"reading", 3), (u!"senses", 4)]⟩ := by decide +kernel

/-- The names of its groups. -/
def cedictLineNm : List (Nat × Str) := [(1, u!"word"), (3, u!"reading"), (4, u!"senses")]

theorem cedictLine_toRe : ∃ r, cedictLinePat.toRe (nmOf cedictLineNm) = some r ∧ Re.Same r cedictLine := by
  refine ⟨_, rfl, Re.same_of_norm ?_⟩
  simp only [Re.norm, cedictLine, Re.lit, Re.cat, Re.opt, Re.plus, notChr, Re.dot, has_one, has_not_one, has_digit, has_head, has_seg,
    has_code, has_cjDigit] <;> rfl

/-- The tree of the pattern text of `segmentPattern`. -/
def segmentPatternPat : Pat :=
  (.alt (.cat (.plus true (.chr ⟨true, [.one 0x20, .one 0x7b]⟩)) .eps) (.cat (.chr ⟨false, [.one 0x7b]⟩) (.cat (.star
  false (.chr ⟨true, [.one 0xa]⟩)) (.cat (.chr ⟨false, [.one 0x7d]⟩) .eps))))

theorem segmentPattern_compile : compile (segmentText) = some ⟨segmentPatternPat,
    []⟩ := by decide +kernel

/-- The names of its groups. -/
def segmentPatternNm : List (Nat × Str) := []

theorem segmentPattern_toRe : ∃ r, segmentPatternPat.toRe (nmOf segmentPatternNm) = some r ∧ Re.Same r segmentPattern := by
  refine ⟨_, rfl, Re.same_of_norm ?_⟩
  simp only [Re.norm, segmentPattern, Re.lit, Re.cat, Re.opt, Re.plus, notChr, Re.dot, has_one, has_not_one, has_digit, has_head, has_seg,
    has_code, has_cjDigit] <;> rfl

/-- The tree of the pattern text of `codePattern`. -/
def codePatternPat : Pat :=
  (.cat (.chr ⟨false, [.one 0x28]⟩) (.cat (.group 1 (.cat (.plus true (.chr ⟨false, [.range 0x61 0x7a, .range 0x41
  0x5a, .range 0x30 0x39, .one 0x2c, .one 0x2d]⟩)) .eps)) (.cat (.chr ⟨false, [.one 0x29]⟩) .eps)))

theorem codePattern_compile : compile (codeText) = some ⟨codePatternPat,
    []⟩ := by decide +kernel

/-- The names of its groups. -/
def codePatternNm : List (Nat × Str) := [(1, u!"1")]

theorem codePattern_toRe : ∃ r, codePatternPat.toRe (nmOf codePatternNm) = some r ∧ Re.Same r codePattern := by
  refine ⟨_, rfl, Re.same_of_norm ?_⟩
  simp only [Re.norm, codePattern, Re.lit, Re.cat, Re.opt, Re.plus, notChr, Re.dot, has_one, has_not_one, has_digit, has_head, has_seg,
    has_code, has_cjDigit] <;> rfl

/-- The tree of the pattern text of `long`. -/
def longPat : Pat :=
  (.cat (.behind ⟨false, [.range 0x3041 0x3096]⟩) (.cat (.chr ⟨false, [.one 0x30fc]⟩) .eps))

theorem long_compile : compile (longText) = some ⟨longPat,
    []⟩ := by decide +kernel

/-- The tree of the pattern text of `wordRe`. -/
def wordRePat : Pat :=
  (.cat (.group 1 (.cat (.plus true (.chr ⟨true, [.one 0x28, .one 0x5b, .one 0x7b, .one 0x7c, .one 0x7e]⟩)) .eps))
  (.cat (.opt true (.cat (.chr ⟨false, [.one 0x28]⟩) (.cat (.group 2 (.cat (.plus true (.chr ⟨true, [.one 0x29]⟩))
  .eps)) (.cat (.chr ⟨false, [.one 0x29]⟩) .eps)))) (.cat (.opt true (.cat (.chr ⟨false, [.one 0x7c]⟩) (.cat (.plus
  true (.chr ⟨false, [.digit]⟩)) .eps))) (.cat (.opt true (.cat (.chr ⟨false, [.one 0x5b]⟩) (.cat (.group 3 (.cat
  (.plus true (.chr ⟨false, [.digit]⟩)) .eps)) (.cat (.chr ⟨false, [.one 0x5d]⟩) .eps)))) (.cat (.opt true (.cat (.chr
  ⟨false, [.one 0x7b]⟩) (.cat (.group 4 (.cat (.plus true (.chr ⟨true, [.one 0x7d]⟩)) .eps)) (.cat (.chr ⟨false, [.one
  0x7d]⟩) .eps)))) (.cat (.opt true (.cat (.group 5 (.cat (.chr ⟨false, [.one 0x7e]⟩) .eps)) .eps)) (.cat .eol
  .eps)))))))

theorem wordRe_compile : compile (wordText) = some ⟨wordRePat,
    [(u!"headword", 1), (u!"reading", 2), (u!"sense", 3), (u!"display", 4), (u!"example", 5)]⟩ := by decide +kernel

/-- The names of its groups. -/
def wordReNm : List (Nat × Str) := [(1, u!"headword"), (2, u!"reading"), (3, u!"sense"), (4, u!"display"), (5, u!"example")]

theorem wordRe_toRe : ∃ r, wordRePat.toRe (nmOf wordReNm) = some r ∧ Re.Same r wordRe := by
  refine ⟨_, rfl, Re.same_of_norm ?_⟩
  simp only [Re.norm, wordRe, Re.lit, Re.cat, Re.opt, Re.plus, notChr, Re.dot, has_one, has_not_one, has_digit, has_head, has_seg,
    has_code, has_cjDigit] <;> rfl

end Cjk
