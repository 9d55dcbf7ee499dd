import Verif.Props.PinyinTones
/-!
# C156: pinyin and hanzi in pieces

`from_hanzi` works character by character.  `segment_pinyin` does not: `xian` is one syllable, `xi` and `an` are two.  It does when the text is
cut behind a character that occurs in no syllable, such as a tone digit or a punctuation mark.
-/

namespace Cjk
open Py

/-- The result of a text from those of its pieces; the first exception is raised. -/
def Spec.inPieces (x y : Except PyErr Str) : Except PyErr Str :=
  match x with
  | .error e => .error e
  | .ok u => match y with
    | .error e => .error e
    | .ok v => .ok (u ++ v)

/-- **C156** (hanzi).  `from_hanzi` of a text is that of its pieces, exceptions included. -/
theorem C156_hanzi (lower : Str → Str) (syllables : List Str) (table : Dict Str (List Str)) (inline useTones : Bool) (a b : Str) :
    fromHanzi lower syllables table inline useTones (a ++ b) =
      Spec.inPieces (fromHanzi lower syllables table inline useTones a) (fromHanzi lower syllables table inline useTones b) := by
  unfold fromHanzi
  generalize (if !useTones then false else inline) = il
  induction a with
  | nil =>
    simp only [List.nil_append, fromHanziLoop, Spec.inPieces]
    cases fromHanziLoop lower syllables table il useTones b <;> rfl
  | cons c a ih =>
    simp only [List.cons_append, fromHanziLoop]
    cases fromHanziChar lower syllables table il useTones c with
    | error e => rfl
    | ok x =>
      simp only [ih]
      cases fromHanziLoop lower syllables table il useTones a with
      | error e => rfl
      | ok u =>
        cases fromHanziLoop lower syllables table il useTones b with
        | error e => rfl
        | ok v => simp [Spec.inPieces, Except.map]

/-- The text ends with a character that occurs in no syllable, or is empty. -/
def Spec.EndsOutside (syllables : List Str) (text : Str) : Prop := ∀ c, text.getLast? = some c → ∀ s ∈ syllables, c ∉ s

theorem endsOutside_tail {syls : List Str} {u v : Str} (h : Spec.EndsOutside syls (u ++ v)) : Spec.EndsOutside syls v := by
  intro c hc
  apply h c
  rw [List.getLast?_append, hc]
  rfl

theorem prefix_inside {syls : List Str} {a b s : Str} (h : Spec.EndsOutside syls a) (hs : s ∈ syls) (hne : a ≠ []) (hp : s <+: a ++ b) :
    s <+: a := by
  by_cases hl : s.length ≤ a.length
  · exact List.prefix_of_prefix_length_le hp (List.prefix_append _ _) hl
  · exfalso
    have h2 : a <+: s := List.prefix_of_prefix_length_le (List.prefix_append _ _) hp (by omega)
    refine h (a.getLast hne) (List.getLast?_eq_some_getLast hne) s hs (h2.subset (List.getLast_mem hne))

theorem segments_append {syls : List Str} (hw : [] ∉ syls) {a b : Str} {oa ob : List (Str × Int)} (ha : Spec.Segments syls a oa)
    (hb : Spec.Segments syls b ob) (hend : Spec.EndsOutside syls a) : Spec.Segments syls (a ++ b) (oa ++ ob) := by
  induction ha with
  | nil => exact hb
  | syllable s tone rest t out hmem hmax htone hno _ ih =>
    have hne : s ≠ [] := fun h => hw (h ▸ hmem)
    have e : s ++ (tone ++ rest) ++ b = s ++ (tone ++ (rest ++ b)) := by simp
    rw [e]
    refine .syllable s tone (rest ++ b) t (out ++ ob) hmem ?_ htone ?_
      (ih (endsOutside_tail (u := s ++ tone) (by rw [List.append_assoc]; exact hend)))
    · intro s' hs' hp
      rw [← e] at hp
      exact hmax s' hs' (prefix_inside hend hs' (by simp [hne]) hp)
    · intro ht c hc
      subst ht
      cases rest with
      | nil =>
        exfalso
        refine hend (s.getLast hne) ?_ s hmem (List.getLast_mem hne)
        simp [List.getLast?_eq_some_getLast hne]
      | cons x rest => exact hno rfl c (by simpa using hc)
  | hash rest out hno _ ih =>
    refine .hash (rest ++ b) (out ++ ob) ?_ (ih (endsOutside_tail (u := [0x23]) hend))
    intro s hs hp
    exact hno s hs (prefix_inside hend hs (by simp) hp)
  | skip c rest out hc hno _ ih =>
    refine .skip c (rest ++ b) (out ++ ob) hc ?_ (ih (endsOutside_tail (u := [c]) hend))
    intro s hs hp
    exact hno s hs (prefix_inside hend hs (by simp) hp)

/-- **C156** (segmenting).  A text that is cut behind a character that occurs in no syllable (a tone digit, a punctuation mark) is segmented in
pieces.  `str.lower` works on the pieces alone except for a final sigma. -/
theorem C156_segment (lower : Str → Str) (lines : List Str) (seg : List Str) (h : newSegmenter lines = .ok seg) (a b : Str)
    (hlow : lower (a ++ b) = lower a ++ lower b)
    (hend : Spec.EndsOutside ([0x72] :: (Spec.tablePairs lines).map Prod.snd) (Spec.normal lower a)) (oa ob : List (Str × Int))
    (ha : segmentPinyin lower seg a = .ok oa) (hb : segmentPinyin lower seg b = .ok ob) :
    segmentPinyin lower seg (a ++ b) = .ok (oa ++ ob) := by
  rw [C69_longest lower lines seg h] at ha hb ⊢
  have hn : Spec.normal lower (a ++ b) = Spec.normal lower a ++ Spec.normal lower b := by simp [Spec.normal, hlow]
  rw [hn]
  obtain ⟨_, hp, _, hw, _⟩ := newSegmenter_spec h
  exact segments_append (fun hm => hw (hp.mem_iff.2 hm)) ha hb hend

theorem applyTones_append (x y : List (Str × Int)) : applyTones (x ++ y) = Spec.inPieces (applyTones x) (applyTones y) := by
  induction x with
  | nil =>
    simp only [List.nil_append, applyTones, Spec.inPieces]
    cases applyTones y <;> rfl
  | cons p x ih =>
    obtain ⟨p, t⟩ := p
    simp only [List.cons_append, applyTones, ih]
    cases applyTone p t with
    | error e => rfl
    | ok s =>
      cases applyTones x with
      | error e => rfl
      | ok u =>
        cases applyTones y with
        | error e => rfl
        | ok v => simp [Spec.inPieces, Except.map]

/-- **C156** (tone marks).  Likewise `from_ascii` and `strip_tones`, exceptions included. -/
theorem C156_ascii (lower : Str → Str) (hl : Spec.IsLower lower) (lines : List Str) (seg : List Str) (h : newSegmenter lines = .ok seg) (a b : Str)
    (hlow : lower (a ++ b) = lower a ++ lower b)
    (hend : Spec.EndsOutside ([0x72] :: (Spec.tablePairs lines).map Prod.snd) (Spec.normal lower a)) :
    fromAscii lower seg (a ++ b) = Spec.inPieces (fromAscii lower seg a) (fromAscii lower seg b) ∧
    stripTones lower seg (a ++ b) = Spec.inPieces (stripTones lower seg a) (stripTones lower seg b) := by
  have same : ∀ s, segmentPinyin lower seg (pinyinNormalize lower s) = segmentPinyin lower seg s := by
    intro s
    unfold segmentPinyin
    rw [normalize_idem hl]
  obtain ⟨oa, ha⟩ := C69_total lower lines seg h a
  obtain ⟨ob, hb⟩ := C69_total lower lines seg h b
  have hab := C156_segment lower lines seg h a b hlow hend oa ob ha hb
  constructor
  · simp only [fromAscii, same, ha, hb, hab, applyTones_append]
  · simp only [stripTones, same, ha, hb, hab, List.map_append, List.flatten_append, Spec.inPieces]

/-! ### Cases that meet the hypotheses -/

/-- A table with `xi`, `an` and `xian`. -/
def xianLines : List Str := [u!"ㄒㄧ\txi", u!"ㄢ\tan", u!"ㄒㄧㄢ\txian"]

/-- Behind a tone digit the text can be cut; without one the two syllables become one. -/
example : ∃ seg, newSegmenter xianLines = .ok seg ∧
    segmentPinyin (fun s => s.map Spec.lowerChr) seg u!"Xi1an" = .ok [(u!"xi", 1), (u!"an", 0)] ∧
    segmentPinyin (fun s => s.map Spec.lowerChr) seg u!"Xi an" = .ok [(u!"xian", 0)] ∧
    Spec.EndsOutside ([0x72] :: (Spec.tablePairs xianLines).map Prod.snd) (Spec.normal (fun s => s.map Spec.lowerChr) u!"Xi1") := by
  refine ⟨_, rfl, by decide +kernel, by decide +kernel, ?_⟩
  have e : ([0x72] :: (Spec.tablePairs xianLines).map Prod.snd) = [u!"r", u!"xi", u!"an", u!"xian"] := by decide +kernel
  have e2 : (Spec.normal (fun s => s.map Spec.lowerChr) u!"Xi1").getLast? = some 0x31 := by decide +kernel
  rw [e]
  intro c hc
  rw [e2] at hc
  cases hc
  decide +kernel

end Cjk
