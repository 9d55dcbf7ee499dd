import Verif.Spec.TypedPinyin
import Verif.Props.Pinyin
import Verif.Props.PinyinTones
/-!
# C167: pinyin typed without some of its tones
-/

namespace Cjk
open Py
open Spec (Segments Typed typed meant WellTyped NoLonger ToneDigit ToneText reported)

/-- The first syllable that is found, if the text begins with a syllable that is reported in the same way. -/
theorem segments_first {syls : List Str} {p u : Str} {t : Int} {out : List (Str × Int)} (hp : p ∈ syls) (hne : p ≠ [])
    (h : Segments syls (p ++ u) ((reported p, t) :: out)) :
    (∀ s ∈ syls, s <+: p ++ u → s.length ≤ p.length) ∧
    ∃ tone rest, u = tone ++ rest ∧ ToneText tone t ∧ (tone = [] → ∀ c, rest.head? = some c → ¬ ToneDigit c) ∧ Segments syls rest out := by
  generalize hx : p ++ u = x at h
  generalize ho : (reported p, t) :: out = o at h
  cases h with
  | nil => cases ho
  | syllable s tone rest t' out' hs hlong ht hnd hrest =>
    have hpre : p <+: s ++ (tone ++ rest) := hx ▸ List.prefix_append p u
    have hle := hlong p hp hpre
    have hsp : p <+: s := List.prefix_of_prefix_length_le hpre (List.prefix_append _ _) hle
    simp only [List.cons.injEq, Prod.mk.injEq] at ho
    obtain ⟨⟨hr, rfl⟩, rfl⟩ := ho
    have : s = p := by
      unfold Spec.reported at hr
      split at hr <;> split at hr
      · rename_i a b; rw [a, b]
      · rename_i a b
        subst a
        rw [← hr] at hsp
        exact absurd hsp (by decide)
      · rename_i a b
        subst b
        rw [hr] at hle
        exact absurd hle (by decide)
      · exact hr.symm
    subst this
    refine ⟨hlong, tone, rest, List.append_cancel_left hx, ht, hnd, hrest⟩
  | hash rest out' hno _ => exact absurd (hx ▸ List.prefix_append p u) (hno p hp)
  | skip c rest out' _ hno _ => exact absurd (hx ▸ List.prefix_append p u) (hno p hp)

theorem segments_gap {syls : List Str} (hne : ∀ s ∈ syls, s ≠ []) {gap u : Str} {out : List (Str × Int)}
    (hg : ∀ c ∈ gap, c ≠ 0x23 ∧ ¬ ToneDigit c ∧ ∀ s ∈ syls, c ∉ s) : Segments syls (gap ++ u) out ↔ Segments syls u out := by
  induction gap with
  | nil => rfl
  | cons c gap ih =>
    rw [← ih (fun d hd => hg d (by simp [hd])), List.cons_append]
    have hno : ∀ s ∈ syls, ¬ s <+: c :: (gap ++ u) := by
      intro s hs hp
      cases s with
      | nil => exact hne _ hs rfl
      | cons d s =>
        rw [List.cons_prefix_cons] at hp
        exact (hg c (by simp)).2.2 _ hs (by simp [hp.1])
    constructor
    · intro h
      generalize hx : c :: (gap ++ u) = x at h
      cases h with
      | nil => cases hx
      | syllable s tone rest t out hs => exact absurd (hx ▸ List.prefix_append s _) (hno s hs)
      | hash rest out => cases hx; exact absurd rfl (hg 0x23 (by simp)).1
      | skip d rest out _ _ h => cases hx; exact h
    · intro h
      exact .skip c _ _ (hg c (by simp)).1 hno h

theorem typed_head {syls : List Str} (hne : ∀ s ∈ syls, s ≠ []) (hd : ∀ s ∈ syls, ∀ c ∈ s, ¬ ToneDigit c) {l : List Typed}
    (hl : WellTyped syls l) {gap : Str} (hg : ∀ c ∈ gap, c ≠ 0x23 ∧ ¬ ToneDigit c ∧ ∀ s ∈ syls, c ∉ s) :
    ∀ c, (gap ++ typed l).head? = some c → ¬ ToneDigit c := by
  intro c hc
  cases gap with
  | cons d gap =>
    simp only [List.cons_append, List.head?_cons, Option.some.injEq] at hc
    subst hc
    exact (hg d (by simp)).2.1
  | nil =>
    cases l with
    | nil => cases hc
    | cons x l =>
      have hx := (hl x (by simp)).1
      cases hs : x.syllable with
      | nil => exact absurd hs (hne _ hx)
      | cons e s =>
        simp only [List.nil_append, typed, hs, List.cons_append, List.head?_cons, Option.some.injEq] at hc
        subst hc
        exact hd _ hx _ (by simp [hs])

theorem segments_typed_iff {syls : List Str} (hne : ∀ s ∈ syls, s ≠ []) (hd : ∀ s ∈ syls, ∀ c ∈ s, ¬ ToneDigit c) (l : List Typed)
    (hl : WellTyped syls l) : Segments syls (typed l) (meant l) ↔ NoLonger syls l := by
  induction l with
  | nil =>
    refine ⟨fun _ => ?_, fun _ => .nil⟩
    intro before x after h
    cases before <;> cases h
  | cons x l ih =>
    have hl' : WellTyped syls l := fun y hy => hl y (by simp [hy])
    obtain ⟨hx, ht5, hg⟩ := hl x (by simp)
    have hxn := hne _ hx
    have hsplit : NoLonger syls (x :: l) ↔
        (x.tone = none → x.gap = [] → ∀ s ∈ syls, s <+: x.syllable ++ typed l → s.length ≤ x.syllable.length) ∧ NoLonger syls l := by
      constructor
      · intro h
        refine ⟨fun a b => h [] x l rfl a b, ?_⟩
        intro before y after hy
        exact h (x :: before) y after (by rw [hy]; rfl)
      · rintro ⟨h1, h2⟩ before y after hy
        cases before with
        | nil => cases hy; exact h1
        | cons z before => cases hy; exact h2 before y after rfl
    rw [hsplit, ← ih hl']
    have hhead := typed_head hne hd hl' hg
    constructor
    · intro h
      obtain ⟨hlong, tone, rest, hu, htn, hnd, hrest⟩ := segments_first hx hxn h
      generalize ((x.tone.getD 0 : Nat) : Int) = tn at htn
      have hrest' : Segments syls (x.gap ++ typed l) (meant l) := by
        cases hxt : x.tone with
        | none =>
          rw [hxt] at hu
          simp only [Spec.toneText, List.nil_append] at hu
          cases htn with
          | none => rw [hu]; exact hrest
          | digit d hd5 =>
            exact absurd ⟨by omega, by omega⟩ (hhead (0x30 + d) (by rw [hu]; rfl))
        | some d =>
          rw [hxt] at hu
          simp only [Spec.toneText, List.cons_append, List.nil_append] at hu
          have hd5 := ht5 d hxt
          cases htn with
          | none =>
            refine absurd ⟨by omega, by omega⟩ (hnd rfl (0x30 + d) (by rw [List.nil_append] at hu; rw [← hu]; rfl))
          | digit e he =>
            simp only [List.cons_append, List.nil_append, List.cons.injEq] at hu
            rw [hu.2]; exact hrest
      refine ⟨?_, (segments_gap hne hg).1 hrest'⟩
      intro h1 h2 s hs hp
      apply hlong s hs
      rw [h1, h2]
      exact hp
    · rintro ⟨h1, h2⟩
      have hrest := (segments_gap (u := typed l) hne hg).2 h2
      show Segments syls (x.syllable ++ (Spec.toneText x.tone ++ (x.gap ++ typed l))) ((reported x.syllable, _) :: meant l)
      refine .syllable x.syllable _ _ _ _ hx ?_ ?_ ?_ hrest
      · intro s hs hp
        cases hxt : x.tone with
        | some d =>
          -- the digit is in no syllable
          rw [hxt] at hp
          refine Nat.le_of_not_lt fun hlt => ?_
          obtain ⟨r, hr⟩ := hp
          have hget : s[x.syllable.length]? = some (0x30 + d) := by
            have := congrArg (fun z => z[x.syllable.length]?) hr
            simp only [List.getElem?_append_left hlt, Spec.toneText, List.cons_append, List.nil_append] at this
            rw [this, List.getElem?_append_right (Nat.le_refl _)]
            simp
          have := ht5 d hxt
          exact hd s hs _ (List.mem_of_getElem? hget) ⟨by omega, by omega⟩
        | none =>
          rw [hxt] at hp
          simp only [Spec.toneText, List.nil_append] at hp
          cases hgap : x.gap with
          | nil =>
            rw [hgap] at hp
            exact h1 hxt hgap s hs hp
          | cons c gap =>
            rw [hgap] at hp
            refine Nat.le_of_not_lt fun hlt => ?_
            obtain ⟨r, hr⟩ := hp
            have hget : s[x.syllable.length]? = some c := by
              have := congrArg (fun z => z[x.syllable.length]?) hr
              simp only [List.getElem?_append_left hlt, List.cons_append] at this
              rw [this, List.getElem?_append_right (Nat.le_refl _)]
              simp
            exact (hg c (by simp [hgap])).2.2 s hs (List.mem_of_getElem? hget)
      · cases hxt : x.tone with
        | none => exact .none
        | some d => exact .digit d (ht5 d hxt)
      · intro ht
        cases hxt : x.tone with
        | none => exact hhead
        | some d => rw [hxt] at ht; cases ht

/-- The syllables of a table: not empty. -/
theorem syllables_ne_nil {lines seg : List Str} (h : newSegmenter lines = .ok seg) : ∀ s ∈ Spec.patternSyllables lines, s ≠ [] := by
  obtain ⟨_, hp, _, hne, _⟩ := newSegmenter_spec h
  intro s hs e
  subst e
  exact hne (hp.mem_iff.2 hs)

theorem syllables_no_digit {lines : List Str} (hd : ∀ p ∈ (Spec.tablePairs lines).map Prod.snd, ∀ c ∈ p, ¬ ToneDigit c) :
    ∀ s ∈ Spec.patternSyllables lines, ∀ c ∈ s, ¬ ToneDigit c := by
  intro s hs c hc
  rcases List.mem_cons.1 hs with rfl | hs
  · cases List.mem_singleton.1 hc
    unfold ToneDigit; omega
  · exact hd s hs c hc

/-- C167: a text of syllables, some with a tone digit and some not, possibly with other characters in between, is segmented into these
syllables exactly if no syllable that runs into the next one makes up a longer syllable with it. -/
theorem C167_iff (lower : Str → Str) (lines : List Str) (seg : List Str) (h : newSegmenter lines = .ok seg)
    (hd : ∀ p ∈ (Spec.tablePairs lines).map Prod.snd, ∀ c ∈ p, ¬ ToneDigit c) (l : List Typed) (hl : WellTyped (Spec.patternSyllables lines) l)
    (text : Str) (ht : Spec.normal lower text = typed l) :
    segmentPinyin lower seg text = .ok (meant l) ↔ NoLonger (Spec.patternSyllables lines) l := by
  rw [C69_longest lower lines seg h, ht]
  exact segments_typed_iff (syllables_ne_nil h) (syllables_no_digit hd) l hl

/-- C167: so tone digits may be left out wherever an apostrophe or another such character stands instead, and behind the last syllable. -/
theorem C167_gaps_partial (lower : Str → Str) (lines : List Str) (seg : List Str) (h : newSegmenter lines = .ok seg)
    (hd : ∀ p ∈ (Spec.tablePairs lines).map Prod.snd, ∀ c ∈ p, ¬ ToneDigit c) (l : List Typed) (hl : WellTyped (Spec.patternSyllables lines) l)
    (hs : ∀ before x y after, l = before ++ x :: y :: after → x.tone ≠ none ∨ x.gap ≠ [])
    (text : Str) (ht : Spec.normal lower text = typed l) :
    segmentPinyin lower seg text = .ok (meant l) := by
  rw [C167_iff lower lines seg h hd l hl text ht]
  intro before x after he h1 h2 s hm hp
  cases after with
  | nil => rw [typed, List.append_nil] at hp; exact hp.length_le
  | cons y after =>
    rcases hs before x y after he with h | h
    · exact absurd h1 h
    · exact absurd h2 h

/-- The same syllables, without tones and in one piece. -/
def Spec.bare (l : List Typed) : List Typed := l.map (fun x => ⟨x.syllable, none, []⟩)

theorem typed_bare (l : List Typed) : typed (Spec.bare l) = l.flatMap Typed.syllable := by
  induction l with
  | nil => rfl
  | cons x l ih => simp only [Spec.bare, List.map_cons, typed, Spec.toneText, List.nil_append, List.flatMap_cons]; rw [← ih]; rfl

/-- A word of the letters of syllables that begins a text begins it without tones and gaps. -/
theorem prefix_bare {syls : List Str} {s : Str} (l : List Typed) (hl : WellTyped syls l)
    (hs : ∀ c ∈ s, ¬ ToneDigit c ∧ ∃ p ∈ syls, c ∈ p) (hp : s <+: typed l) : s <+: typed (Spec.bare l) := by
  induction l generalizing s with
  | nil => exact hp
  | cons x l ih =>
    obtain ⟨_, ht5, hg⟩ := hl x (by simp)
    show s <+: x.syllable ++ typed (Spec.bare l)
    by_cases hlen : s.length ≤ x.syllable.length
    · exact (List.prefix_of_prefix_length_le hp (List.prefix_append _ _) hlen).trans (List.prefix_append _ _)
    · obtain ⟨u, rfl⟩ := List.prefix_of_prefix_length_le (List.prefix_append x.syllable _) hp (by omega)
      rw [List.prefix_append_right_inj]
      rw [typed, List.prefix_append_right_inj] at hp
      apply ih (fun y hy => hl y (by simp [hy])) (fun c hc => hs c (by simp [hc]))
      cases hu : u with
      | nil => exact List.nil_prefix
      | cons c u =>
        subst hu
        have hc := hs c (by simp)
        cases hxt : x.tone with
        | some d =>
          rw [hxt] at hp
          simp only [Spec.toneText, List.cons_append, List.nil_append, List.cons_prefix_cons] at hp
          have := ht5 d hxt
          exact absurd ⟨by omega, by omega⟩ hc.1
        | none =>
          rw [hxt] at hp
          simp only [Spec.toneText, List.nil_append] at hp
          cases hgap : x.gap with
          | nil => rw [hgap] at hp; exact hp
          | cons e gap =>
            rw [hgap, List.cons_append, List.cons_prefix_cons] at hp
            obtain ⟨p, hpm, hcp⟩ := hc.2
            exact absurd (hp.1 ▸ hcp) ((hg e (by simp [hgap])).2.2 p hpm)

theorem noLonger_of_bare {syls : List Str} (hd : ∀ s ∈ syls, ∀ c ∈ s, ¬ ToneDigit c) {l : List Typed} (hl : WellTyped syls l)
    (h : NoLonger syls (Spec.bare l)) : NoLonger syls l := by
  intro before x after he h1 h2 s hs hp
  have := h (Spec.bare before) ⟨x.syllable, none, []⟩ (Spec.bare after) (by rw [he]; simp [Spec.bare]) rfl rfl s hs
  apply this
  refine prefix_bare (x :: after) (fun y hy => hl y (by rw [he]; simp only [List.mem_append]; exact Or.inr hy)) (fun c hc => ⟨hd s hs c hc, s, hs, hc⟩) ?_
  rw [typed, h1, h2]
  exact hp

/-- C167: if the syllables can be told apart without tones, stripping the tones gives the bare syllables, and stripping again changes
nothing, and the bare text is segmented into the same syllables. -/
theorem C167_strip_partial (lower : Str → Str) (hlow : Spec.IsLower lower) (lines : List Str) (seg : List Str) (h : newSegmenter lines = .ok seg)
    (hd : ∀ p ∈ (Spec.tablePairs lines).map Prod.snd, ∀ c ∈ p, ¬ ToneDigit c) (l : List Typed) (hl : WellTyped (Spec.patternSyllables lines) l)
    (hr : ∀ x ∈ l, x.syllable ≠ u!"r") (hn : NoLonger (Spec.patternSyllables lines) (Spec.bare l))
    (text : Str) (ht : Spec.normal lower text = typed l) :
    stripTones lower seg text = .ok (l.flatMap Typed.syllable) ∧
    stripTones lower seg (l.flatMap Typed.syllable) = .ok (l.flatMap Typed.syllable) ∧
    segmentPinyin lower seg (l.flatMap Typed.syllable) = .ok (l.map (fun x => (x.syllable, 0))) := by
  have hflat : ∀ l : List Typed, (∀ x ∈ l, x.syllable ≠ u!"r") → (meant l).flatMap Prod.fst = l.flatMap Typed.syllable := by
    intro l hr
    induction l with
    | nil => rfl
    | cons x l ih =>
      have := hr x (by simp)
      simp only [meant, List.map_cons, List.flatMap_cons] at ih ⊢
      rw [ih (fun y hy => hr y (by simp [hy])), Spec.reported, if_neg this]
  have hbare : WellTyped (Spec.patternSyllables lines) (Spec.bare l) := by
    intro y hy
    obtain ⟨x, hx, rfl⟩ := List.mem_map.1 hy
    exact ⟨(hl x hx).1, by simp, by simp⟩
  have hsub : ∀ c ∈ l.flatMap Typed.syllable, c ∈ typed l := by
    clear ht hn hl hr hbare hflat
    intro c hc
    induction l with
    | nil => exact hc
    | cons x l ih =>
      rw [List.flatMap_cons, List.mem_append] at hc
      rw [typed]
      simp only [List.mem_append]
      rcases hc with hc | hc
      · exact Or.inl hc
      · exact Or.inr (Or.inr (Or.inr (ih hc)))
  have hnorm : Spec.normal lower (l.flatMap Typed.syllable) = l.flatMap Typed.syllable := by
    have hin : ∀ c ∈ l.flatMap Typed.syllable, (c ∈ lower text ∨ c = 0xfc) ∧ c ≠ 0x20 ∧ c ≠ 0x76 := by
      intro c hc
      have := hsub c hc
      rw [← ht, Spec.normal, List.mem_map] at this
      obtain ⟨d, hdm, rfl⟩ := this
      rw [List.mem_filter] at hdm
      have hdn : d ≠ 0x20 := by simpa using hdm.2
      split
      · exact ⟨Or.inr rfl, by decide, by decide⟩
      · rename_i h76
        exact ⟨Or.inl hdm.1, hdn, h76⟩
    rw [Spec.normal, hlow.stable text _ (fun c hc => (hin c hc).1), List.filter_eq_self.2 (fun c hc => by simpa using (hin c hc).2.1)]
    conv => rhs; rw [← List.map_id (l.flatMap Typed.syllable)]
    apply List.map_congr_left
    intro c hc
    rw [if_neg (hin c hc).2.2]; rfl
  have s1 := (C167_iff lower lines seg h hd l hl text ht).2 (noLonger_of_bare (syllables_no_digit hd) hl hn)
  have s2 := (C167_iff lower lines seg h hd _ hbare (l.flatMap Typed.syllable) (by rw [hnorm, typed_bare])).2 hn
  have hrb : ∀ x ∈ Spec.bare l, x.syllable ≠ u!"r" := by
    intro y hy
    obtain ⟨x, hx, rfl⟩ := List.mem_map.1 hy
    exact hr x hx
  have hfb : (Spec.bare l).flatMap Typed.syllable = l.flatMap Typed.syllable := by
    rw [Spec.bare, List.flatMap_map]
  refine ⟨?_, ?_, ?_⟩
  · rw [C68_strip lower hlow seg text _ s1, hflat l hr]
  · rw [C68_strip lower hlow seg _ _ s2, hflat _ hrb, hfb]
  · rw [s2]
    congr 1
    rw [meant, Spec.bare, List.map_map]
    apply List.map_congr_left
    intro x hx
    simp only [Function.comp, Spec.reported, if_neg (hr x hx)]
    rfl

/-- A table with syllables that can be confused. -/
def confusable : List Str := [u!"ㄒㄧ xi\n", u!"ㄢ an\n", u!"ㄒㄧㄢ xian\n", u!"ㄉㄜ de\n", u!"ㄉㄣ den\n", u!"ㄋㄧㄡ niu\n"]

/-- C167 as stated is false: without tones "xi an" is read as one syllable, "deniu2" and "de niu" lose a syllable, and stripping the
tones a second time changes the text. -/
theorem C167_refuted : ∃ seg, newSegmenter confusable = .ok seg ∧
    segmentPinyin (fun s => s.map Spec.lowerChr) seg u!"xi an" = .ok [(u!"xian", 0)] ∧
    segmentPinyin (fun s => s.map Spec.lowerChr) seg u!"deniu2" = .ok [(u!"den", 0)] ∧
    stripTones (fun s => s.map Spec.lowerChr) seg u!"de5niu2" = .ok u!"deniu" ∧
    stripTones (fun s => s.map Spec.lowerChr) seg u!"deniu" = .ok u!"den" :=
  ⟨_, rfl, by decide +kernel, by decide +kernel, by decide +kernel, by decide +kernel⟩

-- the hypotheses are met: an apostrophe, a missing tone at the end
example : WellTyped (Spec.patternSyllables confusable) [⟨u!"xi", none, u!"'"⟩, ⟨u!"an", some 1, []⟩, ⟨u!"niu", none, []⟩] := by
  intro x hx
  simp only [List.mem_cons, List.not_mem_nil, or_false] at hx
  rcases hx with rfl | rfl | rfl <;> refine ⟨by decide +kernel, by simp, ?_⟩ <;> intro c hc
  · cases List.mem_singleton.1 hc
    exact ⟨by decide, by unfold ToneDigit; decide, by decide +kernel⟩
  all_goals cases hc
example : Spec.normal (fun s => s.map Spec.lowerChr) u!"Xi'an1 niu" = typed [⟨u!"xi", none, u!"'"⟩, ⟨u!"an", some 1, []⟩, ⟨u!"niu", none, []⟩] := by
  decide +kernel
example : NoLonger (Spec.patternSyllables confusable) (Spec.bare [⟨u!"an", some 1, []⟩, ⟨u!"niu", none, []⟩]) := by
  intro before x after h _ _ s hs hp
  rcases before with _ | ⟨y, _ | ⟨z, before⟩⟩
  · cases h
    revert s; decide +kernel
  · cases h
    revert s; decide +kernel
  · have := congrArg List.length h
    simp [Spec.bare] at this

end Cjk
