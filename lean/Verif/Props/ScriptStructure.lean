import Verif.Props.Scripts
/-!
# C113: kana conversion and the script structure of a string
-/

namespace Cjk
open Py

namespace Spec

/-- `coarse` results from `fine` by joining neighbours. -/
def Coarser (fine coarse : List Str) : Prop :=
  ∃ groups : List (List Str), (∀ g ∈ groups, g ≠ []) ∧ groups.flatten = fine ∧ groups.map List.flatten = coarse

/-- One string begins with a hiragana, the other with a katakana. -/
def KanaPair (a b : Str) : Prop :=
  (∃ h ∈ a.head?, ∃ k ∈ b.head?, InScript .hiragana h ∧ InScript .katakana k) ∨
  (∃ k ∈ a.head?, ∃ h ∈ b.head?, InScript .katakana k ∧ InScript .hiragana h)

/-- The script of a character after conversion of `src` into `dst`. -/
def convertScript (src dst x : Script) : Script := if x = src then dst else x

end Spec

/-- What is needed of a conversion. -/
structure ScriptConv (src dst : Script) (f : Chr → Chr) : Prop where
  script : ∀ x c, Spec.InScript x c → Spec.InScript (Spec.convertScript src dst x) (f c)
  mark : ∀ c, f c = Spec.longMark ↔ c = Spec.longMark

theorem toKatakana_conv : ScriptConv .hiragana .katakana (fun c => if 0x3041 ≤ c ∧ c ≤ 0x3096 then c + 96 else c) where
  script x c h := by
    cases x <;> simp only [Spec.InScript, Spec.convertScript, reduceCtorEq, if_false, if_true] at h ⊢ <;> split <;> omega
  mark c := by unfold Spec.longMark; split <;> omega

theorem toHiragana_conv : ScriptConv .katakana .hiragana (fun c => if 0x30a1 ≤ c ∧ c ≤ 0x30f6 then c - 96 else c) where
  script x c h := by
    cases x <;> simp only [Spec.InScript, Spec.convertScript, reduceCtorEq, if_false, if_true] at h ⊢ <;> split <;> omega
  mark c := by unfold Spec.longMark; split <;> omega

variable {src dst : Script} {f : Chr → Chr}

theorem ScriptConv.continues (hf : ScriptConv src dst f) {h c : Chr} (hc : Spec.Continues h c) : Spec.Continues (f h) (f c) := by
  rcases hc with rfl | ⟨x, h1, h2⟩
  · exact .inl ((hf.mark _).2 rfl)
  · exact .inr ⟨_, hf.script x h h1, hf.script x c h2⟩

theorem continues_trans {h c d : Chr} (h1 : Spec.Continues h c) (hm : c ≠ Spec.longMark) (h2 : Spec.Continues c d) : Spec.Continues h d := by
  rcases h2 with rfl | ⟨y, a1, a2⟩
  · exact .inl rfl
  · rcases h1 with rfl | ⟨x, b1, b2⟩
    · exact absurd rfl hm
    · rw [InScript_unique a1 b2] at a2
      exact .inr ⟨x, b1, a2⟩

theorem block_map (hf : ScriptConv src dst f) {a : Str} (h : Spec.Block a) : Spec.Block (a.map f) := by
  obtain ⟨c, t, rfl, ht⟩ := h
  refine ⟨f c, t.map f, rfl, fun d hd => ?_⟩
  obtain ⟨e, he, rfl⟩ := List.mem_map.1 hd
  exact hf.continues (ht e he)

/-- Neighbouring blocks can be joined so that the rest is a maximal segmentation of the converted string. -/
theorem group_blocks (hf : ScriptConv src dst f) (segs : List Str) (hb : ∀ a ∈ segs, Spec.Block a)
    (hmax : ∀ pre a b post, segs = pre ++ a :: b :: post → ∀ h ∈ a.head?, ∀ c ∈ b.head?, ¬ Spec.Continues h c) :
    ∃ groups : List (List Str), groups.flatten = segs.map (List.map f) ∧ (∀ g ∈ groups, g ≠ [] ∧ Spec.Block g.flatten) ∧
      (∀ pre a b post, groups.map List.flatten = pre ++ a :: b :: post → ∀ h ∈ a.head?, ∀ c ∈ b.head?, ¬ Spec.Continues h c) ∧
      ∀ a, segs.head? = some a → ∃ g ∈ groups.head?, g.flatten.head? = a.head?.map f := by
  induction segs with
  | nil =>
    refine ⟨[], rfl, by simp, ?_, by simp⟩
    intro pre a b post e
    simp at e
  | cons a segs ih =>
    obtain ⟨ha, ta, rfl, hta⟩ := hb a (by simp)
    obtain ⟨groups, h1, h2, h3, h4⟩ := ih (fun x hx => hb x (by simp [hx]))
      (fun pre x y post e => hmax ((ha :: ta) :: pre) x y post (by rw [e]; rfl))
    have hblock : Spec.Block ((ha :: ta).map f) := block_map hf ⟨ha, ta, rfl, hta⟩
    cases groups with
    | nil =>
      have hs : segs = [] := by simpa using h1.symm
      subst hs
      refine ⟨[[(ha :: ta).map f]], by simp, ?_, ?_, ?_⟩
      · intro g hg
        rw [List.mem_singleton] at hg
        subst hg
        exact ⟨by simp, by simpa using hblock⟩
      · intro pre x y post e
        have := congrArg List.length e
        simp at this; omega
      · intro x hx
        simp at hx; subst hx
        exact ⟨_, rfl, by simp⟩
    | cons g gs =>
      obtain ⟨hgne, cg, tg, hcg, hbg⟩ := h2 g (by simp)
      by_cases hj : Spec.Continues (f ha) cg
      · refine ⟨((ha :: ta).map f :: g) :: gs, by simp [← h1], ?_, ?_, ?_⟩
        · intro x hx
          rcases List.mem_cons.1 hx with rfl | hx
          · refine ⟨by simp, f ha, ta.map f ++ g.flatten, by simp, ?_⟩
            have hcm : cg ≠ Spec.longMark := by
              -- the head of the group is the converted head of a block, which does not continue `ha`
              cases hs : segs with
              | nil => rw [hs] at h1; simp at h1; exact absurd h1.1 hgne
              | cons b rest =>
                obtain ⟨g', hg', hh⟩ := h4 b (by rw [hs]; rfl)
                simp at hg'; subst hg'
                obtain ⟨hbh, tb, rfl, _⟩ := hb b (by rw [hs]; simp)
                rw [hcg] at hh
                simp at hh
                rw [hh]
                intro he
                exact hmax [] (ha :: ta) (hbh :: tb) rest (by rw [hs]; rfl) ha rfl hbh rfl (.inl ((hf.mark _).1 he))
            intro d hd
            rcases List.mem_append.1 hd with hd | hd
            · obtain ⟨e, he, rfl⟩ := List.mem_map.1 hd
              exact hf.continues (hta e he)
            · rw [hcg] at hd
              rcases List.mem_cons.1 hd with rfl | hd
              · exact hj
              · exact continues_trans hj hcm (hbg d hd)
          · exact h2 x (by simp [hx])
        · intro pre x y post e
          cases pre with
          | nil =>
            simp only [List.map_cons, List.nil_append, List.cons.injEq] at e
            obtain ⟨e1, e2⟩ := e
            intro h hh c hc hcc
            -- the head of the joined group continues like that of `g`
            rw [← e1] at hh
            simp at hh
            subst hh
            have hg := h3 [] g.flatten y post (by rw [List.map_cons, e2]; rfl) cg (by rw [hcg]; rfl) c hc
            apply hg
            rcases hcc with hcc | ⟨x', b1, b2⟩
            · exact .inl hcc
            · rcases hj with hj | ⟨y', c1, c2⟩
              · exfalso
                have hcm : cg ≠ Spec.longMark := by
                  cases hs : segs with
                  | nil => rw [hs] at h1; simp at h1; exact absurd h1.1 hgne
                  | cons b rest =>
                    obtain ⟨g', hg', hh⟩ := h4 b (by rw [hs]; rfl)
                    simp at hg'; subst hg'
                    obtain ⟨hbh, tb, rfl, _⟩ := hb b (by rw [hs]; simp)
                    rw [hcg] at hh
                    simp at hh
                    rw [hh]
                    intro he
                    exact hmax [] (ha :: ta) (hbh :: tb) rest (by rw [hs]; rfl) ha rfl hbh rfl (.inl ((hf.mark _).1 he))
                exact hcm hj
              · rw [InScript_unique b1 c1] at b2
                exact .inr ⟨y', c2, b2⟩
          | cons p pre =>
            simp only [List.map_cons, List.cons_append, List.cons.injEq] at e
            exact h3 (g.flatten :: pre) x y post (by rw [List.map_cons, e.2]; rfl)
        · intro x hx
          simp at hx; subst hx
          exact ⟨_, rfl, by simp⟩
      · refine ⟨[(ha :: ta).map f] :: g :: gs, by simp [← h1], ?_, ?_, ?_⟩
        · intro x hx
          rcases List.mem_cons.1 hx with rfl | hx
          · exact ⟨by simp, by simpa using hblock⟩
          · exact h2 x hx
        · intro pre x y post e
          cases pre with
          | nil =>
            simp only [List.map_cons, List.nil_append, List.cons.injEq] at e
            obtain ⟨e1, e2, e3⟩ := e
            intro h hh c hc
            rw [← e1] at hh
            simp at hh
            subst hh
            rw [← e2, hcg] at hc
            simp at hc
            subst hc
            exact hj
          | cons p pre =>
            simp only [List.map_cons, List.cons_append, List.cons.injEq] at e
            exact h3 pre x y post (by rw [List.map_cons]; exact e.2)
        · intro x hx
          simp at hx; subst hx
          exact ⟨_, rfl, by simp⟩

theorem coarser_of_conv (hf : ScriptConv src dst f) (s : Str) :
    Spec.Coarser ((scriptBoundaries s).map (List.map f)) (scriptBoundaries (s.map f)) := by
  by_cases hs : s = []
  · subst hs; exact ⟨[[[]]], by simp, rfl, rfl⟩
  · obtain ⟨h1, h2, h3⟩ := C03_boundaries_segmentation s hs
    obtain ⟨groups, g1, g2, g3, _⟩ := group_blocks hf _ h2 h3
    refine ⟨groups, fun g hg => (g2 g hg).1, g1, ?_⟩
    refine C03_boundaries_unique.1 _ _ (by simpa using hs) ⟨?_, ?_, g3⟩
    · rw [← List.flatten_flatten, g1, ← List.map_flatten, h1]
    · intro seg hseg
      obtain ⟨g, hg, rfl⟩ := List.mem_map.1 hseg
      exact (g2 g hg).2

/-- The scripts that a conversion identifies. -/
theorem convertScript_eq {x y : Script} (h : Spec.convertScript src dst x = Spec.convertScript src dst y) :
    x = y ∨ (x = src ∧ y = dst) ∨ (x = dst ∧ y = src) := by
  unfold Spec.convertScript at h
  split at h <;> split at h
  · rename_i h1 h2; exact .inl (by rw [h1, h2])
  · rename_i h1 h2; exact .inr (.inl ⟨h1, h.symm⟩)
  · rename_i h1 h2; exact .inr (.inr ⟨h, h2⟩)
  · exact .inl h

theorem boundaries_conv_iff (hf : ScriptConv src dst f) (s : Str) :
    scriptBoundaries (s.map f) = (scriptBoundaries s).map (List.map f) ↔
      ∀ pre a b post, scriptBoundaries s = pre ++ a :: b :: post →
        ¬ ((∃ h ∈ a.head?, ∃ k ∈ b.head?, Spec.InScript src h ∧ Spec.InScript dst k) ∨
          (∃ k ∈ a.head?, ∃ h ∈ b.head?, Spec.InScript dst k ∧ Spec.InScript src h)) := by
  by_cases hs : s = []
  · subst hs
    refine ⟨fun _ pre a b post e => ?_, fun _ => rfl⟩
    have := congrArg List.length e
    simp [scriptBoundaries] at this; omega
  obtain ⟨h1, h2, h3⟩ := C03_boundaries_segmentation s hs
  obtain ⟨k1, k2, k3⟩ := C03_boundaries_segmentation (s.map f) (by simpa using hs)
  constructor
  · intro e pre a b post hseg hp
    rw [e, hseg] at k3
    have key : ∀ h ∈ a.head?, ∀ c ∈ b.head?, ¬ Spec.Continues (f h) (f c) := by
      intro h hh c hc
      refine k3 (pre.map (List.map f)) (a.map f) (b.map f) (post.map (List.map f)) (by simp) (f h) ?_ (f c) ?_
      · rw [List.head?_map]; simpa using ⟨h, hh, rfl⟩
      · rw [List.head?_map]; simpa using ⟨c, hc, rfl⟩
    have hd : Spec.convertScript src dst dst = dst := by unfold Spec.convertScript; split <;> simp_all
    have hsr : Spec.convertScript src dst src = dst := by simp [Spec.convertScript]
    rcases hp with ⟨h, hh, k, hk, i1, i2⟩ | ⟨h, hh, k, hk, i1, i2⟩
    · refine key h hh k hk (.inr ⟨dst, ?_, ?_⟩)
      · have := hf.script _ _ i1; rwa [hsr] at this
      · have := hf.script _ _ i2; rwa [hd] at this
    · refine key h hh k hk (.inr ⟨dst, ?_, ?_⟩)
      · have := hf.script _ _ i1; rwa [hd] at this
      · have := hf.script _ _ i2; rwa [hsr] at this
  · intro hno
    refine (C03_boundaries_unique.1 _ _ (by simpa using hs) ⟨?_, ?_, ?_⟩).symm
    · rw [← List.map_flatten, h1]
    · intro seg hseg
      obtain ⟨g, hg, rfl⟩ := List.mem_map.1 hseg
      exact block_map hf (h2 g hg)
    · intro pre a b post e h hh c hc hcc
      obtain ⟨pre', rest, e1, rfl, e2⟩ := List.map_eq_append_iff.1 e
      obtain ⟨a', rest', rfl, rfl, e3⟩ := List.map_eq_cons_iff.1 e2
      obtain ⟨b', post', rfl, rfl, rfl⟩ := List.map_eq_cons_iff.1 e3
      rw [List.head?_map] at hh hc
      simp only [Option.mem_def, Option.map_eq_some_iff] at hh hc
      obtain ⟨h', hh', rfl⟩ := hh
      obtain ⟨c', hc', rfl⟩ := hc
      have hn := h3 pre' a' b' post' e1 h' hh' c' hc'
      rcases hcc with hcc | ⟨x, i1, i2⟩
      · exact hn (.inl ((hf.mark _).1 hcc))
      · obtain ⟨y, hy⟩ := InScript_exists h'
        obtain ⟨z, hz⟩ := InScript_exists c'
        have e3 := InScript_unique i1 (hf.script _ _ hy)
        have e4 := InScript_unique i2 (hf.script _ _ hz)
        rcases convertScript_eq (e3.symm.trans e4) with rfl | ⟨rfl, rfl⟩ | ⟨rfl, rfl⟩
        · exact hn (.inr ⟨y, hy, hz⟩)
        · exact hno pre' a' b' post' e1 (.inl ⟨h', hh', c', hc', hy, hz⟩)
        · exact hno pre' a' b' post' e1 (.inr ⟨h', hh', c', hc', hy, hz⟩)

/-- C113: conversion changes the script that is found from the one syllabary to the other and no other, character by character: a converted string
holds no character of the old syllabary, one of the new iff it held one of either, and one of every other script iff it did before. -/
theorem C113_script_types (s : Str) :
    scriptType (toKatakana s) = Spec.convertScript .hiragana .katakana (scriptType s) ∧
    scriptType (toHiragana s) = Spec.convertScript .katakana .hiragana (scriptType s) ∧
    (∀ x, containsScript x (toKatakana s) =
      if x = .hiragana then false else if x = .katakana then containsScript .hiragana s || containsScript .katakana s else containsScript x s) ∧
    (∀ x, containsScript x (toHiragana s) =
      if x = .katakana then false else if x = .hiragana then containsScript .hiragana s || containsScript .katakana s else containsScript x s) := by
  have ty : ∀ {src dst f}, ScriptConv src dst f → src ≠ .unknown → ∀ s, scriptType (s.map f) = Spec.convertScript src dst (scriptType s) := by
    intro src dst f hf hsrc s
    cases s with
    | nil => simp only [List.map_nil, C02_script_type_exact.2, Spec.convertScript, if_neg (Ne.symm hsrc)]
    | cons c s =>
      rw [List.map_cons, C02_script_type_exact.1]
      exact hf.script _ _ ((C02_script_type_exact.1 c s _).1 rfl)
  have cs : ∀ {src dst f}, ScriptConv src dst f → src ≠ dst → ∀ s x, containsScript x (s.map f) =
      if x = src then false else if x = dst then containsScript src s || containsScript dst s else containsScript x s := by
    intro src dst f hf hne s x
    have hin : ∀ c x, Spec.InScript x (f c) ↔ ∃ y, Spec.InScript y c ∧ Spec.convertScript src dst y = x := by
      intro c x
      obtain ⟨y, hy⟩ := InScript_exists c
      constructor
      · intro h; exact ⟨y, hy, InScript_unique (hf.script _ _ hy) h⟩
      · rintro ⟨z, hz, rfl⟩; exact hf.script _ _ hz
    rw [Bool.eq_iff_iff]
    rw [(C06_script_types_exact _ x).2]
    have hex : (∃ c, c ∈ s.map f ∧ Spec.InScript x c) ↔ ∃ c, c ∈ s ∧ ∃ y, Spec.InScript y c ∧ Spec.convertScript src dst y = x := by
      constructor
      · rintro ⟨c, hc, h⟩
        obtain ⟨d, hd, rfl⟩ := List.mem_map.1 hc
        exact ⟨d, hd, (hin d x).1 h⟩
      · rintro ⟨d, hd, h⟩
        exact ⟨f d, List.mem_map.2 ⟨d, hd, rfl⟩, (hin d x).2 h⟩
    rw [hex]
    by_cases h1 : x = src
    · rw [if_pos h1]
      simp only [Bool.false_eq_true, iff_false]
      rintro ⟨c, _, y, _, hy⟩
      unfold Spec.convertScript at hy
      split at hy
      · exact hne (by rw [← h1, ← hy])
      · rename_i hn; exact hn (by rw [hy, h1])
    · rw [if_neg h1]
      by_cases h2 : x = dst
      · rw [if_pos h2, Bool.or_eq_true, (C06_script_types_exact _ src).2, (C06_script_types_exact _ dst).2]
        constructor
        · rintro ⟨c, hc, y, hy, e⟩
          unfold Spec.convertScript at e
          split at e
          · rename_i hs; exact .inl ⟨c, hc, hs ▸ hy⟩
          · exact .inr ⟨c, hc, by rw [← h2, ← e]; exact hy⟩
        · rintro (⟨c, hc, h⟩ | ⟨c, hc, h⟩)
          · exact ⟨c, hc, src, h, by simp [Spec.convertScript, h2]⟩
          · exact ⟨c, hc, dst, h, by simp [Spec.convertScript, h2]⟩
      · rw [if_neg h2, (C06_script_types_exact _ x).2]
        constructor
        · rintro ⟨c, hc, y, hy, e⟩
          unfold Spec.convertScript at e
          split at e
          · exact absurd e.symm h2
          · exact ⟨c, hc, e ▸ hy⟩
        · rintro ⟨c, hc, h⟩
          exact ⟨c, hc, x, h, by simp [Spec.convertScript, h1]⟩
  refine ⟨ty toKatakana_conv (by decide) s, ty toHiragana_conv (by decide) s, cs toKatakana_conv (by decide) s, ?_⟩
  intro x
  rw [show toHiragana s = s.map _ from rfl, cs toHiragana_conv (by decide) s x, Bool.or_comm]

/-- C113: conversion moves no boundary and makes none; it only joins neighbouring blocks. -/
theorem C113_boundaries_coarser (s : Str) :
    Spec.Coarser ((scriptBoundaries s).map toKatakana) (scriptBoundaries (toKatakana s)) ∧
    Spec.Coarser ((scriptBoundaries s).map toHiragana) (scriptBoundaries (toHiragana s)) :=
  ⟨coarser_of_conv toKatakana_conv s, coarser_of_conv toHiragana_conv s⟩

/-- C113: the blocks stay the same exactly if no block of hiragana stands beside one of katakana. -/
theorem C113_boundaries_iff (s : Str) :
    (scriptBoundaries (toKatakana s) = (scriptBoundaries s).map toKatakana ↔
      ∀ pre a b post, scriptBoundaries s = pre ++ a :: b :: post → ¬ Spec.KanaPair a b) ∧
    (scriptBoundaries (toHiragana s) = (scriptBoundaries s).map toHiragana ↔
      ∀ pre a b post, scriptBoundaries s = pre ++ a :: b :: post → ¬ Spec.KanaPair a b) := by
  refine ⟨boundaries_conv_iff toKatakana_conv s, (boundaries_conv_iff toHiragana_conv s).trans ?_⟩
  constructor
  · intro h pre a b post e hp
    exact h pre a b post e hp.symm
  · intro h pre a b post e hp
    exact h pre a b post e hp.symm

/-- C113: normalization and conversion do not disturb each other where they should not: conversion to katakana may come before or after it, and none of
them changes the kanji of a string. -/
theorem C113_normalize (s t : Str) (h : normalize s = .ok t) :
    normalize (toKatakana s) = .ok (toKatakana t) ∧
    (∀ c, c ∈ uniqueKanji t ↔ c ∈ uniqueKanji s) ∧ (∀ c, c ∈ uniqueKanji (toKatakana s) ↔ c ∈ uniqueKanji s) ∧
    (∀ c, c ∈ uniqueKanji (toHiragana s) ↔ c ∈ uniqueKanji s) ∧
    containsScript .hiragana t = containsScript .hiragana s ∧ containsScript .fullAscii t = false ∧ containsScript .halfKatakana t = false := by
  rw [C04_normalize_pointwise] at h
  have ht := (Except.ok.inj h).symm
  generalize hg : (fun c => Spec.convertChr Spec.wideAscii Spec.narrowAscii (Spec.convertChr Spec.halfWidthKana Spec.wideKana c)) = g at *
  have g_out : ∀ c, c ∉ Spec.halfWidthKana → c ∉ Spec.wideAscii → g c = c := by
    intro c h1 h2
    rw [← hg]; show Spec.convertChr _ _ (Spec.convertChr _ _ c) = c
    rw [convertChr_of_not_mem h1, convertChr_of_not_mem h2]
  have g_in : ∀ c, c ∈ Spec.halfWidthKana ∨ c ∈ Spec.wideAscii →
      Spec.InScript .katakana (g c) ∨ Spec.InScript .ascii (g c) ∨ (Spec.InScript .unknown (g c)) := by
    have all : ∀ c ∈ Spec.halfWidthKana ++ Spec.wideAscii,
      (let d := Spec.convertChr Spec.wideAscii Spec.narrowAscii (Spec.convertChr Spec.halfWidthKana Spec.wideKana c)
       decide (Spec.InScript .katakana d) || decide (Spec.InScript .ascii d) || decide (Spec.InScript .unknown d)) = true := by
      decide +kernel
    intro c hc
    have := all c (by simpa using hc)
    rw [← hg]
    simpa [or_assoc] using this
  have half : ∀ c, c ∈ Spec.halfWidthKana ↔ 0xff61 ≤ c ∧ c ≤ 0xff9f := by
    intro c; rw [halfWidthKana_eq, List.mem_range'_1]; omega
  have wide : ∀ c, c ∈ Spec.wideAscii ↔ (0x3000 ≤ c ∧ c ≤ 0x3002) ∨ (0xff01 ≤ c ∧ c ≤ 0xff5f) := by
    intro c; rw [wideAscii_eq, List.mem_append, List.mem_range'_1, List.mem_range'_1]; omega
  have touched : ∀ c, (c ∈ Spec.halfWidthKana ∨ c ∈ Spec.wideAscii) ∨ (c ∉ Spec.halfWidthKana ∧ c ∉ Spec.wideAscii) := by
    intro c
    by_cases h1 : c ∈ Spec.halfWidthKana
    · exact .inl (.inl h1)
    · by_cases h2 : c ∈ Spec.wideAscii
      · exact .inl (.inr h2)
      · exact .inr ⟨h1, h2⟩
  have mem_touched : ∀ c, c ∈ Spec.halfWidthKana ∨ c ∈ Spec.wideAscii →
      ¬ (0x3041 ≤ c ∧ c ≤ 0x3096) ∧ ¬ (0x4e00 ≤ c ∧ c ≤ 0x9fa5) := by
    intro c hc
    rw [half, wide] at hc
    omega
  have same : ∀ (P : Chr → Prop), (∀ c, P c → c ∉ Spec.halfWidthKana ∧ c ∉ Spec.wideAscii) →
      (∀ c, P c → ¬ (Spec.InScript .katakana c ∨ Spec.InScript .ascii c ∨ Spec.InScript .unknown c)) →
      ∀ c, P c → (c ∈ t ↔ c ∈ s) := by
    intro P p1 p2 c hc
    rw [ht, List.mem_map]
    constructor
    · rintro ⟨d, hd, rfl⟩
      rcases touched d with hd' | ⟨h1, h2⟩
      · exact absurd (g_in d hd') (p2 _ hc)
      · rwa [g_out d h1 h2]
    · intro hm
      exact ⟨c, hm, g_out c (p1 c hc).1 (p1 c hc).2⟩
  refine ⟨?_, ?_, ?_, ?_, ?_, ?_, ?_⟩
  · rw [C04_normalize_pointwise, hg, ht]
    unfold toKatakana
    rw [List.map_map, List.map_map]
    congr 1
    apply List.map_congr_left
    intro c _
    show g (if 0x3041 ≤ c ∧ c ≤ 0x3096 then c + 96 else c) = if 0x3041 ≤ g c ∧ g c ≤ 0x3096 then g c + 96 else g c
    rcases touched c with hc | ⟨h1, h2⟩
    · rw [if_neg (mem_touched c hc).1]
      have := g_in c hc
      rw [if_neg]
      intro hh
      simp only [Spec.InScript] at this
      omega
    · rw [g_out c h1 h2]
      split
      · rw [g_out]
        · rw [half]; omega
        · rw [wide]; omega
      · exact g_out c h1 h2
  · intro c
    rw [(C06_unique_kanji_exact t).1, (C06_unique_kanji_exact s).1]
    refine and_congr_left fun hc => same (fun c => 0x4e00 ≤ c ∧ c ≤ 0x9fa5) ?_ ?_ c hc
    · intro c hc; rw [half, wide]; omega
    · intro c hc; simp only [Spec.InScript]; omega
  · intro c
    rw [(C06_unique_kanji_exact _).1, (C06_unique_kanji_exact s).1]
    refine and_congr_left fun hc => ?_
    unfold toKatakana
    rw [List.mem_map]
    constructor
    · rintro ⟨d, hd, e⟩
      split at e
      · omega
      · rwa [← e]
    · intro hm; exact ⟨c, hm, by rw [if_neg (by omega)]⟩
  · intro c
    rw [(C06_unique_kanji_exact _).1, (C06_unique_kanji_exact s).1]
    refine and_congr_left fun hc => ?_
    unfold toHiragana
    rw [List.mem_map]
    constructor
    · rintro ⟨d, hd, e⟩
      split at e
      · omega
      · rwa [← e]
    · intro hm; exact ⟨c, hm, by rw [if_neg (by omega)]⟩
  · rw [Bool.eq_iff_iff, (C06_script_types_exact t _).2, (C06_script_types_exact s _).2]
    have := same (fun c => Spec.InScript .hiragana c) ?_ ?_
    · constructor
      · rintro ⟨c, hc, hi⟩; exact ⟨c, (this c hi).1 hc, hi⟩
      · rintro ⟨c, hc, hi⟩; exact ⟨c, (this c hi).2 hc, hi⟩
    · intro c hc; rw [half, wide]; simp only [Spec.InScript] at hc; omega
    · intro c hc; simp only [Spec.InScript] at hc ⊢; omega
  all_goals
    rw [Bool.eq_false_iff, ne_eq, (C06_script_types_exact t _).2, ht]
    rintro ⟨c, hc, hi⟩
    obtain ⟨d, hd, rfl⟩ := List.mem_map.1 hc
    rcases touched d with hd' | ⟨h1, h2⟩
    · have := g_in d hd'
      simp only [Spec.InScript] at this hi
      omega
    · rw [g_out d h1 h2] at hi
      rw [half] at h1
      rw [wide] at h2
      simp only [Spec.InScript] at hi
      omega

/-- Two neighbouring blocks become one; in the second string no kana stand side by side. -/
example : scriptBoundaries u!"ぼくのコーヒー牛乳" = [u!"ぼくの", u!"コーヒー", u!"牛乳"] ∧
    scriptBoundaries (toKatakana u!"ぼくのコーヒー牛乳") = [u!"ボクノコーヒー", u!"牛乳"] ∧
    scriptBoundaries (toKatakana u!"牛乳をAとコー") = [u!"牛乳", u!"ヲ", u!"A", u!"トコー"] := by decide
example : normalize u!"ｶあＡ漢　" = .ok u!"カあA漢 " := by decide
/-- Conversion to hiragana must come after normalization: before it the half-width kana are missed. -/
example : normalize (toHiragana u!"ｶ") = .ok u!"カ" ∧ (normalize u!"ｶ").map toHiragana = .ok u!"か" := by decide

end Cjk
