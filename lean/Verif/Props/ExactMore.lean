import Verif.Props.Cached
import Verif.Props.PinyinTones
/-!
# C68, C88: exactly when the claims hold
-/

namespace Cjk
open Py

/-! ### C68 -/

/-- C68: `from_hanzi` treats every character by itself, in all settings: the result is the concatenation of the results for the single
characters, and the first character that raises ends it. -/
theorem C68_hanzi_chars (lower : Str → Str) (seg : List Str) (table : Dict Str (List Str)) (i u : Bool) (s : Str) :
    (∀ r, fromHanzi lower seg table i u s = .ok r ↔
      ∃ parts : List Str, s.map (fun c => fromHanzi lower seg table i u [c]) = parts.map .ok ∧ r = parts.flatten) ∧
    (∀ e, fromHanzi lower seg table i u s = .error e ↔
      ∃ a c b, s = a ++ c :: b ∧ (∃ x, fromHanzi lower seg table i u a = .ok x) ∧ fromHanzi lower seg table i u [c] = .error e) := by
  have hone : ∀ c, fromHanzi lower seg table i u [c] = fromHanziChar lower seg table (if !u then false else i) u c := by
    intro c
    unfold fromHanzi
    rw [fromHanziLoop]
    cases fromHanziChar lower seg table (if !u then false else i) u c with
    | error e => rfl
    | ok x => simp [fromHanziLoop, Except.map]
  have hcons : ∀ c t, fromHanzi lower seg table i u (c :: t) = match fromHanzi lower seg table i u [c] with
      | .error e => .error e
      | .ok x => (fromHanzi lower seg table i u t).map (fun r => x ++ r) := by
    intro c t
    rw [hone]
    unfold fromHanzi
    rw [fromHanziLoop]
    cases fromHanziChar lower seg table (if !u then false else i) u c <;> rfl
  induction s with
  | nil =>
    have h0 : fromHanzi lower seg table i u [] = .ok [] := rfl
    refine ⟨fun r => ?_, fun e => ?_⟩
    · rw [h0]
      constructor
      · rintro ⟨⟩; exact ⟨[], rfl, rfl⟩
      · rintro ⟨parts, hp, rfl⟩
        cases parts with
        | nil => rfl
        | cons p ps => simp at hp
    · rw [h0]
      constructor
      · intro h; cases h
      · rintro ⟨a, c, b, h, _⟩
        simp at h
  | cons c t ih =>
    obtain ⟨ih1, ih2⟩ := ih
    rw [hcons]
    cases hc : fromHanzi lower seg table i u [c] with
    | error e' =>
      refine ⟨fun r => ?_, fun e => ?_⟩
      · constructor
        · intro h; cases h
        · rintro ⟨parts, hp, rfl⟩
          cases parts with
          | nil => simp at hp
          | cons p ps =>
            simp only [List.map_cons, hc, List.cons.injEq] at hp
            cases hp.1
      · constructor
        · rintro ⟨⟩
          exact ⟨[], c, t, rfl, ⟨[], rfl⟩, hc⟩
        · rintro ⟨a, c', b, h, ⟨x, hx⟩, he⟩
          cases a with
          | nil =>
            simp only [List.nil_append, List.cons.injEq] at h
            obtain ⟨rfl, rfl⟩ := h
            rw [hc] at he
            exact he
          | cons a0 a =>
            simp only [List.cons_append, List.cons.injEq] at h
            obtain ⟨rfl, rfl⟩ := h
            rw [hcons, hc] at hx
            cases hx
    | ok x =>
      simp only
      refine ⟨fun r => ?_, fun e => ?_⟩
      · constructor
        · intro h
          cases ht : fromHanzi lower seg table i u t with
          | error e => rw [ht] at h; cases h
          | ok y =>
            rw [ht] at h
            cases h
            obtain ⟨parts, hp, rfl⟩ := (ih1 y).1 ht
            exact ⟨x :: parts, by rw [List.map_cons, List.map_cons, hc, hp], rfl⟩
        · rintro ⟨parts, hp, rfl⟩
          cases parts with
          | nil => simp at hp
          | cons p ps =>
            simp only [List.map_cons, hc, List.cons.injEq, Except.ok.injEq] at hp
            obtain ⟨rfl, hp⟩ := hp
            rw [(ih1 ps.flatten).2 ⟨ps, hp, rfl⟩]
            rfl
      · constructor
        · intro h
          cases ht : fromHanzi lower seg table i u t with
          | ok y => rw [ht] at h; cases h
          | error e' =>
            rw [ht] at h
            cases h
            obtain ⟨a, c', b, rfl, ⟨y, hy⟩, he⟩ := (ih2 e).1 ht
            exact ⟨c :: a, c', b, rfl, ⟨x ++ y, by rw [hcons, hc]; simp only [hy]; rfl⟩, he⟩
        · rintro ⟨a, c', b, h, ⟨y, hy⟩, he⟩
          cases a with
          | nil =>
            simp only [List.nil_append, List.cons.injEq] at h
            obtain ⟨rfl, rfl⟩ := h
            rw [hc] at he
            cases he
          | cons a0 a =>
            simp only [List.cons_append, List.cons.injEq] at h
            obtain ⟨rfl, rfl⟩ := h
            rw [hcons, hc] at hy
            cases ha : fromHanzi lower seg table i u a with
            | error e' => simp only [ha] at hy; cases hy
            | ok z =>
              rw [(ih2 e).2 ⟨a, c', b, rfl, ⟨z, ha⟩, he⟩]
              rfl

theorem normal_single_segments {syls : List Str} (hw : [] ∉ syls) (c : Nat) (hc : c ≠ 0x23) (out : List (Str × Int))
    (h : Spec.Segments syls [c] out) : ([c] ∈ syls ∧ out = [(Spec.reported [c], 0)]) ∨ ([c] ∉ syls ∧ out = []) := by
  generalize ht : [c] = text at h
  cases h with
  | nil => cases ht
  | syllable s tone rest t out hs hlong htone hnone hrest =>
    cases s with
    | nil => exact absurd hs hw
    | cons x s =>
      simp only [List.cons_append, List.cons.injEq] at ht
      obtain ⟨rfl, ht⟩ := ht
      obtain ⟨rfl, ht2⟩ := List.append_eq_nil_iff.1 ht.symm
      obtain ⟨rfl, rfl⟩ := List.append_eq_nil_iff.1 ht2
      have h1 : out = [] := by
        generalize hr : ([] : Str) = r at hrest
        cases hrest with
        | nil => rfl
        | syllable s' tone' rest' t' out' hs' _ _ _ _ =>
          cases s' with
          | nil => exact absurd hs' hw
          | cons _ _ => simp at hr
        | hash => cases hr
        | skip => cases hr
      have h2 : t = 0 := by
        generalize hr : ([] : Str) = r at htone
        cases htone with
        | none => rfl
        | digit => cases hr
      subst h1 h2
      exact Or.inl ⟨hs, rfl⟩
  | hash rest out _ _ =>
    simp only [List.cons.injEq] at ht
    exact absurd ht.1 hc
  | skip c' rest out' h1 h2 h3 =>
    simp only [List.cons.injEq] at ht
    obtain ⟨rfl, rfl⟩ := ht
    right
    refine ⟨fun hm => h2 _ hm ⟨[], rfl⟩, ?_⟩
    generalize hr : ([] : Str) = r at h3
    cases h3 with
    | nil => rfl
    | syllable s' tone' rest' t' out' hs' _ _ _ _ =>
      cases s' with
      | nil => exact absurd hs' hw
      | cons _ _ => simp at hr
    | hash => cases hr
    | skip => cases hr

/-- C68: a character outside the table (other than `#`, and unchanged by the normalisation) is passed through with tone marks or without
tones exactly if it is itself a syllable of the table file other than `r`. -/
theorem C68_unknown_iff (lower : Str → Str) (hlow : Spec.IsLower lower) (lines : List Str) (seg : List Str)
    (h : newSegmenter lines = .ok seg) (table : Dict Str (List Str)) (c : Nat) (hc : c ≠ 0x23)
    (hn : Spec.normal lower [c] = [c]) (ht : Dict.get? table [c] = none) :
    (fromHanzi lower seg table true true [c] = .ok [c] ↔ [c] ∈ (Spec.tablePairs lines).map Prod.snd ∧ c ≠ 0x72) ∧
    (∀ inline, fromHanzi lower seg table inline false [c] = .ok [c] ↔ [c] ∈ (Spec.tablePairs lines).map Prod.snd ∧ c ≠ 0x72) := by
  obtain ⟨_, hp, _, hw, _⟩ := newSegmenter_spec h
  have hw2 : ([] : Str) ∉ [0x72] :: (Spec.tablePairs lines).map Prod.snd := by rw [← hp.mem_iff]; exact hw
  obtain ⟨out, ho⟩ := C69_total lower lines seg h [c]
  have hs := (C69_longest lower lines seg h [c] out).1 ho
  rw [hn] at hs
  have hloop : ∀ (inline u : Bool), fromHanzi lower seg table inline u [c] =
      if u then (if inline then fromAscii lower seg [c] else .ok [c]) else stripTones lower seg [c] := by
    intro inline u
    unfold fromHanzi
    rw [fromHanziLoop]
    unfold fromHanziChar
    rw [ht]
    simp only [Option.getD_none, Py.getItem]
    cases u <;> cases inline <;> simp [fromHanziLoop, Except.map]
    · cases stripTones lower seg [c] <;> rfl
    · cases stripTones lower seg [c] <;> rfl
    · cases fromAscii lower seg [c] <;> rfl
  have hstrip : stripTones lower seg [c] = .ok (out.flatMap Prod.fst) := C68_strip lower hlow seg [c] out ho
  have hasc : fromAscii lower seg [c] = applyTones out := by
    unfold fromAscii; rw [segment_normalize hlow, ho]
  have key : (fromAscii lower seg [c] = .ok [c] ↔ [c] ∈ (Spec.tablePairs lines).map Prod.snd ∧ c ≠ 0x72) ∧
      (stripTones lower seg [c] = .ok [c] ↔ [c] ∈ (Spec.tablePairs lines).map Prod.snd ∧ c ≠ 0x72) := by
    rw [hstrip, hasc]
    rcases normal_single_segments hw2 c hc out hs with ⟨hm, rfl⟩ | ⟨hm, rfl⟩
    · by_cases hr : c = 0x72
      · subst hr
        refine ⟨⟨fun h => ?_, fun h => absurd rfl h.2⟩, ⟨fun h => ?_, fun h => absurd rfl h.2⟩⟩
        · have : applyTones [(Spec.reported [0x72], 0)] = .ok u!"er" := by decide
          rw [this] at h; cases h
        · have : ([(Spec.reported [0x72], (0 : Int))] : List (Str × Int)).flatMap Prod.fst = u!"er" := by decide
          rw [this] at h; cases h
      · have hrep : Spec.reported [c] = [c] := by
          unfold Spec.reported
          rw [if_neg (by simpa using hr)]
        have hm' : [c] ∈ (Spec.tablePairs lines).map Prod.snd := by
          rcases List.mem_cons.1 hm with he | he
          · exact absurd (List.cons.inj he).1 hr
          · exact he
        rw [hrep]
        refine ⟨⟨fun _ => ⟨hm', hr⟩, fun _ => ?_⟩, ⟨fun _ => ⟨hm', hr⟩, fun _ => rfl⟩⟩
        simp [applyTones, applyTone, applyToneLoop, Except.map]
    · refine ⟨⟨fun h => ?_, fun h => absurd (List.mem_cons_of_mem _ h.1) hm⟩,
        ⟨fun h => ?_, fun h => absurd (List.mem_cons_of_mem _ h.1) hm⟩⟩
      · cases h
      · cases h
  refine ⟨?_, fun inline => ?_⟩
  · rw [hloop]; exact key.1
  · rw [hloop]; exact key.2

example : newSegmenter demoZhuyin = .ok [u!"niu", u!"dai", u!"ni", u!"de", u!"er", u!"r"] ∧
    Spec.normal (fun s => s.map Spec.lowerChr) u!"。" = u!"。" ∧ Dict.get? [(u!"你", [u!"ni3"])] u!"。" = none ∧
    fromHanzi (fun s => s.map Spec.lowerChr) [u!"niu", u!"dai", u!"ni", u!"de", u!"er", u!"r"] [(u!"你", [u!"ni3"])] true true u!"你。" = .ok u!"nǐ" := by
  decide +kernel

/-! ### C88 -/

/-- C88: the claim holds for a sequence of calls of `RadkDict.get_cached` or `Kanjidic.get_cached` exactly if no call follows the first
one whose construction succeeds. -/
theorem C88_iff {O : Type} (ms : List (Except PyErr O)) :
    Spec.StaysCached (getRun eagerGet none ms) ↔ ∀ a o b, ms = a ++ .ok o :: b → b = [] := by
  constructor
  · rintro hs a o b rfl
    induction a with
    | nil =>
      cases b with
      | nil => rfl
      | cons m b => exact absurd hs (C88_eager_refuted o m b).1
    | cons x a ih =>
      cases x with
      | error e =>
        simp only [Spec.StaysCached, List.cons_append, getRun, eagerGet] at hs
        exact ih (List.pairwise_cons.1 hs).2
      | ok o' =>
        cases a with
        | nil => exact absurd hs (C88_eager_refuted o' (.ok o) b).1
        | cons y a => exact absurd hs (C88_eager_refuted o' y (a ++ .ok o :: b)).1
  · intro h
    induction ms with
    | nil => exact List.Pairwise.nil
    | cons m ms ih =>
      cases m with
      | error e =>
        simp only [Spec.StaysCached, getRun, eagerGet]
        exact List.Pairwise.cons (by intro b _ o ho; cases ho) (ih (fun a o b e' => h (.error e :: a) o b (by rw [e']; rfl)))
      | ok o =>
        have := h [] o ms rfl
        subst this
        simp [Spec.StaysCached, getRun]

example : ¬ Spec.StaysCached (getRun eagerGet none [.error .osError, .ok 1, .ok 2]) := by
  intro h
  exact absurd ((C88_iff _).1 h [.error .osError] 1 [.ok 2] rfl) (by decide)

end Cjk
