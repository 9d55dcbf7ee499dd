import Verif.Props.Kanjidic
/-!
# C181: the order of the fields of a kanjidic line
-/

namespace Cjk
open Py

theorem info_codes_eq {j j' : KInfo} {items items' : List Spec.KItem} (h : Info ⟨[], [], [], []⟩ j items) (h' : Info ⟨[], [], [], []⟩ j' items')
    (hc : ∀ n, Spec.codes n items = Spec.codes n items') (n : Str) : Dict.get? j'.codes n = Dict.get? j.codes n := by
  have a1 := h.codes n
  have a2 := h.ne (by simp) n
  have b1 := h'.codes n
  have b2 := h'.ne (by simp) n
  simp only [Dict.get?_nil, Option.getD_none, List.nil_append] at a1 b1
  rw [hc n] at a1
  rw [← a1] at b1
  cases e1 : Dict.get? j.codes n with
  | none =>
    cases e2 : Dict.get? j'.codes n with
    | none => rfl
    | some l => rw [e1, e2] at b1; rw [e2] at b2; simp only [Option.getD_some, Option.getD_none] at b1; subst b1; exact absurd rfl b2
  | some l =>
    cases e2 : Dict.get? j'.codes n with
    | none => rw [e1, e2] at b1; rw [e1] at a2; simp only [Option.getD_some, Option.getD_none] at b1; subst b1; exact absurd rfl a2
    | some l' => rw [e1, e2] at b1; simp only [Option.getD_some] at b1; rw [b1]

/-- **C181**.  If two lines for the same kanji and JIS code have the same glosses in the same order, the same readings of each kind in the same order and the same
values of each code in the same order, then they give entries that agree in everything, however the glosses, readings and codes are mixed and wherever `T1` and `T2`
stand; or both are rejected with the same exception. -/
theorem C181_order (kanji jis ending ending' : Str) (items items' : List Spec.KItem) (hk : Spec.field kanji) (hj : Spec.field jis)
    (hi : ∀ i ∈ items, i.ok) (hi' : ∀ i ∈ items', i.ok) (he : ∀ c ∈ ending, isSpace c = true) (he' : ∀ c ∈ ending', isSpace c = true)
    (hg : Spec.glosses items' = Spec.glosses items) (hon : Spec.readings .katakana items' = Spec.readings .katakana items)
    (hkun : Spec.readings .hiragana items' = Spec.readings .hiragana items) (hc : ∀ n, Spec.codes n items = Spec.codes n items') :
    (∃ e e', kanjidicLine (Spec.kline kanji jis items ending) = .ok e ∧ kanjidicLine (Spec.kline kanji jis items' ending') = .ok e' ∧
      e'.kanji = e.kanji ∧ e'.jisCode = e.jisCode ∧ e'.gloss = e.gloss ∧ e'.onReadings = e.onReadings ∧ e'.kunReadings = e.kunReadings ∧
      e'.strokeCount = e.strokeCount ∧ e'.frequency = e.frequency ∧ e'.skipCode = e.skipCode ∧ ∀ n, Dict.get? e'.codes n = Dict.get? e.codes n) ∨
    ∃ er, kanjidicLine (Spec.kline kanji jis items ending) = .error er ∧ kanjidicLine (Spec.kline kanji jis items' ending') = .error er := by
  obtain ⟨j, h1, h2⟩ := segmentLoop_items ⟨[], [], [], []⟩ items hi
  obtain ⟨j', h1', h2'⟩ := segmentLoop_items ⟨[], [], [], []⟩ items' hi'
  have hfirst : ∀ n, firstCode j' n = firstCode j n := fun n => by rw [firstCode_eq h2, firstCode_eq h2', hc]
  have hfreq : frequencyOf j' = frequencyOf j := by rw [frequencyOf_eq h2, frequencyOf_eq h2', hc]
  unfold kanjidicLine
  rw [segments_kline kanji jis items ending hk hj hi he, segments_kline kanji jis items' ending' hk hj hi' he']
  simp only
  cases pyInt 16 jis with
  | error e => exact Or.inr ⟨e, rfl, rfl⟩
  | ok code =>
    simp only [bind_ok, h1, h1', hfirst, hfreq]
    cases firstCode j u!"stroke_count" with
    | error e => exact Or.inr ⟨e, rfl, rfl⟩
    | ok strokes =>
      simp only [bind_ok]
      cases frequencyOf j with
      | error e => exact Or.inr ⟨e, rfl, rfl⟩
      | ok freq =>
        simp only [bind_ok]
        cases firstCode j u!"skip_code" with
        | error e => exact Or.inr ⟨e, rfl, rfl⟩
        | ok skip =>
          simp only [bind_ok]
          cases skip with
          | num k => exact Or.inr ⟨_, rfl, rfl⟩
          | text s =>
            simp only
            cases mapE (pyInt 10) (splitChr 0x2d s) with
            | error e => exact Or.inr ⟨e, rfl, rfl⟩
            | ok sk =>
              refine Or.inl ⟨_, _, rfl, rfl, rfl, rfl, ?_, ?_, ?_, rfl, rfl, rfl, ?_⟩
              · have a := h2.gloss; have b := h2'.gloss
                simp only [List.nil_append] at a b
                rw [a, b, hg]
              · have a := h2.on; have b := h2'.on
                simp only [List.nil_append] at a b
                rw [a, b, hon]
              · have a := h2.kun; have b := h2'.kun
                simp only [List.nil_append] at a b
                rw [a, b, hkun]
              · intro n
                have hw := h2.wf Dict.WF_nil
                have hw' := h2'.wf Dict.WF_nil
                simp only
                rw [Dict.get?_del (Dict.WF_del (Dict.WF_del hw _) _), Dict.get?_del (Dict.WF_del hw _), Dict.get?_del hw,
                  Dict.get?_del (Dict.WF_del (Dict.WF_del hw' _) _), Dict.get?_del (Dict.WF_del hw' _), Dict.get?_del hw', info_codes_eq h2 h2' hc]

/-- Two neighbouring items that are not of the same kind. -/
def Spec.OtherKind : Spec.KItem → Spec.KItem → Prop
  | .gloss _, .gloss _ => False
  | .reading _ c _, .reading _ d _ => ¬ ∃ x, Spec.InScript x c ∧ Spec.InScript x d
  | .code c _, .code d _ => Spec.codeName c ≠ Spec.codeName d
  | _, _ => True

/-- **C181** (exchanging neighbours).  Two neighbouring fields that are not of the same kind may be exchanged: the hypotheses of `C181_order` hold. -/
theorem C181_exchange (pre post : List Spec.KItem) (a b : Spec.KItem) (h : Spec.OtherKind a b) :
    Spec.glosses (pre ++ b :: a :: post) = Spec.glosses (pre ++ a :: b :: post) ∧
    (∀ x, Spec.readings x (pre ++ b :: a :: post) = Spec.readings x (pre ++ a :: b :: post)) ∧
    ∀ n, Spec.codes n (pre ++ a :: b :: post) = Spec.codes n (pre ++ b :: a :: post) := by
  refine ⟨?_, fun x => ?_, fun n => ?_⟩
  · unfold Spec.glosses
    rw [List.filterMap_append, List.filterMap_append]
    congr 1
    cases a <;> cases b <;> first | rfl | exact absurd h (by simp [Spec.OtherKind])
  · unfold Spec.readings
    rw [List.filterMap_append, List.filterMap_append]
    congr 1
    cases a <;> cases b <;> try rfl
    rename_i hy c r hy' d r'
    simp only [List.filterMap_cons]
    by_cases h1 : Spec.InScript x c
    · by_cases h2 : Spec.InScript x d
      · exact absurd ⟨x, h1, h2⟩ h
      · simp [h1, h2]
    · simp [h1]
  · unfold Spec.codes
    rw [List.filterMap_append, List.filterMap_append]
    congr 1
    cases a <;> cases b <;> try rfl
    rename_i c r d r'
    simp only [List.filterMap_cons]
    by_cases h1 : Spec.codeName c = n
    · by_cases h2 : Spec.codeName d = n
      · exact absurd (h1.trans h2.symm) h
      · simp [h1, h2]
    · simp [h1]

/-- Non-vacuity of C181: a gloss moved in front of the codes. -/
example : let items := [Spec.KItem.code c!"S" u!"7", .code c!"P" u!"4-7-1", .reading false c!"ア" u!"", .gloss u!"Asia"]
    let items' := [Spec.KItem.gloss u!"Asia", .code c!"P" u!"4-7-1", .marker true, .code c!"S" u!"7", .reading false c!"ア" u!""]
    (∀ i ∈ items, i.ok) ∧ (∀ i ∈ items', i.ok) ∧ Spec.glosses items' = Spec.glosses items ∧
    (kanjidicLine (Spec.kline u!"亜" u!"3021" items u!"\n")).isOk = true := by
  decide +kernel

end Cjk
