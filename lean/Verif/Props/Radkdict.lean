import Verif.Model.Radkdict
import Verif.Spec.Radkdict
import Verif.Props.Maps
import Verif.Props.Kanjidic
import Verif.Py.Strip
import Verif.Py.Exc
/-!
# C39, C40: the radical dictionary
-/

namespace Cjk
open Py

theorem radk_startsWith (l : Str) (c : Chr) (hc : isSpace c = false) :
    startsWith (rstrip l) [c] = true ↔ l.head? = some c := by
  rw [startsWith_singleton, rstrip_head l hc]

/-- A header line that is read. -/
def GoodHeader (l : Str) (r : Str) (n : Int) : Prop :=
  ((splitWs l).length = 3 ∨ (splitWs l).length = 4) ∧ (splitWs l)[1]? = some r ∧
    ∃ s, (splitWs l)[2]? = some s ∧ pyInt 10 s = .ok n

theorem radkStep_comment (st : RadkState) (l : Str) (h : Spec.radkComment l) : radkStep st l = .ok st := by
  unfold radkStep
  simp only
  rw [if_pos ((radk_startsWith l _ (by decide)).2 h)]

theorem radkStep_body (st : RadkState) (l : Str) (h : ¬ (Spec.radkComment l ∨ Spec.radkHeader l)) :
    radkStep st l = .ok
      { st with radicalToKanji :=
          Dict.set st.radicalToKanji st.cur ((Dict.get? st.radicalToKanji st.cur).getD [] ++ strip l) } := by
  rw [not_or] at h
  unfold radkStep
  simp only [strip_rstrip]
  rw [if_neg (fun hh => h.1 ((radk_startsWith l _ (by decide)).1 hh)),
    if_neg (fun hh => h.2 ((radk_startsWith l _ (by decide)).1 hh))]

theorem radkStep_header (st : RadkState) (l : Str) (h : Spec.radkHeader l) :
    (∃ r n, GoodHeader l r n ∧
      radkStep st l = .ok { st with cur := some r, radicalToStrokeCount := Dict.set st.radicalToStrokeCount r n }) ∨
    (∃ e, Spec.radkBad l e ∧ radkStep st l = .error e) := by
  have hc : ¬ Spec.radkComment l := by
    unfold Spec.radkComment Spec.radkHeader at *; rw [h]; decide
  have hstep : radkStep st l = match splitWs l with
    | [_, radical, strokes] | [_, radical, strokes, _] => do
      let n ← pyInt 10 strokes
      .ok { st with cur := some radical, radicalToStrokeCount := Dict.set st.radicalToStrokeCount radical n }
    | _ => .error .genericException := by
    unfold radkStep
    simp only [splitWs_rstrip]
    rw [if_neg (fun hh => hc ((radk_startsWith l _ (by decide)).1 hh)),
      if_pos ((radk_startsWith l _ (by decide)).2 h)]
    rfl
  rw [hstep]
  unfold GoodHeader Spec.radkBad
  simp only [h, true_and]
  rcases hs : splitWs l with _ | ⟨a, _ | ⟨b, _ | ⟨c, _ | ⟨d, _ | ⟨e, t⟩⟩⟩⟩⟩
  case nil => exact Or.inr ⟨_, Or.inl ⟨by simp, rfl⟩, rfl⟩
  case cons.nil => exact Or.inr ⟨_, Or.inl ⟨by simp, rfl⟩, rfl⟩
  case cons.cons.nil => exact Or.inr ⟨_, Or.inl ⟨by simp, rfl⟩, rfl⟩
  case cons.cons.cons.nil =>
    cases hp : pyInt 10 c with
    | ok n => exact Or.inl ⟨b, n, ⟨Or.inl rfl, rfl, c, rfl, hp⟩, by simp [hp]⟩
    | error e => exact Or.inr ⟨e, Or.inr ⟨Or.inl rfl, c, rfl, hp⟩, by simp [hp]⟩
  case cons.cons.cons.cons.nil =>
    cases hp : pyInt 10 c with
    | ok n => exact Or.inl ⟨b, n, ⟨Or.inr rfl, rfl, c, rfl, hp⟩, by simp [hp]⟩
    | error e => exact Or.inr ⟨e, Or.inr ⟨Or.inr rfl, c, rfl, hp⟩, by simp [hp]⟩
  case cons.cons.cons.cons.cons => exact Or.inr ⟨_, Or.inl ⟨by simp, rfl⟩, rfl⟩

/-- The stroke count of `r`: that of its last header. -/
def Spec.radkStrokes (ls : List Str) (r : Str) : Option Int :=
  ((ls.filter (fun l => Spec.radkHeader l ∧ (splitWs l)[1]? = some r)).getLast?.bind (fun l => (splitWs l)[2]?)).bind
    (fun s => (pyInt 10 s).toOption)

/-- What holds after the lines `before`, whose kanji lines are `body`. -/
structure RadkInv (before : List Str) (body : List (Option Str × Str)) (st : RadkState) : Prop where
  cur : st.cur = Spec.radicalAfter before
  keys : Dict.keys st.radicalToKanji = dedup (body.map Prod.fst)
  vals : ∀ r, (Dict.get? st.radicalToKanji r).getD [] = (body.filter (fun p => p.1 = r)).flatMap Prod.snd
  strokes : ∀ r, Dict.get? st.radicalToStrokeCount r = Spec.radkStrokes before r

theorem radkLoop_inv (before : List Str) (body : List (Option Str × Str)) (st st' : RadkState) (ls : List Str)
    (hi : RadkInv before body st) (h : radkLoop st ls = .ok st') :
    RadkInv (before ++ ls) (body ++ Spec.radkBody before ls) st' := by
  induction ls generalizing before body st with
  | nil =>
    simp only [radkLoop, Except.ok.injEq] at h
    subst h; simpa [Spec.radkBody] using hi
  | cons l ls ih =>
    simp only [radkLoop] at h
    have e1 : before ++ l :: ls = (before ++ [l]) ++ ls := by simp
    by_cases hc : Spec.radkComment l
    · have hnh : ¬ Spec.radkHeader l := by unfold Spec.radkComment Spec.radkHeader at *; rw [hc]; decide
      rw [radkStep_comment st l hc, bind_ok] at h
      have e2 : Spec.radkBody before (l :: ls) = Spec.radkBody (before ++ [l]) ls := by simp [Spec.radkBody, hc]
      rw [e1, e2]
      refine ih _ _ _ ?_ h
      refine ⟨?_, hi.keys, hi.vals, ?_⟩
      · rw [hi.cur]; simp [Spec.radicalAfter, List.filter_append, hnh]
      · intro r; rw [hi.strokes]; simp [Spec.radkStrokes, List.filter_append, hnh]
    by_cases hh : Spec.radkHeader l
    · have e2 : Spec.radkBody before (l :: ls) = Spec.radkBody (before ++ [l]) ls := by simp [Spec.radkBody, hh]
      rw [e1, e2]
      rcases radkStep_header st l hh with ⟨r, n, ⟨_, g1, s, g2, g3⟩, hs⟩ | ⟨e, _, hs⟩
      · rw [hs, bind_ok] at h
        refine ih _ _ _ ?_ h
        refine ⟨?_, hi.keys, hi.vals, ?_⟩
        · simp [Spec.radicalAfter, List.filter_append, hh, g1]
        · intro r'
          rw [Dict.get?_set]
          by_cases hr : r = r'
          · subst hr
            simp [Spec.radkStrokes, List.filter_append, hh, g1, g2, g3, Except.toOption]
          · rw [if_neg hr, hi.strokes]
            simp [Spec.radkStrokes, List.filter_append, hh, g1, hr]
      · rw [hs] at h; cases h
    · have hn : ¬ (Spec.radkComment l ∨ Spec.radkHeader l) := by rw [not_or]; exact ⟨hc, hh⟩
      rw [radkStep_body st l hn, bind_ok] at h
      have e2 : body ++ Spec.radkBody before (l :: ls) =
          (body ++ [(Spec.radicalAfter before, strip l)]) ++ Spec.radkBody (before ++ [l]) ls := by
        simp [Spec.radkBody, hn]
      rw [e1, e2]
      refine ih _ _ _ ?_ h
      refine ⟨?_, ?_, ?_, ?_⟩
      · simp only [hi.cur]; simp [Spec.radicalAfter, List.filter_append, hh]
      · simp only [Dict.keys_set, hi.cur, List.map_append, List.map_cons, List.map_nil, dedup_concat, hi.keys, mem_dedup]
        by_cases hm : Spec.radicalAfter before ∈ List.map Prod.fst body <;> simp [hm]
      · intro r
        simp only [Dict.get?_set, hi.cur]
        by_cases hr : Spec.radicalAfter before = r
        · subst hr
          simp [hi.vals, List.filter_append]
        · simp [hr, hi.vals, List.filter_append]
      · intro r; simp only [hi.strokes]; simp [Spec.radkStrokes, List.filter_append, hh]

theorem radkLoop_error (st : RadkState) (ls : List Str) (e : PyErr) :
    radkLoop st ls = .error e ↔ ∃ pre l post, ls = pre ++ l :: post ∧ Spec.radkBad l e ∧
      ∀ x ∈ pre, ∀ e', ¬ Spec.radkBad x e' := by
  have bad_unique : ∀ {l e e'}, Spec.radkBad l e → Spec.radkBad l e' → e = e' := by
    rintro l e e' ⟨_, h1⟩ ⟨_, h2⟩
    rcases h1 with ⟨a1, rfl⟩ | ⟨a1, s, b1, c1⟩ <;> rcases h2 with ⟨a2, rfl⟩ | ⟨a2, t, b2, c2⟩
    · rfl
    · exact absurd a2 a1
    · exact absurd a1 a2
    · rw [b1] at b2; cases b2; rw [c1] at c2; cases c2; rfl
  have good_not_bad : ∀ {l r n e}, GoodHeader l r n → ¬ Spec.radkBad l e := by
    rintro l r n e ⟨h1, _, s, h3, h4⟩ ⟨_, h⟩
    rcases h with ⟨h, _⟩ | ⟨_, t, h5, h6⟩
    · exact h h1
    · rw [h3] at h5; cases h5; rw [h4] at h6; cases h6
  induction ls generalizing st with
  | nil => simp [radkLoop]
  | cons l ls ih =>
    have good : ∀ st', radkStep st l = .ok st' → (∀ e', ¬ Spec.radkBad l e') →
        (radkLoop st (l :: ls) = .error e ↔ ∃ pre x post, l :: ls = pre ++ x :: post ∧ Spec.radkBad x e ∧
          ∀ x ∈ pre, ∀ e', ¬ Spec.radkBad x e') := by
      intro st' hs hg
      simp only [radkLoop, hs, bind_ok]
      refine Iff.trans (ih st') ?_
      constructor
      · rintro ⟨pre, x, post, rfl, h1, h2⟩
        refine ⟨l :: pre, x, post, rfl, h1, ?_⟩
        intro y hy
        rcases List.mem_cons.1 hy with rfl | hy
        · exact hg
        · exact h2 y hy
      · rintro ⟨pre, x, post, h0, h1, h2⟩
        cases pre with
        | nil => cases h0; exact absurd h1 (hg e)
        | cons y pre =>
          simp only [List.cons_append, List.cons.injEq] at h0
          exact ⟨pre, x, post, h0.2, h1, fun z hz => h2 z (by simp [hz])⟩
    by_cases hh : Spec.radkHeader l
    · rcases radkStep_header st l hh with ⟨r, n, hg, hs⟩ | ⟨e', hb, hs⟩
      · exact good _ hs (fun e' => good_not_bad hg)
      · simp only [radkLoop, hs, bind_error, Except.error.injEq]
        constructor
        · rintro rfl; exact ⟨[], l, ls, rfl, hb, by simp⟩
        · rintro ⟨pre, x, post, h0, h1, h2⟩
          cases pre with
          | nil => cases h0; exact bad_unique hb h1
          | cons y pre =>
            simp only [List.cons_append, List.cons.injEq] at h0
            exact absurd hb (h0.1 ▸ h2 y (by simp) e')
    · have hg : ∀ e', ¬ Spec.radkBad l e' := fun e' hb => hh hb.1
      by_cases hc : Spec.radkComment l
      · exact good _ (radkStep_comment st l hc) hg
      · exact good _ (radkStep_body st l (by rw [not_or]; exact ⟨hc, hh⟩)) hg

theorem mapItems_id {K V : Type} (d : Dict K V) : mapItems (fun l => .ok l) d = .ok d := by
  induction d with
  | nil => rfl
  | cons p d ih => obtain ⟨k, v⟩ := p; simp [mapItems, ih]

theorem radk_dict_eq {K V : Type} [DecidableEq K] [DecidableEq V] (d : Dict K V) (hd : Dict.WF d) :
    (mapDictInPlace (fun l => .ok l) (Dict.update [] d)).1 = d := by
  have h1 : Dict.update [] d = d := Dict.ofList_of_nodup d hd
  rw [h1]
  rcases mapDictInPlace_cases (fun l => .ok l) d hd with ⟨r, hr, h⟩ | ⟨e, d', v, k, he, _⟩
  · rw [mapItems_id] at hr; cases hr; rw [h]
  · rw [mapItems_id] at he; cases he

theorem radkDict_ok {ls : List Str} {d : RadkDict} (h : radkDict ls = .ok d) :
    ∃ st, RadkInv ls (Spec.radkBody [] ls) st ∧ d.dict = invertMapping st.radicalToKanji ∧
      d.radicalToStrokeCount = st.radicalToStrokeCount ∧ d.radicalToKanji = st.radicalToKanji := by
  unfold radkDict at h
  cases hl : radkLoop ⟨none, [], []⟩ ls with
  | error e => rw [hl] at h; cases h
  | ok st =>
    rw [hl, bind_ok] at h
    cases h
    refine ⟨st, ?_, ?_, rfl, rfl⟩
    · have := radkLoop_inv [] [] _ st ls ⟨rfl, rfl, fun r => rfl, fun r => rfl⟩ hl
      simpa using this
    · exact radk_dict_eq _ (C09_invert_WF _)

theorem flatMap_keys {K V W : Type} [DecidableEq K] (d : Dict K V) (hd : Dict.WF d) (dflt : V) (f : K → V → List W) :
    d.flatMap (fun kv => f kv.1 kv.2) = (Dict.keys d).flatMap (fun k => f k ((Dict.get? d k).getD dflt)) := by
  unfold Dict.keys
  rw [List.flatMap_map]
  unfold List.flatMap
  congr 1
  apply List.map_congr_left
  intro kv hkv
  rw [(Dict.get?_eq_some_iff hd kv.1 kv.2).2 hkv]; rfl

theorem count_flatMap_snd (l : List (Option Str × Str)) (k : Chr) :
    (l.flatMap Prod.snd).count k = (l.map (fun p => p.2.count k)).sum := by
  induction l with
  | nil => rfl
  | cons p l ih => simp [List.count_append, ih]

/-- C39: the radicals of a kanji are the radicals in file order, each as often as the kanji occurs on its lines; a
kanji that occurs nowhere is missing. -/
theorem C39_radicals (ls : List Str) (d : RadkDict) (h : radkDict ls = .ok d) (k : Chr) :
    Dict.get? d.dict k =
      if ∃ p ∈ Spec.radkBody [] ls, k ∈ p.2 then
        some ((Spec.radkRadicals ls).flatMap (fun r => List.replicate (Spec.radkCount ls r k) r))
      else none := by
  obtain ⟨st, hi, h1, _⟩ := radkDict_ok h
  rw [h1, C09_invert_exact]
  have hw : Dict.WF st.radicalToKanji := by unfold Dict.WF; rw [hi.keys]; exact nodup_dedup _
  have hex : (∃ kv ∈ st.radicalToKanji, k ∈ kv.2) ↔ ∃ p ∈ Spec.radkBody [] ls, k ∈ p.2 := by
    constructor
    · rintro ⟨kv, hkv, hk⟩
      have := hi.vals kv.1
      rw [(Dict.get?_eq_some_iff hw kv.1 kv.2).2 hkv] at this
      simp only [Option.getD_some] at this
      rw [this, List.mem_flatMap] at hk
      obtain ⟨p, hp, hk⟩ := hk
      exact ⟨p, (List.mem_filter.1 hp).1, hk⟩
    · rintro ⟨p, hp, hk⟩
      have hmem : p.1 ∈ Dict.keys st.radicalToKanji := by
        rw [hi.keys, mem_dedup]; exact List.mem_map_of_mem hp
      obtain ⟨v, hv⟩ := (Dict.mem_keys_iff _ _).1 hmem
      refine ⟨_, hv, ?_⟩
      have := hi.vals p.1
      rw [(Dict.get?_eq_some_iff hw p.1 v).2 hv] at this
      simp only [Option.getD_some] at this
      rw [this, List.mem_flatMap]
      exact ⟨p, List.mem_filter.2 ⟨hp, by simp⟩, hk⟩
  by_cases hx : ∃ p ∈ Spec.radkBody [] ls, k ∈ p.2
  · rw [if_pos (hex.2 hx), if_pos hx]
    congr 1
    rw [flatMap_keys st.radicalToKanji hw [] (fun r v => List.replicate (v.count k) r), hi.keys]
    unfold Spec.radkRadicals Spec.radkCount
    simp only [hi.vals, count_flatMap_snd]
  · rw [if_neg (fun hh => hx (hex.1 hh)), if_neg hx]

/-- C39: so a radical is listed for a kanji exactly as many times as the kanji occurs on its lines. -/
theorem C39_counts (ls : List Str) (d : RadkDict) (h : radkDict ls = .ok d) (k : Chr) (r : Option Str) :
    ((Dict.get? d.dict k).getD []).count r = Spec.radkCount ls r k := by
  obtain ⟨st, hi, h1, _⟩ := radkDict_ok h
  have hw : Dict.WF st.radicalToKanji := by unfold Dict.WF; rw [hi.keys]; exact nodup_dedup _
  have e := C09_invert_transposes _ hw r k
  rw [hi.vals, count_flatMap_snd] at e
  rw [h1]
  refine Eq.trans ?_ e
  unfold List.count
  congr 1
  funext x
  rw [Bool.eq_iff_iff]; simp

/-- C39: the stroke count of a radical is that of its last header line; other radicals have none. -/
theorem C39_strokes (ls : List Str) (d : RadkDict) (h : radkDict ls = .ok d) (r : Str) :
    Dict.get? d.radicalToStrokeCount r = Spec.radkStrokes ls r := by
  obtain ⟨st, hi, _, h2, _⟩ := radkDict_ok h
  rw [h2, hi.strokes]

/-- C39: `radical_to_kanji` lists the kanji of each radical in file order. -/
theorem C39_kanji (ls : List Str) (d : RadkDict) (h : radkDict ls = .ok d) (r : Option Str) :
    Dict.get? d.radicalToKanji r = if r ∈ (Spec.radkBody [] ls).map Prod.fst then
      some (((Spec.radkBody [] ls).filter (fun p => p.1 = r)).flatMap Prod.snd) else none := by
  obtain ⟨st, hi, _, _, h3⟩ := radkDict_ok h
  rw [h3]
  have hv := hi.vals r
  by_cases hm : r ∈ (Spec.radkBody [] ls).map Prod.fst
  · rw [if_pos hm, ← hv]
    have : r ∈ Dict.keys st.radicalToKanji := by rw [hi.keys, mem_dedup]; exact hm
    obtain ⟨v, hv⟩ := Option.isSome_iff_exists.1 ((Dict.get?_isSome_iff _ _).2 this)
    rw [hv]; rfl
  · rw [if_neg hm, Dict.get?_eq_none_iff, hi.keys, mem_dedup]; exact hm

/-- C40: parsing raises exactly if some header line has not 3 or 4 fields or no integer as third field; the first
such line decides the exception. -/
theorem C40_raises (ls : List Str) (e : PyErr) :
    radkDict ls = .error e ↔ ∃ pre l post, ls = pre ++ l :: post ∧ Spec.radkBad l e ∧
      ∀ x ∈ pre, ∀ e', ¬ Spec.radkBad x e' := by
  rw [← radkLoop_error ⟨none, [], []⟩]
  unfold radkDict
  cases radkLoop ⟨none, [], []⟩ ls <;> simp [bind, Except.bind]

/-- C40: comment lines make no difference at all. -/
theorem C40_comments (ls : List Str) : radkDict (ls.filter (fun l => ¬ Spec.radkComment l)) = radkDict ls := by
  have key : ∀ st, radkLoop st (ls.filter (fun l => ¬ Spec.radkComment l)) = radkLoop st ls := by
    induction ls with
    | nil => intro st; rfl
    | cons l ls ih =>
      intro st
      by_cases hc : Spec.radkComment l
      · rw [List.filter_cons_of_neg (by simp [hc]), ih]
        simp only [radkLoop, radkStep_comment st l hc, bind_ok]
      · rw [List.filter_cons_of_pos (by simp [hc])]
        simp only [radkLoop]
        cases radkStep st l with
        | error e => rfl
        | ok st' => simp only [bind_ok, ih]
  unfold radkDict; rw [key]

section Examples

def radkExample : List Str :=
  [u!"# comment\n", u!"$ 一 1\n", u!"亜唖\n", u!"亜\n", u!"$ 口 3 image\n", u!"唖\n", u!"$ 一 2\n", u!"且\n"]

example : (radkDict radkExample).map (fun d => (d.dict, d.radicalToStrokeCount)) =
    .ok ([(c!"亜", [some u!"一", some u!"一"]), (c!"唖", [some u!"一", some u!"口"]), (c!"且", [some u!"一"])],
      [(u!"一", 2), (u!"口", 3)]) := by decide +kernel
example : (radkDict [u!"$ 一 1 a b\n", u!"亜\n"]).map (fun d => d.dict) = .error .genericException := by decide +kernel
example : (radkDict [u!"$ 一 x\n", u!"亜\n"]).map (fun d => d.dict) = .error .valueError := by decide +kernel
example : Spec.radkRadicals radkExample = [some u!"一", some u!"口"] ∧ Spec.radkCount radkExample (some u!"一") c!"亜" = 2 ∧
    Spec.radkStrokes radkExample u!"一" = some 2 := by decide +kernel

end Examples

end Cjk
