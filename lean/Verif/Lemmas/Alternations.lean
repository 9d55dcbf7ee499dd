import Verif.Model.Alternations
import Verif.Spec.Alternations
import Verif.Lemmas.Scripts
import Mathlib.Data.List.Forall2
/-! Helper lemmas about the alternations model. -/

namespace Cjk
open Py

/-! ### Voicing tables -/

theorem createVoicingMap_ok : createVoicingMap = .ok toVoiced := by
  have h : (match createVoicingMap with | .ok _ => true | .error _ => false) = true := by decide +kernel
  unfold toVoiced
  cases e : createVoicingMap with
  | ok d => rfl
  | error e' => rw [e] at h; cases h

theorem toVoiced_keys : toVoiced.keys = List.range' 0x3041 86 ++ List.range' 0x30a1 86 := by decide +kernel

theorem toVoiced_get?_keys : ∀ c ∈ toVoiced.keys, toVoiced.get? c = some ((Dict.get? Spec.voicings c).getD []) := by
  decide +kernel

theorem isKana_iff_keys (c : Chr) : Spec.IsKana c ↔ c ∈ toVoiced.keys := by
  rw [toVoiced_keys]
  simp only [Spec.IsKana, Spec.InScript, List.mem_append, List.mem_range'_1]
  omega

theorem toVoiced_get? (c : Chr) : toVoiced.get? c =
    if Spec.IsKana c then some ((Dict.get? Spec.voicings c).getD []) else none := by
  split
  · rename_i h; exact toVoiced_get?_keys c ((isKana_iff_keys c).1 h)
  · rename_i h; rw [Dict.get?_eq_none_iff]; exact fun hk => h ((isKana_iff_keys c).2 hk)

theorem voicings_WF : Dict.WF Spec.voicings := by decide +kernel

theorem voices_iff (k v : Chr) : Spec.Voices k v ↔ v ∈ (Dict.get? Spec.voicings k).getD [] := by
  unfold Spec.Voices
  constructor
  · rintro ⟨⟨a, vs⟩, hm, rfl, hv⟩
    rw [(Dict.get?_eq_some_iff voicings_WF a vs).2 hm]; exact hv
  · intro h
    cases hg : Dict.get? Spec.voicings k with
    | none => simp [hg] at h
    | some vs => rw [hg] at h; exact ⟨(k, vs), Dict.mem_of_get?_eq_some hg, rfl, h⟩

theorem voices_kana {k v : Chr} (h : Spec.Voices k v) : Spec.IsKana k ∧ Spec.IsKana v := by
  obtain ⟨p, hp, rfl, hv⟩ := h
  have key : ∀ p ∈ Spec.voicings, ∀ v ∈ p.2, Spec.IsKana p.1 ∧ Spec.IsKana v := by decide +kernel
  exact key p hp v hv

theorem fromVoiced_WF : fromVoiced.WF := by decide +kernel

theorem fromVoiced_get? (v k : Chr) : fromVoiced.get? v = some k ↔ Spec.Voices k v := by
  constructor
  · intro h
    have key : ∀ kv ∈ fromVoiced, Spec.Voices kv.2 kv.1 := by decide +kernel
    exact key (v, k) (Dict.mem_of_get?_eq_some h)
  · rintro ⟨p, hp, rfl, hv⟩
    have key : ∀ p ∈ Spec.voicings, ∀ v ∈ p.2, fromVoiced.get? v = some p.1 := by decide +kernel
    exact key p hp v hv

theorem voices_unique {k k' v : Chr} (h : Spec.Voices k v) (h' : Spec.Voices k' v) : k = k' := by
  rw [← fromVoiced_get?] at h h'; rw [h] at h'; exact Option.some.inj h'

/-- The characters on which undoing a voicing fails. -/
def Spec.IsVu (c : Chr) : Prop := c = c!"ゔ" ∨ c = c!"ヴ"

instance (c : Chr) : Decidable (Spec.IsVu c) := by unfold Spec.IsVu; infer_instance

theorem isVoiced_iff (c : Chr) (hc : Spec.IsKana c) : isVoiced c = true ↔ (∃ k, Spec.Voices k c) ∨ Spec.IsVu c := by
  constructor
  · intro h
    have key : ∀ c ∈ voicedChars ++ semivoicedChars, Spec.IsKana c →
        (fromVoiced.get? c).isSome = true ∨ Spec.IsVu c := by decide +kernel
    have hm : c ∈ voicedChars ++ semivoicedChars := by
      simpa [isVoiced, List.mem_append] using h
    rcases key c hm hc with h1 | h1
    · left
      obtain ⟨k, hk⟩ := Option.isSome_iff_exists.1 h1
      exact ⟨k, (fromVoiced_get? c k).1 hk⟩
    · exact Or.inr h1
  · rintro (⟨k, p, hp, rfl, hv⟩ | h)
    · have key : ∀ p ∈ Spec.voicings, ∀ v ∈ p.2, isVoiced v = true := by decide +kernel
      exact key p hp c hv
    · rcases h with rfl | rfl <;> decide +kernel

theorem not_voices_vu {k c : Chr} (h : Spec.IsVu c) : ¬ Spec.Voices k c := by
  rw [← fromVoiced_get?]
  have key : ∀ c, (c = c!"ゔ" ∨ c = c!"ヴ") → fromVoiced.get? c = none := by
    rintro c (rfl | rfl) <;> decide +kernel
  rw [key c h]; simp

/-! ### mapE and product -/

theorem mapE_ok {α β : Type} {f : α → Except PyErr β} {g : α → β} {l : List α}
    (h : ∀ a ∈ l, f a = .ok (g a)) : mapE f l = .ok (l.map g) := by
  induction l with
  | nil => rfl
  | cons a l ih =>
    simp only [mapE, h a (by simp), ih (fun b hb => h b (by simp [hb]))]
    rfl

theorem mapE_ok_iff {α β : Type} {f : α → Except PyErr β} {l : List α} {r : List β} :
    mapE f l = .ok r ↔ r.length = l.length ∧ ∀ i (h : i < l.length), ∃ b, r[i]? = some b ∧ f l[i] = .ok b := by
  induction l generalizing r with
  | nil =>
    simp only [mapE, Except.ok.injEq, List.length_nil]
    constructor
    · rintro rfl; exact ⟨rfl, fun i h => absurd h (by omega)⟩
    · intro h; exact (List.length_eq_zero_iff.1 h.1).symm
  | cons a l ih =>
    simp only [mapE]
    cases hf : f a with
    | error e =>
      simp only [bind, Except.bind, reduceCtorEq, false_iff]
      rintro ⟨_, h⟩
      obtain ⟨b, _, h2⟩ := h 0 (by simp)
      simp [hf] at h2
    | ok b =>
      cases hm : mapE f l with
      | error e =>
        simp only [bind, Except.bind, reduceCtorEq, false_iff]
        rintro ⟨hl, h⟩
        cases r with
        | nil => simp at hl
        | cons b' r =>
          have := (ih (r := r)).2 ⟨by simpa using hl, fun i hi => by
            have := h (i + 1) (by simp; omega)
            simpa using this⟩
          rw [hm] at this; cases this
      | ok bs =>
        simp only [bind, Except.bind, Except.ok.injEq]
        constructor
        · rintro rfl
          obtain ⟨h1, h2⟩ := (ih (r := bs)).1 hm
          refine ⟨by simp [h1], ?_⟩
          intro i hi
          cases i with
          | zero => exact ⟨b, rfl, hf⟩
          | succ i => simpa using h2 i (by simpa using hi)
        · rintro ⟨hl, h⟩
          cases r with
          | nil => simp at hl
          | cons b' r =>
            have e1 := (ih (r := r)).2 ⟨by simpa using hl, fun i hi => by
              have := h (i + 1) (by simp; omega)
              simpa using this⟩
            rw [hm] at e1; cases e1
            obtain ⟨b2, h1, h2⟩ := h 0 (by simp)
            simp [hf] at h1 h2
            rw [h1, h2]

theorem mapE_error_iff {α β : Type} {f : α → Except PyErr β} {l : List α} {e : PyErr} :
    mapE f l = .error e ↔ ∃ pre a post, l = pre ++ a :: post ∧ f a = .error e ∧ ∀ x ∈ pre, ∃ b, f x = .ok b := by
  induction l with
  | nil => simp [mapE]
  | cons a l ih =>
    simp only [mapE]
    cases hf : f a with
    | error e' =>
      simp only [bind, Except.bind, Except.error.injEq]
      constructor
      · rintro rfl; exact ⟨[], a, l, rfl, hf, by simp⟩
      · rintro ⟨pre, x, post, h1, h2, h3⟩
        cases pre with
        | nil => simp only [List.nil_append, List.cons.injEq] at h1; rw [← h1.1, hf] at h2; exact Except.error.inj h2
        | cons p pre =>
          simp only [List.cons_append, List.cons.injEq] at h1
          obtain ⟨b, hb⟩ := h3 p (by simp)
          rw [← h1.1, hf] at hb; cases hb
    | ok b =>
      have step : (Except.ok b >>= fun b => mapE f l >>= fun bs => Except.ok (b :: bs)) = .error e ↔
          mapE f l = .error e := by
        cases mapE f l <;> simp [bind, Except.bind]
      rw [step, ih]
      constructor
      · rintro ⟨pre, x, post, rfl, h2, h3⟩
        refine ⟨a :: pre, x, post, rfl, h2, ?_⟩
        intro y hy
        rcases List.mem_cons.1 hy with rfl | hy
        · exact ⟨b, hf⟩
        · exact h3 y hy
      · rintro ⟨pre, x, post, h1, h2, h3⟩
        cases pre with
        | nil => simp only [List.nil_append, List.cons.injEq] at h1; rw [← h1.1, hf] at h2; cases h2
        | cons p pre =>
          simp only [List.cons_append, List.cons.injEq] at h1
          exact ⟨pre, x, post, h1.2, h2, fun y hy => h3 y (by simp [hy])⟩

theorem mem_product {α : Type} (sets : List (List α)) (t : List α) :
    t ∈ product sets ↔ List.Forall₂ (fun a s => a ∈ s) t sets := by
  induction sets generalizing t with
  | nil => simp [product]
  | cons s ss ih =>
    simp only [product, List.mem_flatMap, List.mem_map, ih]
    constructor
    · rintro ⟨a, ha, r, hr, rfl⟩; exact List.Forall₂.cons ha hr
    · intro h
      cases h with
      | cons ha hr => exact ⟨_, ha, _, hr, rfl⟩

theorem nodup_product {α : Type} (sets : List (List α)) (h : ∀ s ∈ sets, s.Nodup) : (product sets).Nodup := by
  induction sets with
  | nil => simp [product]
  | cons s ss ih =>
    have ih' := ih (fun x hx => h x (by simp [hx]))
    have hs := h s (by simp)
    simp only [product]
    clear h ih
    induction s with
    | nil => simp
    | cons a s ihs =>
      simp only [List.nodup_cons] at hs
      rw [List.flatMap_cons, List.nodup_append]
      refine ⟨?_, ihs hs.2, ?_⟩
      · unfold List.Nodup at ih' ⊢
        rw [List.pairwise_map]
        exact List.Pairwise.imp (fun hne e => hne (by simpa using e)) ih'
      · intro x hx y hy e
        subst e
        simp only [List.mem_map, List.mem_flatMap] at hx hy
        obtain ⟨r, _, rfl⟩ := hx
        obtain ⟨b, hb, r', _, e⟩ := hy
        simp only [List.cons.injEq] at e
        exact hs.1 (e.1 ▸ hb)

theorem length_product {α : Type} (sets : List (List α)) :
    (product sets).length = (sets.map List.length).foldr (· * ·) 1 := by
  induction sets with
  | nil => rfl
  | cons s ss ih =>
    simp only [product, List.length_flatMap, List.length_map, List.map_cons, List.foldr_cons, ← ih]
    induction s with
    | nil => simp
    | cons a s ihs => simp only [List.map_cons, List.sum_cons, List.length_cons]; rw [ihs, Nat.add_mul]; omega

/-! ### canonical_segment_forms -/

theorem maps_of_kana {c : Chr} (h : Spec.IsKana c) (s : Str) :
    sokuonMap.get? (scriptType (c :: s)) = some (Spec.sokuonOf c) ∧
    onbinMap.get? (scriptType (c :: s)) = some (Spec.onbinOf c) := by
  rcases h with h | h
  · rw [(scriptType_iff c s _).2 h]; simp [sokuonMap, onbinMap, Dict.get?, Spec.sokuonOf, Spec.onbinOf, h]
  · have hn : ¬ Spec.InScript .hiragana c := fun h' => by cases InScript_unique h h'
    rw [(scriptType_iff c s _).2 h]; simp [sokuonMap, onbinMap, Dict.get?, Spec.sokuonOf, Spec.onbinOf, hn]

theorem maps_of_not_kana {c : Chr} (h : ¬ Spec.IsKana c) (s : Str) :
    sokuonMap.get? (scriptType (c :: s)) = none := by
  rw [Dict.get?_eq_none_iff]
  simp only [sokuonMap, Dict.keys_cons, Dict.keys_nil, List.mem_cons, List.not_mem_nil, or_false, not_or]
  constructor
  · intro e; exact h (Or.inl ((scriptType_iff c s _).1 e))
  · intro e; exact h (Or.inr ((scriptType_iff c s _).1 e))

/-- The set before devoicing. -/
def ungem (segment : Str) (right : Bool) (sokuon : Chr) (onbin : Str) : List Str :=
  if right && decide (segment.length > 1) && endsWith segment [sokuon] then
    dedup ([segment] ++ onbin.map (fun c => segment.dropLast ++ [c]))
  else [segment]

theorem endsWith_singleton (s : Str) (x : Chr) : endsWith s [x] = true ↔ ∃ t, s = t ++ [x] := by
  unfold endsWith
  rw [List.isSuffixOf_iff_suffix]
  constructor
  · rintro ⟨t, rfl⟩; exact ⟨t, rfl⟩
  · rintro ⟨t, rfl⟩; exact ⟨t, rfl⟩

theorem mem_ungem (c : Chr) (s : Str) (right : Bool) (form : Str) :
    form ∈ ungem (c :: s) right (Spec.sokuonOf c) (Spec.onbinOf c) ↔ Spec.Ungeminated right (c :: s) form := by
  unfold ungem Spec.Ungeminated
  by_cases hr : right = true
  · by_cases he : ∃ init, s = init ++ [Spec.sokuonOf c]
    · obtain ⟨init, rfl⟩ := he
      have h1 : endsWith (c :: (init ++ [Spec.sokuonOf c])) [Spec.sokuonOf c] = true :=
        (endsWith_singleton _ _).2 ⟨c :: init, by simp⟩
      have hd : (c :: (init ++ [Spec.sokuonOf c])).dropLast = c :: init := by
        rw [show c :: (init ++ [Spec.sokuonOf c]) = (c :: init) ++ [Spec.sokuonOf c] by simp]
        rw [List.dropLast_concat]
      have hl : (c :: (init ++ [Spec.sokuonOf c])).length > 1 := by simp
      rw [if_pos (by simp [hr, h1])]
      rw [mem_dedup, List.mem_append, List.mem_singleton, List.mem_map, hd]
      constructor
      · rintro (h | ⟨o, ho, rfl⟩)
        · exact Or.inl h
        · exact Or.inr ⟨hr, c, init, o, by simp, ho, by simp⟩
      · rintro (h | ⟨_, c', init', o, h1, ho, rfl⟩)
        · exact Or.inl h
        · right
          have h1' : c :: (init ++ [Spec.sokuonOf c]) = c' :: (init' ++ [Spec.sokuonOf c']) := by simpa using h1
          simp only [List.cons.injEq] at h1'
          obtain ⟨rfl, h2⟩ := h1'
          have := List.append_inj_left' h2 (by simp)
          subst this
          exact ⟨o, ho, by simp⟩
    · have hne : (right && decide ((c :: s).length > 1) && endsWith (c :: s) [Spec.sokuonOf c]) = false := by
        cases s with
        | nil => simp
        | cons d s =>
          rw [Bool.and_eq_false_iff]; right
          rw [Bool.eq_false_iff]
          intro h
          obtain ⟨t, ht⟩ := (endsWith_singleton _ _).1 h
          cases t with
          | nil => simp at ht
          | cons a t => simp only [List.cons_append, List.cons.injEq] at ht; exact he ⟨t, ht.2⟩
      rw [hne]
      simp only [Bool.false_eq_true, if_false, List.mem_singleton]
      constructor
      · exact Or.inl
      · rintro (h | ⟨_, c', init', o, h1, _, _⟩)
        · exact h
        · have h1' : c :: s = c' :: (init' ++ [Spec.sokuonOf c']) := by simpa using h1
          simp only [List.cons.injEq] at h1'
          obtain ⟨rfl, h2⟩ := h1'
          exact absurd ⟨init', h2⟩ he
  · have : right = false := by simpa using hr
    subst this
    simp

theorem nodup_ungem (seg : Str) (right : Bool) (x : Chr) (o : Str) : (ungem seg right x o).Nodup := by
  unfold ungem; split
  · exact nodup_dedup _
  · simp

theorem ungem_ne_nil (seg : Str) (right : Bool) (x : Chr) (o : Str) : seg ∈ ungem seg right x o := by
  unfold ungem; split
  · simp
  · simp

theorem ungeminated_head {right : Bool} {c : Chr} {s form : Str} (h : Spec.Ungeminated right (c :: s) form) :
    ∃ t, form = c :: t := by
  rcases h with rfl | ⟨_, c', init, o, h1, _, rfl⟩
  · exact ⟨s, rfl⟩
  · simp only [List.cons_append, List.cons.injEq] at h1
    exact ⟨init ++ [o], by simp [h1.1]⟩

end Cjk
