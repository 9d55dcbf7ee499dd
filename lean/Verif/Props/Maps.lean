import Verif.Model.Maps
/-!
# Properties of `cjktools/maps.py` (C09 - C15)
-/

set_option linter.unusedSectionVars false

namespace Cjk
open Py

section
variable {K V W : Type} [DecidableEq K] [DecidableEq V] [DecidableEq W]

/-! ## C12: multi_dict -/

theorem multiDict_fold (pairs : List (K × V)) (d : Dict K (List V)) (k : K) :
    (pairs.foldl (fun out kv => out.set kv.1 ((out.get? kv.1).getD [] ++ [kv.2])) d).get? k =
      if k ∈ pairs.map Prod.fst then
        some ((d.get? k).getD [] ++ (pairs.filter (fun p => p.1 = k)).map Prod.snd)
      else d.get? k := by
  induction pairs generalizing d with
  | nil => simp
  | cons p pairs ih =>
    simp only [List.foldl_cons, ih, List.map_cons, List.mem_cons, Dict.get?_set]
    by_cases h : p.1 = k
    · subst h
      have e0 : (pairs.filter (fun q => q.1 = p.1)).map Prod.snd = [] ∨ p.1 ∈ pairs.map Prod.fst := by
        by_cases hm : p.1 ∈ pairs.map Prod.fst
        · exact Or.inr hm
        · left
          rw [List.map_eq_nil_iff, List.filter_eq_nil_iff]
          intro q hq
          simp only [decide_eq_true_eq]
          intro e; exact hm (List.mem_map.2 ⟨q, hq, e⟩)
      simp only [true_or, if_true, Option.getD_some, List.filter_cons, decide_true, List.map_cons,
        List.append_assoc, List.singleton_append]
      split
      · rfl
      · rename_i hm
        rcases e0 with e0 | e0
        · rw [e0]
        · exact absurd e0 hm
    · have h' : ¬ k = p.1 := fun e => h e.symm
      simp only [h, h', if_false, false_or, List.filter_cons, decide_false, Bool.false_eq_true]

/-- The keys of the fold, in order. -/
theorem multiDict_keys_fold (pairs : List (K × V)) (d : Dict K (List V)) :
    (pairs.foldl (fun out kv => out.set kv.1 ((out.get? kv.1).getD [] ++ [kv.2])) d).keys =
      d.keys ++ (dedup (pairs.map Prod.fst)).filter (fun k => k ∉ d.keys) := by
  induction pairs generalizing d with
  | nil => simp [dedup]
  | cons p pairs ih =>
    simp only [List.foldl_cons, ih, List.map_cons, dedup, Dict.keys_set, List.filter_cons,
      List.filter_filter]
    by_cases h : p.1 ∈ d.keys
    · simp only [h, if_true, not_true_eq_false, decide_false, Bool.false_eq_true, if_false]
      congr 1
      apply List.filter_congr
      intro x _
      by_cases hx : x ∈ d.keys
      · simp [hx]
      · have : x ≠ p.1 := by rintro rfl; exact hx h
        simp [hx, this]
    · simp only [h, if_false, not_false_eq_true, decide_true, if_true, List.append_assoc,
        List.singleton_append]
      congr 2
      apply List.filter_congr
      intro x _
      simp only [List.mem_append, List.mem_singleton, not_or]
      by_cases hx : x ∈ d.keys <;> simp [hx]

/-- C12: each key gets exactly its values, in input order; other keys are absent. -/
theorem C12_multi_dict_exact (pairs : List (K × V)) (k : K) :
    (multiDict pairs).get? k =
      if k ∈ pairs.map Prod.fst then some ((pairs.filter (fun p => p.1 = k)).map Prod.snd) else none := by
  unfold multiDict
  rw [multiDict_fold]; simp

/-- C12: the keys are the first components, once each, in order of first occurrence. -/
theorem C12_multi_dict_keys (pairs : List (K × V)) :
    (multiDict pairs).keys = dedup (pairs.map Prod.fst) := by
  unfold multiDict
  rw [multiDict_keys_fold]; simp

theorem multiDict_WF (pairs : List (K × V)) : (multiDict pairs).WF := by
  unfold Dict.WF; rw [C12_multi_dict_keys]; exact nodup_dedup _

theorem length_set_getD (d : Dict K (List V)) (hd : d.WF) (k : K) (v : V) :
    (((d.set k ((d.get? k).getD [] ++ [v])).values.map List.length)).sum =
      (d.values.map List.length).sum + 1 := by
  induction d with
  | nil => simp [Dict.set]
  | cons a d ih =>
    obtain ⟨a, w⟩ := a
    rw [Dict.WF_cons] at hd
    by_cases h : a = k
    · simp only [Dict.set, h, if_true, Dict.get?, Dict.values_cons, List.map_cons, List.sum_cons,
        Option.getD_some, List.length_append, List.length_singleton]; omega
    · simp only [Dict.set, h, if_false, Dict.get?, Dict.values_cons, List.map_cons, List.sum_cons, ih hd.2]
      omega

/-- C12: no value is lost or invented: the sizes add up. -/
theorem C12_multi_dict_total (pairs : List (K × V)) :
    ((multiDict pairs).values.map List.length).sum = pairs.length := by
  have key : ∀ (pairs : List (K × V)) (d : Dict K (List V)), d.WF →
      ((pairs.foldl (fun out kv => out.set kv.1 ((out.get? kv.1).getD [] ++ [kv.2])) d).values.map
        List.length).sum = (d.values.map List.length).sum + pairs.length := by
    intro pairs
    induction pairs with
    | nil => simp
    | cons p pairs ih =>
      intro d hd
      rw [List.foldl_cons, ih _ (Dict.WF_set hd _ _), length_set_getD d hd]
      simp only [List.length_cons]; omega
  have := key pairs [] Dict.WF_nil
  simpa [multiDict] using this

example : multiDict [(1, 10), (2, 20), (1, 30)] = [(1, [10, 30]), (2, [20])] := by decide

/-! ## C09: invert_mapping -/

theorem setdefaultAppend_eq (d : Dict K (List W)) (k : K) (x : W) :
    setdefaultAppend d k x = d.set k ((d.get? k).getD [] ++ [x]) := by
  unfold setdefaultAppend; cases d.get? k <;> simp

/-- `invert_mapping` is `multi_dict` of the reversed pairs. -/
theorem invertMapping_eq_multiDict (d : Dict K (List V)) :
    invertMapping d = multiDict (d.flatMap (fun kv => kv.2.map (fun v => (v, kv.1)))) := by
  unfold invertMapping multiDict
  generalize ([] : Dict V (List K)) = acc
  induction d generalizing acc with
  | nil => rfl
  | cons kv d ih =>
    rw [List.foldl_cons, ih, List.flatMap_cons, List.foldl_append]
    congr 1
    rw [List.foldl_map]
    congr 1
    funext inv v
    exact setdefaultAppend_eq inv v kv.1

theorem filter_flatMap_count (d : Dict K (List V)) (v : V) :
    (((d.flatMap (fun kv => kv.2.map (fun v => (v, kv.1)))).filter (fun p => p.1 = v)).map Prod.snd)
      = d.flatMap (fun kv => List.replicate (kv.2.count v) kv.1) := by
  induction d with
  | nil => rfl
  | cons kv d ih =>
    simp only [List.flatMap_cons, List.filter_append, List.map_append, ih]
    congr 1
    obtain ⟨k, vs⟩ := kv
    induction vs with
    | nil => rfl
    | cons w vs ih2 =>
      simp only [List.map_cons, List.filter_cons, List.count_cons]
      by_cases h : w = v
      · simp only [h, decide_true, if_true, List.map_cons, beq_self_eq_true, List.replicate_succ]
        rw [← ih2]
      · have hb : (w == v) = false := by simp [h]
        simp only [h, decide_false, Bool.false_eq_true, if_false, hb, Nat.add_zero]
        exact ih2

/-- C09: the exact value of the inverse: under `v` every key appears as often as `v` occurs among its
values, in the iteration order of `d`; a value that does not occur is not a key. -/
theorem C09_invert_exact (d : Dict K (List V)) (v : V) :
    (invertMapping d).get? v =
      if ∃ kv ∈ d, v ∈ kv.2 then some (d.flatMap (fun kv => List.replicate (kv.2.count v) kv.1))
      else none := by
  rw [invertMapping_eq_multiDict, C12_multi_dict_exact, filter_flatMap_count]
  have : v ∈ (d.flatMap (fun kv => kv.2.map (fun v => (v, kv.1)))).map Prod.fst ↔ ∃ kv ∈ d, v ∈ kv.2 := by
    simp only [List.mem_map, List.mem_flatMap]
    constructor
    · rintro ⟨p, ⟨kv, hkv, w, hw, rfl⟩, rfl⟩; exact ⟨kv, hkv, hw⟩
    · rintro ⟨kv, hkv, hv⟩; exact ⟨(v, kv.1), ⟨kv, hkv, v, hv, rfl⟩, rfl⟩
  simp only [this]

theorem count_flatMap_replicate (d : Dict K (List V)) (hd : d.WF) (k : K) (v : V) :
    (d.flatMap (fun kv => List.replicate (kv.2.count v) kv.1)).count k =
      ((d.get? k).getD []).count v := by
  induction d with
  | nil => simp
  | cons kv d ih =>
    obtain ⟨a, vs⟩ := kv
    rw [Dict.WF_cons] at hd
    simp only [List.flatMap_cons, List.count_append, ih hd.2, Dict.get?, List.count_replicate]
    by_cases h : a = k
    · subst h
      have : Dict.get? d a = none := (Dict.get?_eq_none_iff d a).2 hd.1
      simp [this]
    · have hb : (a == k) = false := by simp [h]
      simp [h, hb]

/-- C09: the multiplicity of `k` under `v` is the multiplicity of `v` under `k`. -/
theorem C09_invert_transposes (d : Dict K (List V)) (hd : d.WF) (k : K) (v : V) :
    (((invertMapping d).get? v).getD []).count k = ((d.get? k).getD []).count v := by
  rw [C09_invert_exact]
  split
  · simp only [Option.getD_some]; exact count_flatMap_replicate d hd k v
  · rename_i h
    symm
    simp only [Option.getD_none, List.count_nil]
    rw [List.count_eq_zero]
    intro hv
    cases hg : d.get? k with
    | none => simp [hg] at hv
    | some vs =>
      rw [hg] at hv
      exact h ⟨(k, vs), Dict.mem_of_get?_eq_some hg, hv⟩

theorem C09_invert_WF (d : Dict K (List V)) : (invertMapping d).WF := by
  rw [invertMapping_eq_multiDict]; exact multiDict_WF _

/-- C09: the keys of the inverse, in order of first occurrence. -/
theorem C09_invert_keys (d : Dict K (List V)) :
    (invertMapping d).keys = dedup (d.flatMap Prod.snd) := by
  rw [invertMapping_eq_multiDict, C12_multi_dict_keys]
  congr 1
  induction d with
  | nil => rfl
  | cons kv d ih =>
    simp only [List.flatMap_cons, List.map_append, ih, List.map_map]
    congr 1
    simp [Function.comp_def]

/-- C09: inverting twice gives each key a permutation of its values, and drops exactly the keys
without values. -/
theorem C09_invert_twice (d : Dict K (List V)) (hd : d.WF) (k : K) :
    (((invertMapping (invertMapping d)).get? k).getD []).Perm ((d.get? k).getD []) ∧
    (k ∈ (invertMapping (invertMapping d)).keys ↔ ∃ vs, d.get? k = some vs ∧ vs ≠ []) := by
  have hc : ∀ v, (((invertMapping (invertMapping d)).get? k).getD []).count v =
      ((d.get? k).getD []).count v := by
    intro v
    rw [C09_invert_transposes _ (C09_invert_WF d), C09_invert_transposes d hd]
  have hp : (((invertMapping (invertMapping d)).get? k).getD []).Perm ((d.get? k).getD []) :=
    List.perm_iff_count.2 hc
  refine ⟨hp, ?_⟩
  rw [C09_invert_keys, mem_dedup, List.mem_flatMap]
  constructor
  · rintro ⟨⟨v, ks⟩, hmem, hk⟩
    have hg := (Dict.get?_eq_some_iff (C09_invert_WF d) v ks).2 hmem
    have h1 := C09_invert_transposes d hd k v
    rw [hg] at h1
    have h2 : 0 < ((d.get? k).getD []).count v := by
      rw [← h1]; exact List.count_pos_iff.2 hk
    cases hg2 : d.get? k with
    | none => simp [hg2] at h2
    | some vs =>
      refine ⟨vs, rfl, ?_⟩
      rintro rfl
      simp [hg2] at h2
  · rintro ⟨vs, hg, hne⟩
    obtain ⟨v, vs', rfl⟩ := List.exists_cons_of_ne_nil hne
    have h1 := C09_invert_transposes d hd k v
    rw [hg] at h1
    have h2 : 0 < (((invertMapping d).get? v).getD []).count k := by rw [h1]; simp
    cases hg2 : (invertMapping d).get? v with
    | none => simp [hg2] at h2
    | some ks =>
      rw [hg2] at h2
      exact ⟨(v, ks), Dict.mem_of_get?_eq_some hg2, List.count_pos_iff.1 h2⟩

example : Dict.WF [(1, [10, 20, 10]), (2, ([] : List Nat)), (3, [20])] ∧
    invertMapping [(1, [10, 20, 10]), (2, []), (3, [20])] = [(10, [1, 1]), (20, [1, 3])] := by decide

/-! ## C10: injectivity -/

theorem isInjectiveLoop_iff (covered : List V) (d : Dict K V) :
    isInjectiveLoop covered d = true ↔ d.values.Nodup ∧ ∀ v ∈ d.values, v ∉ covered := by
  induction d generalizing covered with
  | nil => simp [isInjectiveLoop]
  | cons kv d ih =>
    obtain ⟨k, v⟩ := kv
    simp only [isInjectiveLoop]
    split
    · rename_i h; simp [h]
    · rename_i h
      rw [ih]
      simp only [Dict.values_cons, List.nodup_cons, List.mem_cons, forall_eq_or_imp, not_or]
      constructor
      · rintro ⟨h1, h2⟩
        exact ⟨⟨fun hv => (h2 v hv).1 rfl, h1⟩, h, fun w hw => (h2 w hw).2⟩
      · rintro ⟨⟨h1, h2⟩, _, h3⟩
        exact ⟨h2, fun w hw => ⟨fun e => h1 (e ▸ hw), h3 w hw⟩⟩

/-- Injectivity of a finite map, stated through lookups only. -/
def Spec.Injective (d : Dict K V) : Prop := ∀ k k' v, d.get? k = some v → d.get? k' = some v → k = k'

theorem injective_iff_nodup (d : Dict K V) (hd : d.WF) : Spec.Injective d ↔ d.values.Nodup := by
  induction d with
  | nil => simp [Spec.Injective]
  | cons kv d ih =>
    obtain ⟨k, v⟩ := kv
    have hd0 := hd
    rw [Dict.WF_cons] at hd
    simp only [Dict.values_cons, List.nodup_cons]
    have hmem : v ∈ Dict.values d ↔ ∃ k', (k', v) ∈ d := by simp [Dict.values]
    constructor
    · intro h
      constructor
      · rw [hmem]; rintro ⟨k', hk'⟩
        have h1 : Dict.get? ((k, v) :: d) k' = some v := (Dict.get?_eq_some_iff hd0 _ _).2 (by simp [hk'])
        have h2 : Dict.get? ((k, v) :: d) k = some v := by simp [Dict.get?]
        have := h k' k v h1 h2
        subst this
        exact hd.1 ((Dict.mem_keys_iff d k').2 ⟨v, hk'⟩)
      · rw [← ih hd.2]
        intro a b w ha hb
        have e : ∀ a, Dict.get? d a = some w → Dict.get? ((k, v) :: d) a = some w := fun a ha =>
          (Dict.get?_eq_some_iff hd0 _ _).2 (List.mem_cons_of_mem _ (Dict.mem_of_get?_eq_some ha))
        exact h a b w (e a ha) (e b hb)
    · rintro ⟨h1, h2⟩ a b w ha hb
      rw [← ih hd.2] at h2
      simp only [Dict.get?] at ha hb
      split at ha <;> split at hb
      · rename_i e1 e2; rw [← e1, ← e2]
      · rename_i e1 e2; cases ha; exact absurd (hmem.2 ⟨b, Dict.mem_of_get?_eq_some hb⟩) h1
      · rename_i e1 e2; cases hb; exact absurd (hmem.2 ⟨a, Dict.mem_of_get?_eq_some ha⟩) h1
      · exact h2 a b w ha hb

/-- C10: `is_injective` decides injectivity. -/
theorem C10_is_injective_iff (d : Dict K V) (hd : d.WF) : isInjective d = true ↔ Spec.Injective d := by
  rw [injective_iff_nodup d hd]
  unfold isInjective
  rw [isInjectiveLoop_iff]; simp

theorem invertInjectiveLoop_ok (inv : Dict V K) (d : Dict K V)
    (h1 : d.values.Nodup) (h2 : ∀ v ∈ d.values, v ∉ inv.keys) :
    invertInjectiveLoop inv d = .ok (inv ++ d.map (fun kv => (kv.2, kv.1))) := by
  induction d generalizing inv with
  | nil => simp [invertInjectiveLoop]
  | cons kv d ih =>
    obtain ⟨k, v⟩ := kv
    simp only [Dict.values_cons, List.nodup_cons, List.mem_cons, forall_eq_or_imp] at h1 h2
    have hc : inv.contains v = false := by
      rw [Bool.eq_false_iff]; intro h; exact h2.1 ((Dict.contains_iff _ _).1 h)
    simp only [invertInjectiveLoop, hc, Bool.false_eq_true, if_false]
    rw [Dict.set_of_not_mem _ _ _ h2.1, ih _ h1.2]
    · simp
    · intro w hw
      simp only [Dict.keys, List.map_append, List.map_cons, List.map_nil, List.mem_append,
        List.mem_singleton, not_or]
      exact ⟨h2.2 w hw, fun e => h1.1 (e ▸ hw)⟩

theorem invertInjectiveLoop_error (inv : Dict V K) (d : Dict K V)
    (h : ¬ (d.values.Nodup ∧ ∀ v ∈ d.values, v ∉ inv.keys)) :
    invertInjectiveLoop inv d = .error .assertionError := by
  induction d generalizing inv with
  | nil => exact absurd ⟨by simp, by simp⟩ h
  | cons kv d ih =>
    obtain ⟨k, v⟩ := kv
    simp only [invertInjectiveLoop]
    split
    · rfl
    · rename_i hc
      have hv : v ∉ inv.keys := fun hv => hc ((Dict.contains_iff _ _).2 hv)
      apply ih
      rintro ⟨a1, a2⟩
      apply h
      simp only [Dict.values_cons, List.nodup_cons, List.mem_cons, forall_eq_or_imp]
      refine ⟨⟨fun hm => ?_, a1⟩, hv, fun w hw => ?_⟩
      · exact a2 v hm ((Dict.mem_keys_set _ _ _ _).2 (Or.inl rfl))
      · exact fun hk => a2 w hw ((Dict.mem_keys_set _ _ _ _).2 (Or.inr hk))

/-- C10: `invert_injective_mapping` fails exactly on non-injective mappings (with `AssertionError`);
otherwise the result is the converse relation, and inverting it again gives back `d` itself. -/
theorem C10_invert_injective (d : Dict K V) (hd : d.WF) :
    (¬ Spec.Injective d → invertInjectiveMapping d = .error .assertionError) ∧
    (Spec.Injective d → ∃ inv, invertInjectiveMapping d = .ok inv ∧ inv.WF ∧
      (∀ k v, inv.get? v = some k ↔ d.get? k = some v) ∧ invertInjectiveMapping inv = .ok d) := by
  rw [injective_iff_nodup d hd]
  constructor
  · intro h
    exact invertInjectiveLoop_error [] d (fun hh => h hh.1)
  · intro h
    have e := invertInjectiveLoop_ok ([] : Dict V K) d h (by simp)
    refine ⟨_, e, ?_, ?_, ?_⟩
    · show (List.map Prod.fst _).Nodup
      simpa [Dict.values, Function.comp_def] using h
    · intro k v
      have hwf : Dict.WF ([] ++ d.map (fun kv => (kv.2, kv.1))) := by
        show (List.map Prod.fst _).Nodup
        simpa [Dict.values, Function.comp_def] using h
      rw [Dict.get?_eq_some_iff hwf, Dict.get?_eq_some_iff hd]
      simp only [List.nil_append, List.mem_map, Prod.mk.injEq]
      constructor
      · rintro ⟨⟨a, b⟩, h1, rfl, rfl⟩; exact h1
      · intro h1; exact ⟨(k, v), h1, rfl, rfl⟩
    · unfold invertInjectiveMapping
      rw [invertInjectiveLoop_ok]
      · simp [Function.comp_def]
      · show (List.map Prod.snd _).Nodup
        simpa [Dict.keys, Dict.WF, Function.comp_def] using hd
      · simp

/-- C10: neither answer depends on the iteration order. -/
theorem C10_order_independent (d d' : Dict K V) (hd : d.WF) (hp : d.Perm d') :
    isInjective d = isInjective d' ∧
    ∀ inv inv', invertInjectiveMapping d = .ok inv → invertInjectiveMapping d' = .ok inv' →
      ∀ v, inv.get? v = inv'.get? v := by
  have hd' : d'.WF := (hp.map Prod.fst).nodup_iff.1 hd
  have hg : ∀ k, d.get? k = d'.get? k := Dict.get?_perm hd hp
  have hi : Spec.Injective d ↔ Spec.Injective d' := by simp only [Spec.Injective, hg]
  constructor
  · rw [Bool.eq_iff_iff, C10_is_injective_iff d hd, C10_is_injective_iff d' hd', hi]
  · intro inv inv' h1 h2 v
    have a := C10_invert_injective d hd
    have a' := C10_invert_injective d' hd'
    by_cases hI : Spec.Injective d
    · obtain ⟨i1, e1, w1, s1, _⟩ := a.2 hI
      obtain ⟨i2, e2, w2, s2, _⟩ := a'.2 (hi.1 hI)
      rw [e1] at h1; rw [e2] at h2
      cases h1; cases h2
      apply Option.ext
      intro k
      rw [s1, s2, hg]
    · rw [a.1 hI] at h1; cases h1

example : Dict.WF [(1, 10), (2, 20)] ∧ Spec.Injective [(1, 10), (2, 20)] ∧
    ¬ Spec.Injective [(1, 10), (2, 10)] := by
  refine ⟨by decide, ?_, ?_⟩
  · rw [← C10_is_injective_iff _ (by decide)]; decide
  · rw [← C10_is_injective_iff _ (by decide)]; decide

/-! ## C15: map_dict -/

theorem mapItems_keys {f : V → Except PyErr W} {items : List (K × V)} {r : Dict K W}
    (h : mapItems f items = .ok r) : r.map Prod.fst = items.map Prod.fst := by
  induction items generalizing r with
  | nil => cases h; rfl
  | cons kv items ih =>
    obtain ⟨k, v⟩ := kv
    simp only [mapItems] at h
    cases hf : f v with
    | error e => simp [hf] at h
    | ok w =>
      cases hm : mapItems f items with
      | error e => simp [hf, hm] at h
      | ok r' => simp [hf, hm] at h; subst h; simp [ih hm]

/-- C15: the copying variant keeps keys and their order, applies the function to each value, and fails
exactly when the function fails on some value (with the error of the first such entry). -/
theorem C15_map_dict_exact (f : V → Except PyErr W) (d : Dict K V) (hd : d.WF) :
    (∀ d', mapDict f d = .ok d' ↔
      d'.keys = d.keys ∧ ∀ i : Nat, (d'.values[i]?).map Except.ok = ((Dict.values d)[i]?).map f) ∧
    (∀ e, mapDict f d = .error e ↔ ∃ pre k v post, d = pre ++ (k, v) :: post ∧ f v = .error e ∧
      ∀ p ∈ pre, ∃ w, f p.2 = .ok w) := by
  have key1 : ∀ (d : Dict K V) (r : Dict K W), mapItems f d = .ok r ↔
      r.map Prod.fst = d.keys ∧ ∀ i : Nat, ((r.map Prod.snd)[i]?).map Except.ok = ((Dict.values d)[i]?).map f := by
    intro d
    induction d with
    | nil =>
      intro r
      cases r with
      | nil => simp [mapItems]
      | cons _ _ => simp [mapItems]
    | cons kv d ih =>
      obtain ⟨k, v⟩ := kv
      intro r
      simp only [mapItems]
      cases r with
      | nil =>
        simp only [List.map_nil, Dict.keys_cons, List.nil_eq, reduceCtorEq, false_and, iff_false]
        intro h
        cases hf : f v with
        | error e => simp [hf] at h
        | ok w => cases hm : mapItems f d <;> simp [hf, hm] at h
      | cons kw r =>
        obtain ⟨k', w⟩ := kw
        simp only [List.map_cons, Dict.keys_cons, List.cons.injEq, Dict.values_cons]
        have hsplit : (∀ i : Nat, ((w :: r.map Prod.snd)[i]?).map (Except.ok (ε := PyErr)) = ((v :: Dict.values d)[i]?).map f) ↔
            (f v = .ok w ∧ ∀ i : Nat, ((r.map Prod.snd)[i]?).map Except.ok = ((Dict.values d)[i]?).map f) := by
          constructor
          · intro h
            refine ⟨by have := h 0; simp at this; exact this.symm, fun i => by have := h (i+1); simpa using this⟩
          · rintro ⟨h1, h2⟩ i
            cases i with
            | zero => simp [h1]
            | succ i => simpa using h2 i
        rw [hsplit]
        have ihr := ih r
        cases hf : f v with
        | error e => simp
        | ok w' =>
          cases hm : mapItems f d with
          | error e =>
            rw [hm] at ihr; simp only [reduceCtorEq, false_iff] at ihr
            simp only [reduceCtorEq, false_iff]
            rintro ⟨⟨_, a⟩, _, b⟩; exact ihr ⟨a, b⟩
          | ok r' =>
            rw [hm] at ihr
            simp only [Except.ok.injEq, List.cons.injEq, Prod.mk.injEq] at ihr ⊢
            rw [ihr]; constructor
            · rintro ⟨⟨rfl, rfl⟩, a, b⟩; exact ⟨⟨rfl, a⟩, rfl, b⟩
            · rintro ⟨⟨rfl, a⟩, rfl, b⟩; exact ⟨⟨rfl, rfl⟩, a, b⟩
  have key2 : ∀ (d : Dict K V) e, mapItems f d = .error e ↔ ∃ pre k v post, d = pre ++ (k, v) :: post ∧
      f v = .error e ∧ ∀ p ∈ pre, ∃ w, f p.2 = .ok w := by
    intro d e
    induction d with
    | nil => simp [mapItems]
    | cons kv d ih =>
      obtain ⟨k, v⟩ := kv
      simp only [mapItems]
      cases hf : f v with
      | error e' =>
        simp only [Except.error.injEq]
        constructor
        · rintro rfl; exact ⟨[], k, v, d, rfl, hf, by simp⟩
        · rintro ⟨pre, k1, v1, post, h1, h2, h3⟩
          cases pre with
          | nil =>
            simp only [List.nil_append, List.cons.injEq, Prod.mk.injEq] at h1
            obtain ⟨⟨rfl, rfl⟩, rfl⟩ := h1
            rw [hf] at h2; exact Except.error.inj h2
          | cons p pre =>
            simp only [List.cons_append, List.cons.injEq] at h1
            obtain ⟨w, hw⟩ := h3 p (by simp)
            rw [← h1.1] at hw; rw [hf] at hw; cases hw
      | ok w =>
        have step : mapItems f ((k, v) :: d) = .error e ↔ mapItems f d = .error e := by
          simp only [mapItems, hf]
          cases mapItems f d <;> simp
        have step' := step
        simp only [mapItems, hf] at step'
        rw [step', ih]
        constructor
        · rintro ⟨pre, k1, v1, post, rfl, h2, h3⟩
          refine ⟨(k, v) :: pre, k1, v1, post, rfl, h2, ?_⟩
          intro p hp
          simp only [List.mem_cons] at hp
          rcases hp with rfl | hp
          · exact ⟨w, hf⟩
          · exact h3 p hp
        · rintro ⟨pre, k1, v1, post, h1, h2, h3⟩
          cases pre with
          | nil =>
            simp only [List.nil_append, List.cons.injEq, Prod.mk.injEq] at h1
            obtain ⟨⟨rfl, rfl⟩, rfl⟩ := h1
            rw [hf] at h2; cases h2
          | cons p pre =>
            simp only [List.cons_append, List.cons.injEq] at h1
            exact ⟨pre, k1, v1, post, h1.2, h2, fun q hq => h3 q (by simp [hq])⟩
  constructor
  · intro d'
    unfold mapDict
    cases hm : mapItems f d with
    | error e =>
      simp only [reduceCtorEq, false_iff]
      intro h
      have := (key1 d d').2 h
      rw [hm] at this; cases this
    | ok r =>
      have hk := mapItems_keys hm
      have hr : (r.map Prod.fst).Nodup := by rw [hk]; exact hd
      simp only [Except.ok.injEq, Dict.ofList_of_nodup r hr]
      have h1 := key1 d d'
      rw [hm, Except.ok.injEq] at h1
      exact h1
  · intro e
    rw [← key2]
    unfold mapDict
    cases mapItems f d <;> simp

/-- The loop of the in-place variant, run on the entries `post` after `pre` has been rewritten. -/
theorem mapDictLoop_ok (f : V → Except PyErr V) (pre post : Dict K V) (r : Dict K V)
    (hwf : (pre ++ post).WF) (h : mapItems f post = .ok r) :
    mapDictLoop f post (pre ++ post) = (pre ++ r, none) := by
  induction post generalizing pre r with
  | nil => cases h; rfl
  | cons kv post ih =>
    obtain ⟨k, v⟩ := kv
    simp only [mapItems] at h
    cases hf : f v with
    | error e => simp [hf] at h
    | ok w =>
      cases hm : mapItems f post with
      | error e => simp [hf, hm] at h
      | ok r' =>
        simp [hf, hm] at h; subst h
        simp only [mapDictLoop, hf]
        have hk : k ∉ Dict.keys pre := by
          unfold Dict.WF Dict.keys at hwf
          rw [List.map_append, List.nodup_append] at hwf
          intro hk; exact hwf.2.2 k hk k (by simp) rfl
        have hset : ∀ pre : Dict K V, k ∉ Dict.keys pre →
            Dict.set (pre ++ (k, v) :: post) k w = pre ++ (k, w) :: post := by
          intro pre
          induction pre with
          | nil => intro _; simp [Dict.set]
          | cons p pre ih2 =>
            intro hp
            obtain ⟨a, b⟩ := p
            simp only [Dict.keys_cons, List.mem_cons, not_or] at hp
            simp [Dict.set, Ne.symm hp.1, ih2 hp.2]
        rw [hset pre hk]
        have := ih (pre ++ [(k, w)]) r' (by
          unfold Dict.WF Dict.keys at hwf ⊢
          simpa using hwf) hm
        simpa using this

theorem mapDictLoop_error (f : V → Except PyErr V) (pre mid post : Dict K V) (k : K) (v : V) (e : PyErr)
    (r : Dict K V) (hwf : (pre ++ mid ++ (k, v) :: post).WF) (h : mapItems f mid = .ok r)
    (he : f v = .error e) :
    mapDictLoop f (mid ++ (k, v) :: post) (pre ++ mid ++ (k, v) :: post) =
      (pre ++ r ++ (k, v) :: post, some e) := by
  induction mid generalizing pre r with
  | nil => cases h; simp [mapDictLoop, he]
  | cons kv mid ih =>
    obtain ⟨a, b⟩ := kv
    simp only [mapItems] at h
    cases hf : f b with
    | error e => simp [hf] at h
    | ok w =>
      cases hm : mapItems f mid with
      | error e => simp [hf, hm] at h
      | ok r' =>
        simp [hf, hm] at h; subst h
        simp only [List.cons_append, mapDictLoop, hf]
        have hk : a ∉ Dict.keys pre := by
          unfold Dict.WF Dict.keys at hwf
          rw [List.append_assoc, List.map_append, List.nodup_append] at hwf
          intro hk; exact hwf.2.2 a hk a (by simp) rfl
        have hset : ∀ (pre rest : Dict K V), a ∉ Dict.keys pre →
            Dict.set (pre ++ (a, b) :: rest) a w = pre ++ (a, w) :: rest := by
          intro pre rest
          induction pre with
          | nil => intro _; simp [Dict.set]
          | cons p pre ih2 =>
            intro hp
            obtain ⟨a', b'⟩ := p
            simp only [Dict.keys_cons, List.mem_cons, not_or] at hp
            simp [Dict.set, Ne.symm hp.1, ih2 hp.2]
        have e0 : pre ++ (a, b) :: mid ++ (k, v) :: post = pre ++ (a, b) :: (mid ++ (k, v) :: post) := by simp
        rw [e0, hset pre _ hk]
        have := ih (pre ++ [(a, w)]) r' (by
          unfold Dict.WF Dict.keys at hwf ⊢
          simpa using hwf) hm
        simpa using this

/-- C15: the in-place variant leaves the dictionary equal to the result of the copying variant; if the
function raises, exactly the entries before the raising one have been replaced. -/
theorem C15_in_place_agrees (f : V → Except PyErr V) (d : Dict K V) (hd : d.WF) :
    (∀ d', mapDict f d = .ok d' → mapDictInPlace f d = (d', none)) ∧
    (∀ pre k v post e, d = pre ++ (k, v) :: post → f v = .error e → (∀ p ∈ pre, ∃ w, f p.2 = .ok w) →
      ∃ pre', mapDict f pre = .ok pre' ∧ mapDictInPlace f d = (pre' ++ (k, v) :: post, some e)) := by
  constructor
  · intro d' h
    unfold mapDict at h
    cases hm : mapItems f d with
    | error e => simp [hm] at h
    | ok r =>
      have hr : (r.map Prod.fst).Nodup := by rw [mapItems_keys hm]; exact hd
      simp only [hm, Except.ok.injEq, Dict.ofList_of_nodup r hr] at h
      subst h
      have := mapDictLoop_ok f [] d r hd hm
      simpa [mapDictInPlace] using this
  · rintro pre k v post e rfl he hpre
    obtain ⟨r, hr⟩ : ∃ r, mapItems f pre = .ok r := by
      clear hd
      induction pre with
      | nil => exact ⟨[], rfl⟩
      | cons p pre ih =>
        obtain ⟨w, hw⟩ := hpre p (by simp)
        obtain ⟨r, hr⟩ := ih (fun q hq => hpre q (by simp [hq]))
        exact ⟨(p.1, w) :: r, by simp [mapItems, hw, hr]⟩
    have hpre' : (r.map Prod.fst).Nodup := by
      rw [mapItems_keys hr]
      unfold Dict.WF Dict.keys at hd
      rw [List.map_append, List.nodup_append] at hd
      exact hd.1
    refine ⟨r, by simp [mapDict, hr, Dict.ofList_of_nodup r hpre'], ?_⟩
    have := mapDictLoop_error f [] pre post k v e r (by simpa using hd) hr he
    simpa [mapDictInPlace] using this

example : mapDictInPlace (fun n => if n = 3 then .error .keyError else .ok (n * 10)) [(1, 2), (5, 3), (6, 4)]
    = ([(1, 20), (5, 3), (6, 4)], some .keyError) := by decide

/-! ## C11: chain_mapping -/

/-- Following a value through a sequence of finite maps. -/
def Spec.follow : List (Dict V V) → V → Option V
  | [], v => some v
  | d :: ds, v => (d.get? v).bind (Spec.follow ds)

omit [DecidableEq K] in
theorem getElem?_values_keys (d : Dict K V) (i : Nat) :
    d[i]? = (d.keys[i]?).bind (fun k => (d.values[i]?).map (fun v => (k, v))) := by
  simp only [Dict.keys, Dict.values, List.getElem?_map]
  cases d[i]? <;> simp

theorem get?_mapItems {f : V → Except PyErr W} {d : Dict K V} {r : Dict K W} (h : mapItems f d = .ok r)
    (k : K) : (r.get? k).map Except.ok = (d.get? k).map f := by
  induction d generalizing r with
  | nil => cases h; rfl
  | cons kv d ih =>
    obtain ⟨a, v⟩ := kv
    simp only [mapItems] at h
    cases hf : f v with
    | error e => simp [hf] at h
    | ok w =>
      cases hm : mapItems f d with
      | error e => simp [hf, hm] at h
      | ok r' =>
        simp [hf, hm] at h; subst h
        simp only [Dict.get?]
        split
        · simp [hf]
        · exact ih hm

theorem mapItems_total_or_error (f : V → Except PyErr W) (d : Dict K V) :
    (∃ r, mapItems f d = .ok r) ∨ ∃ e, mapItems f d = .error e := by
  cases mapItems f d <;> simp

theorem mapItems_error_split {f : V → Except PyErr W} {d : Dict K V} {e : PyErr}
    (h : mapItems f d = .error e) : ∃ pre k v post r, d = pre ++ (k, v) :: post ∧ f v = .error e ∧
      mapItems f pre = .ok r := by
  induction d with
  | nil => simp [mapItems] at h
  | cons kv d ih =>
    obtain ⟨k, v⟩ := kv
    simp only [mapItems] at h
    cases hf : f v with
    | error e' => simp [hf] at h; subst h; exact ⟨[], k, v, d, [], rfl, hf, rfl⟩
    | ok w =>
      cases hm : mapItems f d with
      | ok r => simp [hf, hm] at h
      | error e' =>
        simp [hf, hm] at h; subst h
        obtain ⟨pre, k1, v1, post, r, rfl, h2, h3⟩ := ih hm
        exact ⟨(k, v) :: pre, k1, v1, post, (k, w) :: r, rfl, h2, by simp [mapItems, hf, h3]⟩

theorem mapDictInPlace_cases (f : V → Except PyErr V) (d : Dict K V) (hd : d.WF) :
    (∃ r, mapItems f d = .ok r ∧ mapDictInPlace f d = (r, none)) ∨
    (∃ e d' v k, mapItems f d = .error e ∧ mapDictInPlace f d = (d', some e) ∧ (k, v) ∈ d ∧ f v = .error e) := by
  rcases mapItems_total_or_error f d with ⟨r, hr⟩ | ⟨e, he⟩
  · left
    refine ⟨r, hr, ?_⟩
    have := mapDictLoop_ok f [] d r hd hr
    simpa [mapDictInPlace] using this
  · right
    obtain ⟨pre, k, v, post, r, rfl, h2, h3⟩ := mapItems_error_split he
    have := mapDictLoop_error f [] pre post k v e r (by simpa using hd) h3 h2
    exact ⟨e, _, v, k, he, by simpa [mapDictInPlace] using this, by simp, h2⟩

theorem follow_append (ds : List (Dict V V)) (d : Dict V V) (v : V) :
    Spec.follow (ds ++ [d]) v = (Spec.follow ds v).bind d.get? := by
  induction ds generalizing v with
  | nil => simp [Spec.follow]
  | cons e ds ih =>
    simp only [List.cons_append, Spec.follow]
    cases e.get? v <;> simp [ih]

/-- Main invariant of the loop of `chain_mapping`. -/
theorem chainLoop_spec (rs : List Nat) (st : DictStore V) (b : Dict V V) (hb : b.WF)
    (hrs : ∀ r ∈ rs, r < st.length) :
    (∃ b', chainLoop st.length rs (st ++ [b]) = (st ++ [b'], none) ∧ b'.keys = b.keys ∧
      ∀ k, b'.get? k = (b.get? k).bind (Spec.follow (rs.map (fun r => st.getD r [])))
        ∧ ((b.get? k).isSome → (b'.get? k).isSome)) ∨
    (∃ b' e, chainLoop st.length rs (st ++ [b]) = (st ++ [b'], some .keyError) ∧ e ∈ b.values ∧
      Spec.follow (rs.map (fun r => st.getD r [])) e = none) := by
  induction rs generalizing b with
  | nil =>
    left
    refine ⟨b, rfl, rfl, ?_⟩
    intro k; constructor
    · simp only [List.map_nil]; cases b.get? k <;> simp [Spec.follow]
    · exact id
  | cons r rs ih =>
    have hr : r < st.length := hrs r (by simp)
    have e1 : (st ++ [b]).getD r [] = st.getD r [] := by
      simp only [List.getD_eq_getElem?_getD]; rw [List.getElem?_append_left hr]
    have e2 : (st ++ [b]).getD st.length [] = b := by
      simp [List.getD_eq_getElem?_getD]
    have eset : ∀ d, (st ++ [b]).set st.length d = st ++ [d] := by
      intro d; rw [List.set_append_right _ _ (Nat.le_refl _)]; simp
    simp only [chainLoop, e1, e2]
    rcases mapDictInPlace_cases (fun v => Dict.getItem (st.getD r []) v) b hb with
      ⟨r1, hm, hin⟩ | ⟨e, d', v, k, hm, hin, hmem, hf⟩
    · rw [hin]
      simp only [eset]
      have hk := mapItems_keys hm
      have hr1 : r1.WF := by unfold Dict.WF Dict.keys; rw [hk]; exact hb
      have hget : ∀ k, r1.get? k = (b.get? k).bind (st.getD r []).get? := by
        intro k
        have := get?_mapItems hm k
        cases h1 : b.get? k with
        | none => rw [h1] at this; cases h2 : r1.get? k with
          | none => rfl
          | some _ => simp [h2] at this
        | some v =>
          rw [h1] at this
          cases h2 : r1.get? k with
          | none => simp [h2] at this
          | some w =>
            simp only [h2, Option.map_some, Option.some.injEq, Dict.getItem] at this
            simp only [Option.bind_some]
            cases h3 : (st.getD r []).get? v with
            | none => rw [h3] at this; cases this
            | some x => rw [h3] at this; cases this; rfl
      have hsome : ∀ k, (b.get? k).isSome → (r1.get? k).isSome := by
        intro k h
        rw [Dict.get?_isSome_iff] at h ⊢
        show k ∈ r1.map Prod.fst
        rw [hk]; exact h
      rcases ih r1 hr1 (fun x hx => hrs x (by simp [hx])) with ⟨b', h1, h2, h3⟩ | ⟨b', e, h1, h2, h3⟩
      · left
        refine ⟨b', h1, h2.trans hk, ?_⟩
        intro k
        constructor
        · rw [(h3 k).1, hget k]
          simp only [List.map_cons]
          cases b.get? k <;> simp [Spec.follow]
        · intro h; exact (h3 k).2 (hsome k h)
      · right
        -- the value `e` of `r1` comes from a value of `b`
        simp only [Dict.values, List.mem_map] at h2
        obtain ⟨⟨k, w⟩, hkw, rfl⟩ := h2
        have hg := (Dict.get?_eq_some_iff hr1 k w).2 hkw
        rw [hget k] at hg
        cases hb1 : b.get? k with
        | none => simp [hb1] at hg
        | some v =>
          simp only [hb1, Option.bind_some] at hg
          refine ⟨b', v, h1, ?_, ?_⟩
          · exact List.mem_map.2 ⟨(k, v), Dict.mem_of_get?_eq_some hb1, rfl⟩
          · simp only [List.map_cons, Spec.follow, hg, Option.bind_some]; exact h3
    · right
      rw [hin]
      simp only [eset]
      have hk : e = .keyError ∧ (st.getD r []).get? v = none := by
        simp only [Dict.getItem] at hf
        cases h3 : (st.getD r []).get? v with
        | none => rw [h3] at hf; cases hf; exact ⟨rfl, rfl⟩
        | some _ => rw [h3] at hf; cases hf
      refine ⟨d', v, by rw [hk.1], ?_, ?_⟩
      · exact List.mem_map.2 ⟨(k, v), hmem, rfl⟩
      · simp only [List.map_cons, Spec.follow, hk.2, Option.bind_none]

/-- C11: `chain_mapping` composes.  On success the result is a fresh dictionary with the keys of the
first argument (in order) and the values obtained by following the later arguments; it fails with
`KeyError` exactly when some value cannot be followed to the end.  In every case the dictionaries that
existed before the call are unchanged. -/
theorem C11_chain_mapping (st : DictStore V) (r : Nat) (rs : List Nat) (_hr : r < st.length)
    (hrs : ∀ x ∈ rs, x < st.length) (hwf : (st.getD r []).WF) :
    (∃ b, ((chainMapping st (r :: rs)).1 = st ++ [b])) ∧
    ((∃ b, chainMapping st (r :: rs) = (st ++ [b], .ok st.length) ∧ b.keys = (st.getD r []).keys ∧
        ∀ k, b.get? k = ((st.getD r []).get? k).bind (Spec.follow (rs.map (fun x => st.getD x [])))) ↔
      ∀ v ∈ (st.getD r []).values, (Spec.follow (rs.map (fun x => st.getD x [])) v).isSome) ∧
    ((chainMapping st (r :: rs)).2 = .error .keyError ↔
      ∃ v ∈ (st.getD r []).values, Spec.follow (rs.map (fun x => st.getD x [])) v = none) := by
  have := chainLoop_spec rs st (st.getD r []) hwf hrs
  simp only [chainMapping]
  rcases this with ⟨b', h1, h2, h3⟩ | ⟨b', e, h1, h2, h3⟩
  · rw [h1]
    have hall : ∀ v ∈ (st.getD r []).values, (Spec.follow (rs.map (fun x => st.getD x [])) v).isSome := by
      intro v hv
      simp only [Dict.values, List.mem_map] at hv
      obtain ⟨⟨k, w⟩, hkw, rfl⟩ := hv
      have hg := (Dict.get?_eq_some_iff hwf k w).2 hkw
      have hs := (h3 k).2 (by rw [hg]; rfl)
      rw [(h3 k).1, hg] at hs
      simpa using hs
    refine ⟨⟨b', rfl⟩, ⟨fun _ => hall, fun _ => ⟨b', rfl, h2, fun k => (h3 k).1⟩⟩, ?_⟩
    simp only [reduceCtorEq, false_iff]
    rintro ⟨v, hv, hn⟩
    have := hall v hv; rw [hn] at this; cases this
  · rw [h1]
    refine ⟨⟨b', rfl⟩, ⟨?_, ?_⟩, ?_⟩
    · rintro ⟨b, hb, _⟩; simp at hb
    · intro h; have := h e h2; rw [h3] at this; cases this
    · simp only [true_iff]; exact ⟨e, h2, h3⟩

/-- C11: with no argument the call fails with `IndexError` and changes nothing. -/
theorem C11_chain_mapping_empty (st : DictStore V) :
    chainMapping st [] = (st, .error .indexError) := rfl

example : chainMapping [[(1, 2), (5, 2)], [(2, 7)]] [0, 1] =
    ([[(1, 2), (5, 2)], [(2, 7)], [(1, 7), (5, 7)]], .ok 2) := by decide

/-! ## C13: merge_dicts -/

theorem mergeStep_get? (u : Dict K (List V)) (kv : K × List V) (k : K) :
    (mergeStep u kv).get? k = if kv.1 = k then some (dedup (((u.get? k).getD []) ++ kv.2)) else u.get? k := by
  unfold mergeStep
  cases h : u.get? kv.1 with
  | none =>
    simp only [Dict.get?_set]; split
    · rename_i e; subst e; simp [h]
    · rfl
  | some s =>
    simp only [Dict.get?_set]; split
    · rename_i e; subst e; simp [h]
    · rfl

theorem merge_fold_mem (items : List (K × List V)) (u : Dict K (List V)) (k : K) (v : V) :
    (v ∈ ((items.foldl mergeStep u).get? k).getD [] ↔
      v ∈ (u.get? k).getD [] ∨ ∃ kv ∈ items, kv.1 = k ∧ v ∈ kv.2) ∧
    (((items.foldl mergeStep u).get? k).isSome ↔ (u.get? k).isSome ∨ k ∈ items.map Prod.fst) := by
  induction items generalizing u with
  | nil => simp
  | cons kv items ih =>
    rw [List.foldl_cons]
    obtain ⟨ih1, ih2⟩ := ih (mergeStep u kv)
    rw [ih1, ih2, mergeStep_get?]
    by_cases h : kv.1 = k
    · subst h
      simp [List.mem_append, or_assoc]
    · simp [h, Ne.symm h]

/-- C13: the value of a key is the union of its values over the arguments that have it; the keys are
the keys of the arguments. -/
theorem C13_merge_is_union (args : List (Dict K (List V))) (hwf : ∀ d ∈ args, d.WF) (k : K) :
    (k ∈ (mergeDicts args).keys ↔ ∃ d ∈ args, k ∈ d.keys) ∧
    (∀ v, v ∈ ((mergeDicts args).get? k).getD [] ↔ ∃ d ∈ args, ∃ vs, d.get? k = some vs ∧ v ∈ vs) := by
  constructor
  · rw [← Dict.get?_isSome_iff]
    unfold mergeDicts
    rw [(merge_fold_mem_isSome args.flatten k)]
    simp only [List.mem_map, List.mem_flatten, Dict.keys]
    constructor
    · rintro ⟨kv, ⟨d, hd, hkv⟩, rfl⟩; exact ⟨d, hd, kv, hkv, rfl⟩
    · rintro ⟨d, hd, kv, hkv, rfl⟩; exact ⟨kv, ⟨d, hd, hkv⟩, rfl⟩
  · intro v
    unfold mergeDicts
    rw [(merge_fold_mem args.flatten [] k v).1]
    simp only [Dict.get?_nil, Option.getD_none, List.not_mem_nil, false_or, List.mem_flatten]
    constructor
    · rintro ⟨⟨a, vs⟩, ⟨d, hd, hkv⟩, rfl, hv⟩
      exact ⟨d, hd, vs, (Dict.get?_eq_some_iff (hwf d hd) _ _).2 hkv, hv⟩
    · rintro ⟨d, hd, vs, hg, hv⟩
      exact ⟨(k, vs), ⟨d, hd, Dict.mem_of_get?_eq_some hg⟩, rfl, hv⟩
where
  merge_fold_mem_isSome (items : List (K × List V)) (k : K) :
      ((items.foldl mergeStep []).get? k).isSome ↔ k ∈ items.map Prod.fst := by
    by_cases h : Nonempty V
    · obtain ⟨v⟩ := h
      rw [(merge_fold_mem items [] k v).2]; simp
    · -- same induction, without needing a value
      have key : ∀ (items : List (K × List V)) (u : Dict K (List V)),
          ((items.foldl mergeStep u).get? k).isSome ↔ (u.get? k).isSome ∨ k ∈ items.map Prod.fst := by
        intro items
        induction items with
        | nil => simp
        | cons kv items ih =>
          intro u
          rw [List.foldl_cons, ih, mergeStep_get?]
          by_cases h : kv.1 = k
          · subst h; simp
          · simp [h, Ne.symm h]
      rw [key]; simp

/-- Two dictionaries of sets are equal as Python values. -/
def Spec.SameSets (d d' : Dict K (List V)) : Prop :=
  ∀ k, (k ∈ d.keys ↔ k ∈ d'.keys) ∧ ∀ v, v ∈ (d.get? k).getD [] ↔ v ∈ (d'.get? k).getD []

theorem mergeDicts_WF (args : List (Dict K (List V))) : (mergeDicts args).WF := by
  unfold mergeDicts
  have : ∀ (items : List (K × List V)) (u : Dict K (List V)), u.WF → (items.foldl mergeStep u).WF := by
    intro items
    induction items with
    | nil => intro u h; exact h
    | cons kv items ih =>
      intro u h
      rw [List.foldl_cons]
      apply ih
      unfold mergeStep
      split <;> exact Dict.WF_set h _ _
  exact this _ _ Dict.WF_nil

/-- C13: argument order and repetition do not matter. -/
theorem C13_merge_order (args args' : List (Dict K (List V))) (hwf : ∀ d ∈ args, d.WF)
    (h : ∀ d, d ∈ args ↔ d ∈ args') : Spec.SameSets (mergeDicts args) (mergeDicts args') := by
  intro k
  have a := C13_merge_is_union args hwf k
  have a' := C13_merge_is_union args' (fun d hd => hwf d ((h d).2 hd)) k
  simp only [a.1, a'.1, a.2, a'.2, h]
  exact ⟨trivial, fun _ => trivial⟩

/-- C13: merging a merged dictionary with others is merging everything. -/
theorem C13_merge_assoc (as bs : List (Dict K (List V))) (ha : ∀ d ∈ as, d.WF) (hb : ∀ d ∈ bs, d.WF) :
    Spec.SameSets (mergeDicts (mergeDicts as :: bs)) (mergeDicts (as ++ bs)) := by
  intro k
  have hwf1 : ∀ d ∈ mergeDicts as :: bs, d.WF := by
    intro d hd
    simp only [List.mem_cons] at hd
    rcases hd with rfl | hd
    · exact mergeDicts_WF as
    · exact hb d hd
  have hwf2 : ∀ d ∈ as ++ bs, d.WF := by
    intro d hd
    rcases List.mem_append.1 hd with h | h
    · exact ha d h
    · exact hb d h
  have a := C13_merge_is_union _ hwf1 k
  have a' := C13_merge_is_union _ hwf2 k
  have a0 := C13_merge_is_union as ha k
  refine ⟨?_, ?_⟩
  · rw [a.1, a'.1]
    simp only [List.mem_cons, List.mem_append]
    constructor
    · rintro ⟨d, rfl | hd, hk⟩
      · obtain ⟨d, hd, hk⟩ := a0.1.1 hk; exact ⟨d, Or.inl hd, hk⟩
      · exact ⟨d, Or.inr hd, hk⟩
    · rintro ⟨d, hd | hd, hk⟩
      · exact ⟨_, Or.inl rfl, a0.1.2 ⟨d, hd, hk⟩⟩
      · exact ⟨d, Or.inr hd, hk⟩
  · intro v
    rw [a.2, a'.2]
    simp only [List.mem_cons, List.mem_append]
    constructor
    · rintro ⟨d, rfl | hd, vs, hg, hv⟩
      · obtain ⟨d, hd, vs', hg', hv'⟩ := (a0.2 v).1 (by rw [hg]; exact hv)
        exact ⟨d, Or.inl hd, vs', hg', hv'⟩
      · exact ⟨d, Or.inr hd, vs, hg, hv⟩
    · rintro ⟨d, hd | hd, vs, hg, hv⟩
      · have := (a0.2 v).2 ⟨d, hd, vs, hg, hv⟩
        cases hm : (mergeDicts as).get? k with
        | none => simp [hm] at this
        | some s => rw [hm] at this; exact ⟨_, Or.inl rfl, s, hm, this⟩
      · exact ⟨d, Or.inr hd, vs, hg, hv⟩

example : mergeDicts [[(1, [10, 10]), (2, [20])], [(1, [30, 10])]] = [(1, [10, 30]), (2, [20])] := by decide

/-! ## C14: partial_map, filtered_map -/

/-- C14: on a function that does not raise, results and rejects are exactly the two filters, in order. -/
theorem C14_partial_map_split {A B : Type} (truthy : B → Bool) (f : A → Except PyErr B) (g : A → B)
    (xs : List A) (h : ∀ x ∈ xs, f x = .ok (g x)) :
    partialMap truthy f xs = .ok ((xs.map g).filter truthy, xs.filter (fun x => !truthy (g x))) ∧
    filteredMap truthy f xs = .ok ((xs.map g).filter truthy) ∧
    ((xs.map g).filter truthy).length + (xs.filter (fun x => !truthy (g x))).length = xs.length := by
  induction xs with
  | nil => exact ⟨rfl, rfl, rfl⟩
  | cons x xs ih =>
    obtain ⟨i1, i2, i3⟩ := ih (fun y hy => h y (by simp [hy]))
    have hx := h x (by simp)
    simp only [partialMap, filteredMap, hx, i1, i2, List.map_cons, List.filter_cons, List.length_cons]
    cases truthy (g x) <;> simp <;> omega

/-- C14: the call fails exactly when `f` raises on some element, with the first such exception. -/
theorem C14_partial_map_error {A B : Type} (truthy : B → Bool) (f : A → Except PyErr B) (xs : List A)
    (e : PyErr) :
    (partialMap truthy f xs = .error e ↔ ∃ pre x post, xs = pre ++ x :: post ∧ f x = .error e ∧
      ∀ y ∈ pre, ∃ b, f y = .ok b) ∧
    (filteredMap truthy f xs = .error e ↔ partialMap truthy f xs = .error e) := by
  induction xs with
  | nil => simp [partialMap, filteredMap]
  | cons x xs ih =>
    obtain ⟨i1, i2⟩ := ih
    cases hf : f x with
    | error e' =>
      simp only [partialMap, filteredMap, hf, Except.error.injEq, and_true]
      constructor
      · rintro rfl; exact ⟨[], x, xs, rfl, hf, by simp⟩
      · rintro ⟨pre, y, post, h1, h2, h3⟩
        cases pre with
        | nil =>
          simp only [List.nil_append, List.cons.injEq] at h1
          rw [← h1.1, hf] at h2; exact Except.error.inj h2
        | cons p pre =>
          simp only [List.cons_append, List.cons.injEq] at h1
          obtain ⟨b, hb⟩ := h3 p (by simp)
          rw [← h1.1, hf] at hb; cases hb
    | ok b =>
      have s1 : partialMap truthy f (x :: xs) = .error e ↔ partialMap truthy f xs = .error e := by
        simp only [partialMap, hf]
        cases partialMap truthy f xs with
        | error e' => simp
        | ok p => cases truthy b <;> simp
      have s2 : filteredMap truthy f (x :: xs) = .error e ↔ filteredMap truthy f xs = .error e := by
        simp only [filteredMap, hf]
        cases filteredMap truthy f xs with
        | error e' => simp
        | ok p => cases truthy b <;> simp
      rw [s1, s2]
      refine ⟨?_, i2⟩
      rw [i1]
      constructor
      · rintro ⟨pre, y, post, rfl, h2, h3⟩
        refine ⟨x :: pre, y, post, rfl, h2, ?_⟩
        intro z hz
        simp only [List.mem_cons] at hz
        rcases hz with rfl | hz
        · exact ⟨b, hf⟩
        · exact h3 z hz
      · rintro ⟨pre, y, post, h1, h2, h3⟩
        cases pre with
        | nil =>
          simp only [List.nil_append, List.cons.injEq] at h1
          rw [← h1.1, hf] at h2; cases h2
        | cons p pre =>
          simp only [List.cons_append, List.cons.injEq] at h1
          exact ⟨pre, y, post, h1.2, h2, fun z hz => h3 z (by simp [hz])⟩

example : partialMap (fun n => n != 0) (fun n => .ok (n - 2)) [1, 5, 2, 7] = .ok ([3, 5], [1, 2]) := by decide

end
end Cjk
