import Verif.Props.Maps
/-!
# Laws of the functions on mappings (C161)

`cjktools/maps.py` treats dictionaries as functions and relations; these are the laws that a user who
combines the functions relies on.
-/

namespace Cjk
open Py

section
variable {K V W X : Type} [DecidableEq K] [DecidableEq V] [DecidableEq W] [DecidableEq X]
set_option linter.unusedSectionVars false

/-! ### map_dict -/

theorem mapItems_fusion (g : V → Except PyErr W) (f : W → Except PyErr X) (d : List (K × V)) (r : Dict K W)
    (h : mapItems g d = .ok r) : mapItems f r = mapItems (fun v => g v >>= f) d := by
  induction d generalizing r with
  | nil => cases h; rfl
  | cons kv d ih =>
    obtain ⟨k, v⟩ := kv
    simp only [mapItems] at h
    cases hg : g v with
    | error e => rw [hg] at h; cases h
    | ok w =>
      rw [hg] at h
      cases hm : mapItems g d with
      | error e => rw [hm] at h; cases h
      | ok r' =>
        rw [hm] at h
        have e : (k, w) :: r' = r := by injection h
        subst e
        simp only [mapItems, hg, ih r' hm]
        rfl

/-- C161: two `map_dict` in a row are one with the composed method; the identity changes nothing. -/
theorem C161_map_fusion (d : Dict K V) (hd : d.WF) :
    mapDict (fun v => Except.ok v) d = .ok d ∧
    ∀ (g : V → Except PyErr W) (f : W → Except PyErr X) (d' : Dict K W), mapDict g d = .ok d' →
      mapDict f d' = mapDict (fun v => g v >>= f) d := by
  constructor
  · have : mapItems (fun v => Except.ok v) d = (.ok d : Except PyErr (Dict K V)) := by
      clear hd
      induction d with
      | nil => rfl
      | cons kv d ih => simp only [mapItems]; rw [ih]
    unfold mapDict
    rw [this]
    simp only [Dict.ofList_of_nodup d hd]
  · intro g f d' h
    unfold mapDict at h
    cases hm : mapItems g d with
    | error e => rw [hm] at h; cases h
    | ok r =>
      rw [hm] at h
      have hr : (r.map Prod.fst).Nodup := by rw [mapItems_keys hm]; exact hd
      have e : r = d' := by
        have : Dict.ofList r = d' := by injection h
        rwa [Dict.ofList_of_nodup r hr] at this
      subst e
      unfold mapDict
      rw [mapItems_fusion g f d r hm]

/-! ### chain_mapping -/

/-- The dictionary that a call of `chain_mapping` returns, or its exception. -/
def Spec.chained (p : DictStore V × Except PyErr Nat) : Except PyErr (Dict V V) :=
  p.2.map (fun i => p.1.getD i [])

theorem dict_ext_keys {d d' : Dict K V} (hd : d.WF) (hk : d.keys = d'.keys)
    (hg : ∀ k, Dict.get? d k = Dict.get? d' k) : d = d' := by
  induction d generalizing d' with
  | nil =>
    cases d' with
    | nil => rfl
    | cons p d' => simp [Dict.keys] at hk
  | cons p d ih =>
    cases d' with
    | nil => simp [Dict.keys] at hk
    | cons q d' =>
      obtain ⟨k, v⟩ := p
      obtain ⟨k', v'⟩ := q
      simp only [Dict.keys_cons, List.cons.injEq] at hk
      obtain ⟨rfl, hk⟩ := hk
      rw [Dict.WF_cons] at hd
      have h0 := hg k
      simp only [Dict.get?_cons, if_true, Option.some.injEq] at h0
      subst h0
      rw [ih hd.2 hk]
      intro x
      by_cases hx : k = x
      · subst hx
        rw [(Dict.get?_eq_none_iff d k).2 hd.1, (Dict.get?_eq_none_iff d' k).2 (hk ▸ hd.1)]
      · have := hg x
        simpa only [Dict.get?_cons, if_neg hx] using this

/-- What `chain_mapping` returns, in one formula. -/
theorem chained_iff (st : DictStore V) (r : Nat) (rs : List Nat) (hr : r < st.length)
    (hrs : ∀ x ∈ rs, x < st.length) (hwf : (st.getD r []).WF) :
    (∀ b, Spec.chained (chainMapping st (r :: rs)) = .ok b ↔ b.keys = (st.getD r []).keys ∧
      (∀ v ∈ (st.getD r []).values, (Spec.follow (rs.map (fun x => st.getD x [])) v).isSome) ∧
      ∀ k, Dict.get? b k = ((st.getD r []).get? k).bind (Spec.follow (rs.map (fun x => st.getD x [])))) ∧
    (∀ e, Spec.chained (chainMapping st (r :: rs)) = .error e ↔ e = .keyError ∧
      ∃ v ∈ (st.getD r []).values, Spec.follow (rs.map (fun x => st.getD x [])) v = none) := by
  obtain ⟨_, h2, h3⟩ := C11_chain_mapping st r rs hr hrs hwf
  by_cases hall : ∀ v ∈ (st.getD r []).values, (Spec.follow (rs.map (fun x => st.getD x [])) v).isSome
  · obtain ⟨b0, hb, hk, hg⟩ := h2.2 hall
    have he : Spec.chained (chainMapping st (r :: rs)) = .ok b0 := by
      rw [hb]
      show Except.ok ((st ++ [b0]).getD st.length []) = _
      simp
    rw [he]
    constructor
    · intro b
      constructor
      · intro h
        cases h
        exact ⟨hk, hall, hg⟩
      · rintro ⟨a1, _, a3⟩
        congr 1
        refine dict_ext_keys ?_ (hk.trans a1.symm) (fun k => by rw [hg k, a3 k])
        unfold Dict.WF; rw [hk]; exact hwf
    · intro e
      constructor
      · intro h; cases h
      · rintro ⟨_, v, hv, hn⟩
        have := hall v hv
        rw [hn] at this; cases this
  · have hex : ∃ v ∈ (st.getD r []).values, Spec.follow (rs.map (fun x => st.getD x [])) v = none := by
      refine Classical.byContradiction (fun hcon => hall (fun v hv => ?_))
      cases hf : Spec.follow (rs.map (fun x => st.getD x [])) v with
      | none => exact absurd ⟨v, hv, hf⟩ hcon
      | some w => rfl
    have he : Spec.chained (chainMapping st (r :: rs)) = .error .keyError := by
      unfold Spec.chained
      rw [h3.2 hex]; rfl
    rw [he]
    constructor
    · intro b
      constructor
      · intro h; cases h
      · intro h; exact absurd h.2.1 hall
    · intro e
      constructor
      · intro h; cases h; exact ⟨rfl, hex⟩
      · rintro ⟨rfl, _⟩; rfl

theorem follow_append_list (ds es : List (Dict V V)) (v : V) :
    Spec.follow (ds ++ es) v = (Spec.follow ds v).bind (Spec.follow es) := by
  induction ds generalizing v with
  | nil => rfl
  | cons d ds ih =>
    simp only [List.cons_append, Spec.follow]
    cases Dict.get? d v with
    | none => rfl
    | some w => exact ih w

/-- Two calls that start from dictionaries with the same keys and go the same ways return the same. -/
theorem chained_congr {st st' : DictStore V} {r r' : Nat} {rs rs' : List Nat}
    (hr : r < st.length) (hrs : ∀ x ∈ rs, x < st.length) (hwf : (st.getD r []).WF)
    (hr' : r' < st'.length) (hrs' : ∀ x ∈ rs', x < st'.length) (hwf' : (st'.getD r' []).WF)
    (hk : (st.getD r []).keys = (st'.getD r' []).keys)
    (hg : ∀ k, ((st.getD r []).get? k).bind (Spec.follow (rs.map (fun x => st.getD x []))) =
      ((st'.getD r' []).get? k).bind (Spec.follow (rs'.map (fun x => st'.getD x [])))) :
    Spec.chained (chainMapping st (r :: rs)) = Spec.chained (chainMapping st' (r' :: rs')) := by
  obtain ⟨a1, a2⟩ := chained_iff st r rs hr hrs hwf
  obtain ⟨b1, b2⟩ := chained_iff st' r' rs' hr' hrs' hwf'
  have tot : ∀ (d : Dict V V), d.WF → ∀ f : V → Option V, (∀ v ∈ d.values, (f v).isSome) ↔
      ∀ k ∈ d.keys, ((Dict.get? d k).bind f).isSome := by
    intro d hd f
    constructor
    · intro h k hk
      obtain ⟨v, hv⟩ := (Dict.mem_keys_iff d k).1 hk
      rw [(Dict.get?_eq_some_iff hd k v).2 hv]
      exact h v (List.mem_map.2 ⟨_, hv, rfl⟩)
    · intro h v hv
      obtain ⟨⟨k, v'⟩, hm, rfl⟩ := List.mem_map.1 hv
      have := h k ((Dict.mem_keys_iff d k).2 ⟨_, hm⟩)
      rw [(Dict.get?_eq_some_iff hd k v').2 hm] at this
      exact this
  cases h : Spec.chained (chainMapping st (r :: rs)) with
  | ok b =>
    symm
    obtain ⟨c1, c2, c3⟩ := (a1 b).1 h
    refine (b1 b).2 ⟨c1.trans hk, ?_, fun k => by rw [c3 k, hg k]⟩
    rw [tot _ hwf'] 
    intro k hk'
    rw [← hg k]
    exact (tot _ hwf _).1 c2 k (hk ▸ hk')
  | error e =>
    symm
    obtain ⟨c1, v, hv, hn⟩ := (a2 e).1 h
    refine (b2 e).2 ⟨c1, ?_⟩
    refine Classical.byContradiction (fun hcon => ?_)
    have hall : ∀ v ∈ (st'.getD r' []).values, (Spec.follow (rs'.map (fun x => st'.getD x [])) v).isSome := by
      intro w hw
      cases hf : Spec.follow (rs'.map (fun x => st'.getD x [])) w with
      | none => exact absurd ⟨w, hw, hf⟩ hcon
      | some w => rfl
    rw [tot _ hwf'] at hall
    have : ∀ v ∈ (st.getD r []).values, (Spec.follow (rs.map (fun x => st.getD x [])) v).isSome := by
      rw [tot _ hwf]
      intro k hk'
      rw [hg k]
      exact hall k (hk ▸ hk')
    have := this v hv
    rw [hn] at this; cases this

theorem getD_snoc_lt {st : DictStore V} {b : Dict V V} {i : Nat} (h : i < st.length) :
    (st ++ [b]).getD i [] = st.getD i [] := by
  simp [List.getD_eq_getElem?_getD, List.getElem?_append_left h]

theorem getD_snoc_eq (st : DictStore V) (b : Dict V V) : (st ++ [b]).getD st.length [] = b := by simp

theorem map_getD_snoc {st : DictStore V} {b : Dict V V} {rs : List Nat} (h : ∀ x ∈ rs, x < st.length) :
    rs.map (fun x => (st ++ [b]).getD x []) = rs.map (fun x => st.getD x []) :=
  List.map_congr_left (fun x hx => getD_snoc_lt (h x hx))

/-- C161: chaining is associative.  Where a chain of mappings could be formed, using it as the first
mapping of another chain, or as a later one, is the same as chaining all mappings at once: the same
dictionary in the same order, or `KeyError` in both cases. -/
theorem C161_chain_assoc (st : DictStore V) (r : Nat) (rs : List Nat) (hr : r < st.length)
    (hrs : ∀ x ∈ rs, x < st.length) (hwf : ∀ x < st.length, (st.getD x []).WF)
    (st' : DictStore V) (b : Nat) (hb : chainMapping st (r :: rs) = (st', .ok b)) :
    (∀ ss : List Nat, (∀ x ∈ ss, x < st.length) →
      Spec.chained (chainMapping st' (b :: ss)) = Spec.chained (chainMapping st (r :: rs ++ ss))) ∧
    (∀ (q : Nat) (qs ss : List Nat), q < st.length → (∀ x ∈ qs, x < st.length) → (∀ x ∈ ss, x < st.length) →
      Spec.chained (chainMapping st' (q :: qs ++ b :: ss)) =
        Spec.chained (chainMapping st (q :: qs ++ r :: rs ++ ss))) := by
  obtain ⟨⟨b0, hb0⟩, h2, h3⟩ := C11_chain_mapping st r rs hr hrs (hwf r hr)
  rw [hb] at hb0
  have e1 : st' = st ++ [b0] := hb0
  have hlen : b = st.length := by
    simp only [chainMapping] at hb
    split at hb
    · cases hb
    · injection hb with _ h; injection h with h; exact h.symm
  subst hlen e1
  have hch : Spec.chained (chainMapping st (r :: rs)) = .ok b0 := by
    rw [hb]; show Except.ok ((st ++ [b0]).getD st.length []) = _; simp
  obtain ⟨k1, k2, k3⟩ := ((chained_iff st r rs hr hrs (hwf r hr)).1 b0).1 hch
  have hwfb : b0.WF := by unfold Dict.WF; rw [k1]; exact hwf r hr
  have hlt : ∀ {x}, x < st.length → x < (st ++ [b0]).length := by
    intro x hx; rw [List.length_append]; exact Nat.lt_add_right _ hx
  have hself : st.length < (st ++ [b0]).length := by simp
  constructor
  · intro ss hss
    simp only [List.cons_append]
    refine chained_congr hself (fun x hx => hlt (hss x hx)) (by rw [getD_snoc_eq]; exact hwfb) hr
      (fun x hx => ?_) (hwf r hr) (by rw [getD_snoc_eq]; exact k1) (fun k => ?_)
    · rcases List.mem_append.1 hx with h | h
      · exact hrs x h
      · exact hss x h
    · rw [getD_snoc_eq, k3 k, map_getD_snoc hss, List.map_append]
      cases Dict.get? (st.getD r []) k with
      | none => rfl
      | some v => simp only [Option.bind_some, follow_append_list]
  · intro q qs ss hq hqs hss
    simp only [List.cons_append]
    have hin : ∀ x ∈ qs ++ st.length :: ss, x < (st ++ [b0]).length := by
      intro x hx
      rcases List.mem_append.1 hx with h | h
      · exact hlt (hqs x h)
      · rcases List.mem_cons.1 h with rfl | h
        · exact hself
        · exact hlt (hss x h)
    have hin' : ∀ x ∈ qs ++ r :: rs ++ ss, x < st.length := by
      intro x hx
      rcases List.mem_append.1 hx with h | h
      · rcases List.mem_append.1 h with h | h
        · exact hqs x h
        · rcases List.mem_cons.1 h with rfl | h
          · exact hr
          · exact hrs x h
      · exact hss x h
    refine chained_congr (hlt hq) hin (by rw [getD_snoc_lt hq]; exact hwf q hq) hq hin' (hwf q hq)
      (by rw [getD_snoc_lt hq]) (fun k => ?_)
    rw [getD_snoc_lt hq]
    cases Dict.get? (st.getD q []) k with
    | none => rfl
    | some v =>
      simp only [Option.bind_some, List.map_append, List.map_cons]
      rw [map_getD_snoc hqs, map_getD_snoc hss, getD_snoc_eq, List.append_assoc, follow_append_list, follow_append_list]
      cases Spec.follow (qs.map (fun x => st.getD x [])) v with
      | none => rfl
      | some w =>
        simp only [Option.bind_some, List.cons_append, Spec.follow, k3 w]
        cases Dict.get? (st.getD r []) w with
        | none => rfl
        | some u => simp only [Option.bind_some, follow_append_list]

/-- C161: a mapping without repeated values followed by its inverse leads every key back to itself; the
inverse followed by the mapping every value. -/
theorem C161_chain_inverse (d inv : Dict V V) (hd : d.WF) (h : invertInjectiveMapping d = .ok inv) :
    Spec.chained (chainMapping [d, inv] [0, 1]) = .ok (d.map (fun kv => (kv.1, kv.1))) ∧
    Spec.chained (chainMapping [d, inv] [1, 0]) = .ok (inv.map (fun kv => (kv.1, kv.1))) := by
  obtain ⟨c1, c2⟩ := C10_invert_injective d hd
  have hinj : Spec.Injective d := by
    refine Classical.byContradiction (fun hn => ?_)
    rw [c1 hn] at h; cases h
  obtain ⟨inv', h', hwf', hget, _⟩ := c2 hinj
  have e : inv' = inv := by rw [h] at h'; cases h'; rfl
  subst e
  have idget : ∀ (d : Dict V V) (k : V), Dict.get? (d.map (fun kv => (kv.1, kv.1))) k = (Dict.get? d k).map (fun _ => k) := by
    intro d k
    induction d with
    | nil => rfl
    | cons p d ih =>
      obtain ⟨x, y⟩ := p
      simp only [List.map_cons, Dict.get?_cons, ih]
      by_cases hk : x = k
      · rw [if_pos hk, if_pos hk, hk]; rfl
      · rw [if_neg hk, if_neg hk]
  have idkeys : ∀ d : Dict V V, Dict.keys (d.map (fun kv => (kv.1, kv.1))) = Dict.keys d := by
    intro d; simp [Dict.keys, Function.comp_def]
  have valmem : ∀ (d : Dict V V), d.WF → ∀ v, v ∈ d.values → ∃ k, Dict.get? d k = some v := by
    intro d hd v hv
    obtain ⟨⟨k, v'⟩, hm, rfl⟩ := List.mem_map.1 hv
    exact ⟨k, (Dict.get?_eq_some_iff hd k v').2 hm⟩
  constructor
  · refine ((chained_iff [d, inv'] 0 [1] (by simp) (by simp) hd).1 _).2 ⟨idkeys d, ?_, ?_⟩
    · intro v hv
      obtain ⟨k, hk⟩ := valmem d hd v hv
      show (((Dict.get? inv' v)).bind (Spec.follow [])).isSome
      rw [(hget k v).2 hk]; rfl
    · intro k
      rw [idget]
      show _ = (Dict.get? d k).bind (fun v => (Dict.get? inv' v).bind (Spec.follow []))
      cases hk : Dict.get? d k with
      | none => rfl
      | some v =>
        simp only [Option.map_some, Option.bind_some, (hget k v).2 hk]; rfl
  · refine ((chained_iff [d, inv'] 1 [0] (by simp) (by simp) hwf').1 _).2 ⟨idkeys inv', ?_, ?_⟩
    · intro v hv
      obtain ⟨k, hk⟩ := valmem inv' hwf' v hv
      show (((Dict.get? d v)).bind (Spec.follow [])).isSome
      rw [(hget v k).1 hk]; rfl
    · intro k
      rw [idget]
      show _ = (Dict.get? inv' k).bind (fun v => (Dict.get? d v).bind (Spec.follow []))
      cases hk : Dict.get? inv' k with
      | none => rfl
      | some v =>
        simp only [Option.map_some, Option.bind_some, (hget v k).1 hk]; rfl

/-! ### inverses -/

/-- C161: inverting is grouping the reversed pairs; inverting a mapping to one-element lists gives the
one-element lists of the injective inverse. -/
theorem C161_invert (d : Dict K (List V)) :
    invertMapping d = multiDict (d.flatMap (fun kv => kv.2.map (fun v => (v, kv.1)))) ∧
    ∀ (e : Dict K V) (inv : Dict V K), e.WF → invertInjectiveMapping e = .ok inv →
      invertMapping (e.map (fun kv => (kv.1, [kv.2]))) = inv.map (fun vk => (vk.1, [vk.2])) := by
  refine ⟨invertMapping_eq_multiDict d, ?_⟩
  intro e inv he h
  have hn : e.values.Nodup := by
    rw [← injective_iff_nodup e he]
    refine Classical.byContradiction (fun hn => ?_)
    rw [(C10_invert_injective e he).1 hn] at h; cases h
  have e1 := invertInjectiveLoop_ok ([] : Dict V K) e hn (by simp)
  have h' : invertInjectiveLoop [] e = .ok inv := h
  rw [e1] at h'
  have e2 : inv = e.map (fun kv => (kv.2, kv.1)) := by
    simpa using (Except.ok.inj h').symm
  subst e2
  unfold invertMapping
  have key : ∀ (e : Dict K V) (acc : Dict V (List K)), e.values.Nodup → (∀ v ∈ e.values, v ∉ acc.keys) →
      (e.map (fun kv => (kv.1, [kv.2]))).foldl
        (fun inv kv => kv.2.foldl (fun inv v => setdefaultAppend inv v kv.1) inv) acc =
      acc ++ (e.map (fun kv => (kv.2, kv.1))).map (fun vk => (vk.1, [vk.2])) := by
    intro e
    induction e with
    | nil => intro acc _ _; simp
    | cons kv e ih =>
      intro acc h1 h2
      simp only [Dict.values_cons, List.nodup_cons] at h1
      have hnot : kv.2 ∉ acc.keys := h2 kv.2 (by simp)
      simp only [List.map_cons, List.foldl_cons, List.foldl_nil]
      have hs : setdefaultAppend acc kv.2 kv.1 = acc ++ [(kv.2, [kv.1])] := by
        unfold setdefaultAppend
        rw [(Dict.get?_eq_none_iff acc kv.2).2 hnot]
        exact Dict.set_of_not_mem acc kv.2 [kv.1] hnot
      rw [hs, ih _ h1.2]
      · simp
      · intro v hv hm
        have hm' : v ∈ Dict.keys acc ∨ v = kv.2 := by
          simpa [Dict.keys] using hm
        rcases hm' with hm' | rfl
        · exact h2 v (by simp [hv]) hm'
        · exact h1.1 hv
  have := key e [] hn (by simp)
  simpa using this

/-- C161: inverting a union of relations is the union of the inverses. -/
theorem C161_invert_merge (args : List (Dict K (List V))) (hwf : ∀ d ∈ args, d.WF) (v : V) (k : K) :
    k ∈ (Dict.get? (invertMapping (mergeDicts args)) v).getD [] ↔
      k ∈ (Dict.get? (mergeDicts (args.map invertMapping)) v).getD [] := by
  have hm : ∀ (d : Dict K (List V)), d.WF → (k ∈ (Dict.get? (invertMapping d) v).getD [] ↔ v ∈ (Dict.get? d k).getD []) := by
    intro d hd
    rw [← List.count_pos_iff, C09_invert_transposes d hd, List.count_pos_iff]
  rw [hm _ (mergeDicts_WF args), (C13_merge_is_union args hwf k).2 v,
    (C13_merge_is_union (args.map invertMapping) (by
      intro d hd
      obtain ⟨d', _, rfl⟩ := List.mem_map.1 hd
      exact C09_invert_WF d') v).2 k]
  constructor
  · rintro ⟨d, hd, vs, h1, h2⟩
    refine ⟨invertMapping d, List.mem_map.2 ⟨d, hd, rfl⟩, (Dict.get? (invertMapping d) v).getD [], ?_, ?_⟩
    · have : k ∈ (Dict.get? (invertMapping d) v).getD [] := (hm d (hwf d hd)).2 (by rw [h1]; exact h2)
      cases hg : Dict.get? (invertMapping d) v with
      | none => rw [hg] at this; cases this
      | some l => rfl
    · exact (hm d (hwf d hd)).2 (by rw [h1]; exact h2)
  · rintro ⟨d', hd', ks, h1, h2⟩
    obtain ⟨d, hd, rfl⟩ := List.mem_map.1 hd'
    have : v ∈ (Dict.get? d k).getD [] := (hm d (hwf d hd)).1 (by rw [h1]; exact h2)
    refine ⟨d, hd, (Dict.get? d k).getD [], ?_, this⟩
    cases hg : Dict.get? d k with
    | none => rw [hg] at this; cases this
    | some l => rfl

/-! ### sequences -/

/-- C161: a sequence may be given in pieces to `partial_map`, `filtered_map` and `procmap`: the second
piece is looked at exactly if the first raises nothing, and the results are joined. -/
theorem C161_pieces {A B S : Type} (truthy : B → Bool) (f : A → Except PyErr B) (g : A → S → S × Option PyErr)
    (xs ys : List A) :
    partialMap truthy f (xs ++ ys) = (do
      let p ← partialMap truthy f xs
      let q ← partialMap truthy f ys
      .ok (p.1 ++ q.1, p.2 ++ q.2)) ∧
    filteredMap truthy f (xs ++ ys) = (do
      let p ← filteredMap truthy f xs
      let q ← filteredMap truthy f ys
      .ok (p ++ q)) ∧
    (∀ s, procmap g (xs ++ ys) s = match procmap g xs s with
      | (s', some e) => (s', some e)
      | (s', none) => procmap g ys s') := by
  refine ⟨?_, ?_, ?_⟩
  · induction xs with
    | nil =>
      simp only [List.nil_append, partialMap]
      cases partialMap truthy f ys <;> rfl
    | cons a xs ih =>
      simp only [List.cons_append, partialMap, ih]
      cases f a with
      | error e => rfl
      | ok b =>
        cases partialMap truthy f xs with
        | error e => rfl
        | ok p =>
          cases partialMap truthy f ys with
          | error e => cases hb : truthy b <;> simp [hb, Bind.bind, Except.bind]
          | ok q => cases hb : truthy b <;> simp [hb, Bind.bind, Except.bind]
  · induction xs with
    | nil =>
      simp only [List.nil_append, filteredMap]
      cases filteredMap truthy f ys <;> rfl
    | cons a xs ih =>
      simp only [List.cons_append, filteredMap, ih]
      cases f a with
      | error e => rfl
      | ok b =>
        cases filteredMap truthy f xs with
        | error e => rfl
        | ok p =>
          cases filteredMap truthy f ys with
          | error e => cases hb : truthy b <;> simp [hb, Bind.bind, Except.bind]
          | ok q => cases hb : truthy b <;> simp [hb, Bind.bind, Except.bind]
  · induction xs with
    | nil => intro s; rfl
    | cons a xs ih =>
      intro s
      simp only [List.cons_append, procmap]
      rcases g a s with ⟨s', e⟩
      cases e with
      | none => exact ih s'
      | some e => rfl

/-- C161: `multi_dict` of two sequences of pairs: every key has the values of the first and then those
of the second, the keys of the first come first. -/
theorem C161_multi_pieces (xs ys : List (K × V)) :
    (∀ k, (Dict.get? (multiDict (xs ++ ys)) k).getD [] =
      (Dict.get? (multiDict xs) k).getD [] ++ (Dict.get? (multiDict ys) k).getD []) ∧
    (multiDict (xs ++ ys)).keys = (multiDict xs).keys ++
      (multiDict ys).keys.filter (fun k => decide (k ∉ (multiDict xs).keys)) := by
  constructor
  · intro k
    have h : ∀ l : List (K × V), (Dict.get? (multiDict l) k).getD [] = (l.filter (fun p => p.1 = k)).map Prod.snd := by
      intro l
      rw [C12_multi_dict_exact]
      split
      · rfl
      · rename_i hn
        symm
        rw [Option.getD_none, List.map_eq_nil_iff, List.filter_eq_nil_iff]
        intro p hp hk
        exact hn (List.mem_map.2 ⟨p, hp, by simpa using hk⟩)
    rw [h, h, h, List.filter_append, List.map_append]
  · rw [C12_multi_dict_keys, C12_multi_dict_keys, C12_multi_dict_keys, List.map_append]
    generalize xs.map Prod.fst = a
    generalize ys.map Prod.fst = b
    induction a with
    | nil => simp only [List.nil_append, dedup]; symm; rw [List.filter_eq_self]; intro k _; simp
    | cons x a ih =>
      simp only [List.cons_append, dedup, ih, List.filter_append, List.filter_filter]
      congr 2
      apply List.filter_congr
      intro k _
      by_cases h : k = x <;> simp [h]

end

/-- Mappings that chain, one that does not, an inverse. -/
example : chainMapping [[(1, 2), (5, 2)], [(2, 7)], [(7, 9), (8, 8)]] [0, 1] =
      ([[(1, 2), (5, 2)], [(2, 7)], [(7, 9), (8, 8)], [(1, 7), (5, 7)]], .ok 3) ∧
    Spec.chained (chainMapping [[(1, 2), (5, 2)], [(2, 7)], [(7, 9), (8, 8)]] [0, 1, 2]) = .ok [(1, 9), (5, 9)] ∧
    Spec.chained (chainMapping [[(1, 2), (5, 2)], [(2, 7)]] [1, 0]) = .error .keyError ∧
    invertInjectiveMapping [(1, 4), (2, 5)] = .ok [(4, 1), (5, 2)] ∧
    mapDict (fun v : Nat => if v = 0 then Except.error .keyError else .ok (v + 1)) [(1, 3)] = .ok [(1, 4)] := by decide

end Cjk
