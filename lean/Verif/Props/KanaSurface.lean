import Verif.Props.KanaForms
/-!
# C191: surface forms of composed and decomposed kana
-/

namespace Cjk
open Py
open Spec (Canon KanaUcd IsSoundMark)

/-! ### First and last characters -/

theorem pair_mem {m c b : Chr} (h : (c, b) ∈ Spec.pairsOf m) : (c, b) ∈ Spec.voicedPairs ++ Spec.semivoicedPairs := by
  unfold Spec.pairsOf at h
  split at h
  · exact List.mem_append_left _ h
  · exact List.mem_append_right _ h

/-- Neither the composed character nor the base is a mark; only the base can be voiced. -/
theorem pair_facts {m c b : Chr} (h : (c, b) ∈ Spec.pairsOf m) : ¬ IsSoundMark c ∧ ¬ IsSoundMark b ∧ ∀ v, ¬ Spec.Voices c v := by
  have kk : ∀ p ∈ Spec.voicedPairs ++ Spec.semivoicedPairs, ¬ IsSoundMark p.1 ∧ ¬ IsSoundMark p.2 ∧ ∀ q ∈ Spec.voicings, q.1 ≠ p.1 := by
    unfold IsSoundMark; decide +kernel
  obtain ⟨h1, h2, h3⟩ := kk _ (pair_mem h)
  exact ⟨h1, h2, fun v ⟨q, hq, e, _⟩ => h3 q hq e⟩

theorem marked_kana_iff {U : Ucd} (hU : KanaUcd U) (hp : Spec.PlainKana U) {c d : Chr} {s t : Str} (hs : Spec.MarkedKana (c :: s))
    (ht : Spec.MarkedKana (d :: t)) (h : (c :: s).flatMap U.decomp = (d :: t).flatMap U.decomp) : Spec.IsKana c ↔ Spec.IsKana d := by
  rcases marked_heads hU hp (hs c (by simp)) (ht d (by simp)) h with rfl | ⟨m, hm, hpair⟩ | ⟨m, hm, hpair⟩
  · exact Iff.rfl
  · obtain ⟨h1, h2, _⟩ := pair_facts hpair
    exact ⟨fun _ => (ht d (by simp)).resolve_right h2, fun _ => (hs c (by simp)).resolve_right h1⟩
  · obtain ⟨h1, h2, _⟩ := pair_facts hpair
    exact ⟨fun _ => (ht d (by simp)).resolve_right h1, fun _ => (hs c (by simp)).resolve_right h2⟩

theorem flatMap_decomp_nil {U : Ucd} (hU : KanaUcd U) {s : Str} (h : s.flatMap U.decomp = []) : s = [] := by
  cases s with
  | nil => rfl
  | cons c s =>
    rw [List.flatMap_cons] at h
    exact absurd (List.append_eq_nil_iff.1 h).1 (hU.ne_nil c)

theorem flatMap_snoc (U : Ucd) (s : Str) (x : Chr) : (s ++ [x]).flatMap U.decomp = s.flatMap U.decomp ++ U.decomp x := by
  simp [List.flatMap_append]

theorem marked_lasts {U : Ucd} (hU : KanaUcd U) (hp : Spec.PlainKana U) {s t : Str} {x y : Chr} (hx : Spec.IsKana x ∨ IsSoundMark x)
    (hy : Spec.IsKana y ∨ IsSoundMark y) (h : (s ++ [x]).flatMap U.decomp = (t ++ [y]).flatMap U.decomp) :
    (x = y ∧ s.flatMap U.decomp = t.flatMap U.decomp) ∨
    (∃ b, IsSoundMark y ∧ (x, b) ∈ Spec.pairsOf y ∧ t.flatMap U.decomp = s.flatMap U.decomp ++ [b]) ∨
    ∃ b, IsSoundMark x ∧ (y, b) ∈ Spec.pairsOf x ∧ s.flatMap U.decomp = t.flatMap U.decomp ++ [b] := by
  rw [flatMap_snoc, flatMap_snoc] at h
  rcases marked_decomp hU hp hx with ⟨h1, _⟩ | ⟨m, b, hm, hcb, h1, _⟩ <;>
    rcases marked_decomp hU hp hy with ⟨h2, _⟩ | ⟨m', b', hm', hdb, h2, _⟩ <;> rw [h1, h2] at h
  · have := List.append_inj' h rfl
    injection this.2 with e _
    exact .inl ⟨e, this.1⟩
  · rw [show ∀ l : Str, l ++ [b', m'] = (l ++ [b']) ++ [m'] by simp] at h
    have := List.append_inj' h rfl
    injection this.2 with e _
    subst e
    exact .inr (.inr ⟨b', hm', hdb, this.1⟩)
  · rw [show ∀ l : Str, l ++ [b, m] = (l ++ [b]) ++ [m] by simp] at h
    have := List.append_inj' h rfl
    injection this.2 with e _
    subst e
    exact .inr (.inl ⟨b, hm, hcb, this.1.symm⟩)
  · have := List.append_inj' h rfl
    injection this.2 with e1 e2
    injection e2 with e2 _
    subst e1; subst e2
    exact .inl ⟨pairs_injective hcb hdb, this.1⟩

/-! ### Rendaku -/

theorem rendaku_marked {U : Ucd} {c : Chr} {s t : Str} (h : s.flatMap U.decomp = t.flatMap U.decomp) (f : Str)
    (hf : Spec.RendakuForm (c :: s) f) : ∃ f', Spec.RendakuForm (c :: t) f' ∧ Canon U f f' := by
  rcases hf with rfl | ⟨k, v, r, e, hv, rfl⟩
  · exact ⟨c :: t, .inl rfl, canon_of_decomp (by rw [List.flatMap_cons, List.flatMap_cons, h])⟩
  · cases e
    exact ⟨v :: t, .inr ⟨c, v, t, rfl, hv, rfl⟩, canon_of_decomp (by rw [List.flatMap_cons, List.flatMap_cons, h])⟩

theorem voices_decomp {U : Ucd} (hU : KanaUcd U) {k v : Chr} (h : Spec.Voices k v) : (U.decomp v).length = 2 := by
  have key : ∀ p ∈ Spec.voicings, ∀ v ∈ p.2, (∃ q ∈ Spec.voicedPairs, q.1 = v) ∨ ∃ q ∈ Spec.semivoicedPairs, q.1 = v := by decide +kernel
  obtain ⟨p, hp, _, hv⟩ := h
  rcases key p hp v hv with ⟨q, hq, rfl⟩ | ⟨q, hq, rfl⟩
  · rw [hU.voiced q hq]; rfl
  · rw [hU.semivoiced q hq]; rfl

/-- The base with a separate mark has a voiced form, which the composed kana has not. -/
theorem rendaku_different {U : Ucd} (hU : KanaUcd U) (hp : Spec.PlainKana U) {c d m v : Chr} {s t : Str} (hs : Spec.MarkedKana (c :: s))
    (ht : Spec.MarkedKana (d :: t)) (h : (c :: s).flatMap U.decomp = (d :: t).flatMap U.decomp) (hpair : (d, c) ∈ Spec.pairsOf m)
    (hv : Spec.Voices c v) : ∃ l l' f, rendakuVariants (c :: s) = .ok l ∧ rendakuVariants (d :: t) = .ok l' ∧ f ∈ l ∧ ∀ f' ∈ l', ¬ Canon U f f' := by
  obtain ⟨h1, h2, h3⟩ := pair_facts hpair
  obtain ⟨l, e1, _, m1⟩ := (rendakuVariants_spec (c :: s)).1 c s rfl ((hs c (by simp)).resolve_right h2)
  obtain ⟨l', e2, _, m2⟩ := (rendakuVariants_spec (d :: t)).1 d t rfl ((ht d (by simp)).resolve_right h1)
  refine ⟨l, l', v :: s, e1, e2, (m1 _).2 (.inr ⟨c, v, s, rfl, hv, rfl⟩), fun f' hf' hcan => ?_⟩
  have hf : f' = d :: t := by
    rcases (m2 f').1 hf' with e | ⟨k, w, r, e, hw, _⟩
    · exact e
    · cases e; exact absurd hw (h3 w)
  subst hf
  have hlen := congrArg List.length (nfd_of_canon hU.full hcan)
  simp only [nfd, (canonOrder_perm U _).length_eq] at hlen
  rw [← h, List.flatMap_cons, List.flatMap_cons, List.length_append, List.length_append, voices_decomp hU hv] at hlen
  have hc : (U.decomp c).length = 1 := by
    have kv : ∀ p ∈ Spec.voicings, Spec.IsKana p.1 ∧ (∀ q ∈ Spec.voicedPairs, q.1 ≠ p.1) ∧ ∀ q ∈ Spec.semivoicedPairs, q.1 ≠ p.1 := by decide +kernel
    obtain ⟨p, hpm, rfl, _⟩ := hv
    obtain ⟨a1, a2, a3⟩ := kv p hpm
    rw [(hp _ a1 (fun b hb => a2 _ hb rfl) (fun b hb => a3 _ hb rfl)).1]; rfl
  omega

/-- C191: canonically equivalent texts of kana and sound marks have the same rendaku variants exactly if they begin with the same character, or with
characters that are never voiced. -/
theorem C191_rendaku_iff {U : Ucd} (hU : KanaUcd U) (hp : Spec.PlainKana U) {s t : Str} (hs : Spec.MarkedKana s) (ht : Spec.MarkedKana t)
    (h : Canon U s t) : Spec.SameForms U (rendakuVariants s) (rendakuVariants t) ↔
      s.head? = t.head? ∨ ∀ c v, s.head? = some c ∨ t.head? = some c → ¬ Spec.Voices c v := by
  have hD := nfd_of_canon hU.full h
  rw [nfd_marked hU hp hs, nfd_marked hU hp ht] at hD
  cases s with
  | nil =>
    have := flatMap_decomp_nil hU hD.symm
    subst this
    exact ⟨fun _ => .inl rfl, fun _ => rfl⟩
  | cons c s =>
    cases t with
    | nil => have := flatMap_decomp_nil hU hD; cases this
    | cons d t =>
      have hkana := marked_kana_iff hU hp hs ht hD
      have hheads := marked_heads hU hp (hs c (by simp)) (ht d (by simp)) hD
      constructor
      · intro hsame
        rcases hheads with rfl | ⟨m, hm, hpair⟩ | ⟨m, hm, hpair⟩
        · exact .inl rfl
        · right
          intro x v hx hv
          rcases hx with hx | hx <;> (simp at hx; subst hx)
          · exact (pair_facts hpair).2.2 v hv
          · obtain ⟨l, l', f, e1, e2, hf, hno⟩ := rendaku_different hU hp ht hs hD.symm hpair hv
            rw [e1, e2] at hsame
            obtain ⟨f', hf', hc⟩ := hsame.2 f hf
            exact hno f' hf' hc.symm
        · right
          intro x v hx hv
          rcases hx with hx | hx <;> (simp at hx; subst hx)
          · obtain ⟨l, l', f, e1, e2, hf, hno⟩ := rendaku_different hU hp hs ht hD hpair hv
            rw [e1, e2] at hsame
            obtain ⟨f', hf', hc⟩ := hsame.1 f hf
            exact hno f' hf' hc
          · exact (pair_facts hpair).2.2 v hv
      · intro hh
        by_cases hc : Spec.IsKana c
        · obtain ⟨l, e1, _, m1⟩ := (rendakuVariants_spec (c :: s)).1 c s rfl hc
          obtain ⟨l', e2, _, m2⟩ := (rendakuVariants_spec (d :: t)).1 d t rfl (hkana.1 hc)
          rw [e1, e2]
          rcases hh with hh | hh
          · simp at hh
            subst hh
            rw [List.flatMap_cons, List.flatMap_cons] at hD
            have hD' := List.append_cancel_left hD
            constructor
            · intro f hf
              obtain ⟨f', a, b⟩ := rendaku_marked hD' f ((m1 f).1 hf)
              exact ⟨f', (m2 f').2 a, b⟩
            · intro f hf
              obtain ⟨f', a, b⟩ := rendaku_marked hD'.symm f ((m2 f).1 hf)
              exact ⟨f', (m1 f').2 a, b.symm⟩
          · have g1 : ∀ f, Spec.RendakuForm (c :: s) f → f = c :: s := by
              rintro f (e | ⟨k, v, r, e, hv, _⟩)
              · exact e
              · cases e; exact absurd hv (hh c v (.inl rfl))
            have g2 : ∀ f, Spec.RendakuForm (d :: t) f → f = d :: t := by
              rintro f (e | ⟨k, v, r, e, hv, _⟩)
              · exact e
              · cases e; exact absurd hv (hh d v (.inr rfl))
            constructor
            · intro f hf
              rw [g1 f ((m1 f).1 hf)]
              exact ⟨d :: t, (m2 _).2 (.inl rfl), h⟩
            · intro f hf
              rw [g2 f ((m2 f).1 hf)]
              exact ⟨c :: s, (m1 _).2 (.inl rfl), h⟩
        · rw [(rendakuVariants_spec (c :: s)).2.1 c s rfl hc, (rendakuVariants_spec (d :: t)).2.1 d t rfl (fun h => hc (hkana.2 h))]
          exact rfl

/-! ### Onbin -/

theorem onbin_marked {U : Ucd} (hU : KanaUcd U) (hp : Spec.PlainKana U) {s t : Str} {x : Chr} (hs : Spec.MarkedKana (s ++ [x])) (ht : Spec.MarkedKana (t ++ [x]))
    (h : s.flatMap U.decomp = t.flatMap U.decomp) (f : Str) (hf : Spec.OnbinForm (s ++ [x]) f) :
    ∃ f', Spec.OnbinForm (t ++ [x]) f' ∧ Canon U f f' := by
  rcases hf with rfl | ⟨c, init, l, e, rfl⟩
  · exact ⟨t ++ [x], .inl rfl, canon_of_decomp (by rw [flatMap_snoc, flatMap_snoc, h])⟩
  · have e1 := (List.append_inj' e rfl).1
    subst e1
    cases t with
    | nil => have := flatMap_decomp_nil hU h; cases this
    | cons d t =>
      have := (marked_scripts hU hp (hs c (by simp)) (ht d (by simp)) h).1
      refine ⟨d :: t ++ [Spec.sokuonOf d], .inr ⟨d, t, x, rfl, rfl⟩, canon_of_decomp ?_⟩
      rw [flatMap_snoc, flatMap_snoc, h, this]

theorem onbinOk_marked {U : Ucd} (hU : KanaUcd U) (hp : Spec.PlainKana U) {s t : Str} {x : Chr} (hs : Spec.MarkedKana (s ++ [x])) (ht : Spec.MarkedKana (t ++ [x]))
    (h : s.flatMap U.decomp = t.flatMap U.decomp) (hok : Spec.OnbinOk (s ++ [x])) : Spec.OnbinOk (t ++ [x]) := by
  cases t with
  | nil => exact .inl (by simp)
  | cons d t =>
    right
    refine ⟨d, t ++ [x], rfl, ?_⟩
    cases s with
    | nil => have := flatMap_decomp_nil hU h.symm; cases this
    | cons c s =>
      rcases hok with hok | ⟨c', s', e, hc⟩
      · simp at hok
      · cases e
        exact (marked_kana_iff hU hp (fun a ha => hs a (by simp at ha ⊢; rcases ha with ha | ha <;> simp [ha]))
          (fun a ha => ht a (by simp at ha ⊢; rcases ha with ha | ha <;> simp [ha])) h).1 hc

/-- A text that ends with a separate mark loses only the mark; the composed text loses the whole kana. -/
theorem onbin_different {U : Ucd} (hU : KanaUcd U) (hp : Spec.PlainKana U) {s t : Str} {x m b : Chr} (hs : Spec.MarkedKana (s ++ [x]))
    (ht : Spec.MarkedKana (t ++ [m])) (h : (s ++ [x]).flatMap U.decomp = (t ++ [m]).flatMap U.decomp) (hm : IsSoundMark m)
    (hpair : (x, b) ∈ Spec.pairsOf m) (hst : t.flatMap U.decomp = s.flatMap U.decomp ++ [b]) (hk : ∃ c, (s ++ [x]).head? = some c ∧ Spec.IsKana c) :
    ∃ l l' f', onbinVariants (s ++ [x]) = .ok l ∧ onbinVariants (t ++ [m]) = .ok l' ∧ f' ∈ l' ∧ ∀ f ∈ l, ¬ Canon U f f' := by
  cases t with
  | nil => simp at hst
  | cons d t =>
    obtain ⟨c, r, hcr⟩ : ∃ c r, s ++ [x] = c :: r := by
      cases s with
      | nil => exact ⟨x, [], rfl⟩
      | cons c s => exact ⟨c, s ++ [x], rfl⟩
    have hck : Spec.IsKana c := by
      obtain ⟨c', h1, h2⟩ := hk
      rw [hcr] at h1; simp at h1; rw [h1]; exact h2
    rw [List.cons_append] at ht h
    have hdk : Spec.IsKana d := (marked_kana_iff hU hp (hcr ▸ hs) ht (hcr ▸ h)).1 hck
    obtain ⟨l, e1, _, m1⟩ := (onbinVariants_spec (s ++ [x])).1 (.inr ⟨c, r, hcr, hck⟩)
    obtain ⟨l', e2, _, m2⟩ := (onbinVariants_spec (d :: t ++ [m])).1 (.inr ⟨d, t ++ [m], rfl, hdk⟩)
    refine ⟨l, l', d :: t ++ [Spec.sokuonOf d], e1, e2, (m2 _).2 (.inr ⟨d, t, m, rfl, rfl⟩), fun f hf hcan => ?_⟩
    have hn := nfd_of_canon hU.full hcan
    have hkana : ∀ c, Spec.IsKana (Spec.sokuonOf c) := by
      intro c; unfold Spec.sokuonOf; split <;> decide +kernel
    have hmarked : Spec.MarkedKana (d :: t ++ [Spec.sokuonOf d]) := by
      intro a ha
      rcases List.mem_append.1 ha with ha | ha
      · exact ht a (by simp at ha ⊢; rcases ha with ha | ha <;> simp [ha])
      · rw [List.mem_singleton.1 ha]; exact .inl (hkana d)
    rw [nfd_marked hU hp hmarked, flatMap_snoc, sokuon_decomp hp, hst] at hn
    rcases (m1 f).1 hf with rfl | ⟨c', init, y, e, rfl⟩
    · rw [nfd_marked hU hp hs, flatMap_snoc, (decomp_pair hU hm hpair).1,
        show s.flatMap U.decomp ++ [b, m] = (s.flatMap U.decomp ++ [b]) ++ [m] by simp] at hn
      have := (List.append_inj' hn rfl).2
      injection this with this _
      exact sokuon_not_mark d (this ▸ hm)
    · have es := (List.append_inj' e rfl).1
      have hlen := congrArg List.length hn
      simp only [nfd, (canonOrder_perm U _).length_eq, flatMap_snoc, sokuon_decomp hp, ← es, List.length_append, List.length_cons, List.length_nil] at hlen
      omega

/-- C191: canonically equivalent texts of kana and sound marks have the same onbin variants exactly if they end with the same character (or do not begin
with a kana, so that both calls raise). -/
theorem C191_onbin_iff {U : Ucd} (hU : KanaUcd U) (hp : Spec.PlainKana U) {s t : Str} (hs : Spec.MarkedKana s) (ht : Spec.MarkedKana t)
    (h : Canon U s t) : Spec.SameForms U (onbinVariants s) (onbinVariants t) ↔
      s.getLast? = t.getLast? ∨ ∃ c, s.head? = some c ∧ ¬ Spec.IsKana c := by
  have hD := nfd_of_canon hU.full h
  rw [nfd_marked hU hp hs, nfd_marked hU hp ht] at hD
  rcases List.eq_nil_or_concat s with rfl | ⟨s, x, rfl⟩
  · have := flatMap_decomp_nil hU hD.symm
    subst this
    exact ⟨fun _ => .inl rfl, fun _ => ⟨fun f hf => ⟨f, hf, .refl _⟩, fun f hf => ⟨f, hf, .refl _⟩⟩⟩
  · rcases List.eq_nil_or_concat t with rfl | ⟨t, y, rfl⟩
    · have := flatMap_decomp_nil hU hD; simp at this
    · rw [List.concat_eq_append] at *
      rw [List.concat_eq_append] at *
      have hx := hs x (by simp)
      have hy := ht y (by simp)
      have hsame : ∀ {x : Chr}, Spec.MarkedKana (s ++ [x]) → Spec.MarkedKana (t ++ [x]) → s.flatMap U.decomp = t.flatMap U.decomp →
          Spec.SameForms U (onbinVariants (s ++ [x])) (onbinVariants (t ++ [x])) := by
        intro x hs ht hst
        by_cases hok : Spec.OnbinOk (s ++ [x])
        · obtain ⟨l, e1, _, m1⟩ := (onbinVariants_spec (s ++ [x])).1 hok
          obtain ⟨l', e2, _, m2⟩ := (onbinVariants_spec (t ++ [x])).1 (onbinOk_marked hU hp hs ht hst hok)
          rw [e1, e2]
          constructor
          · intro f hf
            obtain ⟨f', a, b⟩ := onbin_marked hU hp hs ht hst f ((m1 f).1 hf)
            exact ⟨f', (m2 f').2 a, b⟩
          · intro f hf
            obtain ⟨f', a, b⟩ := onbin_marked hU hp ht hs hst.symm f ((m2 f).1 hf)
            exact ⟨f', (m1 f').2 a, b.symm⟩
        · rw [(onbinVariants_spec (s ++ [x])).2 hok,
            (onbinVariants_spec (t ++ [x])).2 (fun h => hok (onbinOk_marked hU hp ht hs hst.symm h))]
          exact rfl
      -- both texts begin with the same mark
      have herr : ∀ {s t : Str} {x y : Chr} {b : Chr}, Spec.MarkedKana (s ++ [x]) → Spec.MarkedKana (t ++ [y]) →
          (s ++ [x]).flatMap U.decomp = (t ++ [y]).flatMap U.decomp → (x, b) ∈ Spec.pairsOf y → t.flatMap U.decomp = s.flatMap U.decomp ++ [b] →
          (∃ c, (s ++ [x]).head? = some c ∧ ¬ Spec.IsKana c) →
          onbinVariants (s ++ [x]) = .error .keyError ∧ onbinVariants (t ++ [y]) = .error .keyError := by
        intro s t x y b hs ht hD hpair hst ⟨c, hc, hck⟩
        have hxk : Spec.IsKana x := (hs x (by simp)).resolve_right (pair_facts hpair).1
        cases s with
        | nil => simp at hc; exact absurd (hc ▸ hxk) hck
        | cons a s =>
          simp at hc
          subst hc
          cases t with
          | nil => simp at hst
          | cons d t =>
            have hdk : ¬ Spec.IsKana d := fun hd => hck ((marked_kana_iff hU hp (s := s ++ [x]) (t := t ++ [y]) hs ht hD).2 hd)
            constructor
            · refine (onbinVariants_spec _).2 ?_
              rintro (h | ⟨c', s', e, h⟩)
              · simp at h
              · cases e; exact hck h
            · refine (onbinVariants_spec _).2 ?_
              rintro (h | ⟨c', s', e, h⟩)
              · simp at h
              · cases e; exact hdk h
      have hlast : ∀ (l : Str) (z : Chr), (l ++ [z]).getLast? = some z := by intro l z; simp
      rw [hlast, hlast]
      rcases marked_lasts hU hp hx hy hD with ⟨rfl, hst⟩ | ⟨b, hm, hpair, hst⟩ | ⟨b, hm, hpair, hst⟩
      · exact ⟨fun _ => .inl rfl, fun _ => hsame hs ht hst⟩
      · by_cases hk : ∃ c, (s ++ [x]).head? = some c ∧ ¬ Spec.IsKana c
        · refine ⟨fun _ => .inr hk, fun _ => ?_⟩
          obtain ⟨e1, e2⟩ := herr hs ht hD hpair hst hk
          rw [e1, e2]; exact rfl
        · have hk' : ∃ c, (s ++ [x]).head? = some c ∧ Spec.IsKana c := by
            cases hh : (s ++ [x]).head? with
            | none => simp at hh
            | some c => exact ⟨c, rfl, Decidable.byContradiction fun hn => hk ⟨c, hh, hn⟩⟩
          obtain ⟨l, l', f', e1, e2, hf', hno⟩ := onbin_different hU hp hs ht hD hm hpair hst hk'
          constructor
          · intro hsf
            rw [e1, e2] at hsf
            obtain ⟨f, hf, hc⟩ := hsf.2 f' hf'
            exact absurd hc (hno f hf)
          · rintro (e | hk2)
            · cases e; exact absurd hm (pair_facts hpair).1
            · exact absurd hk2 hk
      · -- the same with the texts exchanged
        have hheads : (∃ c, (s ++ [x]).head? = some c ∧ ¬ Spec.IsKana c) ↔ ∃ c, (t ++ [y]).head? = some c ∧ ¬ Spec.IsKana c := by
          obtain ⟨c, r, e⟩ : ∃ c r, s ++ [x] = c :: r := by
            cases s with
            | nil => exact ⟨x, [], rfl⟩
            | cons c s => exact ⟨c, s ++ [x], rfl⟩
          obtain ⟨d, r', e'⟩ : ∃ d r, t ++ [y] = d :: r := by
            cases t with
            | nil => exact ⟨y, [], rfl⟩
            | cons d t => exact ⟨d, t ++ [y], rfl⟩
          rw [e, e'] at hD ⊢
          have := marked_kana_iff hU hp (e ▸ hs) (e' ▸ ht) hD
          simp [this]
        by_cases hk : ∃ c, (t ++ [y]).head? = some c ∧ ¬ Spec.IsKana c
        · refine ⟨fun _ => .inr (hheads.2 hk), fun _ => ?_⟩
          obtain ⟨e1, e2⟩ := herr ht hs hD.symm hpair hst hk
          rw [e1, e2]; exact rfl
        · have hk' : ∃ c, (t ++ [y]).head? = some c ∧ Spec.IsKana c := by
            cases hh : (t ++ [y]).head? with
            | none => simp at hh
            | some c => exact ⟨c, rfl, Decidable.byContradiction fun hn => hk ⟨c, hh, hn⟩⟩
          obtain ⟨l, l', f', e1, e2, hf', hno⟩ := onbin_different hU hp ht hs hD.symm hm hpair hst hk'
          constructor
          · intro hsf
            rw [e1, e2] at hsf
            obtain ⟨f, hf, hc⟩ := hsf.1 f' hf'
            exact absurd hc.symm (hno f hf)
          · rintro (e | hk2)
            · cases e; exact absurd hm (pair_facts hpair).1
            · exact absurd (hheads.1 hk2) hk

/-- C191 refuted: か with a separate mark gets the rendaku variant が with a second mark, which が has not; and か, く with a separate mark keeps the く in its
onbin variant. -/
theorem C191_refuted : Canon kanaUcd [c!"か", 0x3099] u!"が" ∧
    ¬ Spec.SameForms kanaUcd (rendakuVariants [c!"か", 0x3099]) (rendakuVariants u!"が") ∧
    Canon kanaUcd [c!"か", c!"く", 0x3099] u!"かぐ" ∧
    ¬ Spec.SameForms kanaUcd (onbinVariants [c!"か", c!"く", 0x3099]) (onbinVariants u!"かぐ") := by
  have h1 : Canon kanaUcd [c!"か", 0x3099] u!"が" := (Canon.decompose (U := kanaUcd) [] c!"が" []).symm
  have h2 : Canon kanaUcd [c!"か", c!"く", 0x3099] u!"かぐ" := (Canon.decompose (U := kanaUcd) [c!"か"] c!"ぐ" []).symm
  have m1 : Spec.MarkedKana [c!"か", 0x3099] := by unfold Spec.MarkedKana IsSoundMark; decide +kernel
  have m2 : Spec.MarkedKana u!"が" := by unfold Spec.MarkedKana IsSoundMark; decide +kernel
  have m3 : Spec.MarkedKana [c!"か", c!"く", 0x3099] := by unfold Spec.MarkedKana IsSoundMark; decide +kernel
  have m4 : Spec.MarkedKana u!"かぐ" := by unfold Spec.MarkedKana IsSoundMark; decide +kernel
  refine ⟨h1, ?_, h2, ?_⟩
  · rw [C191_rendaku_iff kanaUcd_good kanaUcd_plain m1 m2 h1]
    rintro (h | h)
    · revert h; decide
    · exact h c!"か" c!"が" (.inl rfl) (by decide +kernel)
  · rw [C191_onbin_iff kanaUcd_good kanaUcd_plain m3 m4 h2]
    rintro (h | ⟨c, h, hk⟩)
    · revert h; decide
    · simp at h; subst h; revert hk; decide +kernel

/-- Not vacuous: the conditions hold for kana that differ inside, and for う and ゔ, which are never voiced by rendaku. -/
example : Canon kanaUcd [c!"か", c!"く", 0x3099, c!"つ"] u!"かぐつ" ∧ Canon kanaUcd [c!"う", 0x3099] u!"ゔ" ∧
    Spec.MarkedKana [c!"か", c!"く", 0x3099, c!"つ"] ∧ Spec.MarkedKana [c!"う", 0x3099] ∧
    rendakuVariants [c!"う", 0x3099] = .ok [[c!"う", 0x3099]] ∧ rendakuVariants u!"ゔ" = .ok [u!"ゔ"] ∧
    onbinVariants [c!"か", c!"く", 0x3099, c!"つ"] = .ok [[c!"か", c!"く", 0x3099, c!"つ"], [c!"か", c!"く", 0x3099, c!"っ"]] := by
  refine ⟨(Canon.decompose (U := kanaUcd) [c!"か"] c!"ぐ" u!"つ").symm, (Canon.decompose (U := kanaUcd) [] c!"ゔ" []).symm, ?_, ?_, ?_, ?_, ?_⟩
  · unfold Spec.MarkedKana IsSoundMark; decide +kernel
  · unfold Spec.MarkedKana IsSoundMark; decide +kernel
  all_goals decide +kernel

/-! ### Whole readings -/

/-- The same readings up to canonical equivalence of their segments. -/
def Spec.SameReadings (U : Ucd) (l l' : List (List Str)) : Prop :=
  (∀ r ∈ l, ∃ r' ∈ l', List.Forall₂ (Canon U) r r') ∧ ∀ r' ∈ l', ∃ r ∈ l, List.Forall₂ (Canon U) r r'

theorem forms_forward {F : Str → Str → Prop} {G : Str → Str → Prop} {ss ts : List Str}
    (h : List.Forall₂ (fun s t => ∀ f, F s f → ∃ f', F t f' ∧ G f f') ss ts) :
    ∀ fs, List.Forall₂ F ss fs → ∃ fs', List.Forall₂ F ts fs' ∧ List.Forall₂ G fs fs' := by
  induction h with
  | nil => intro fs hfs; cases hfs; exact ⟨[], .nil, .nil⟩
  | cons h _ ih =>
    intro fs hfs
    cases hfs with
    | cons h1 h2 =>
      obtain ⟨f', a, b⟩ := h _ h1
      obtain ⟨fs', c, d⟩ := ih _ h2
      exact ⟨f' :: fs', .cons a c, .cons b d⟩

theorem forms_self {F : Str → Str → Prop} (hF : ∀ s, F s s) (ss : List Str) : List.Forall₂ F ss ss := by
  induction ss with
  | nil => exact .nil
  | cons s ss ih => exact .cons (hF s) ih

theorem forms_backward {F : Str → Str → Prop} {G : Str → Str → Prop} (hF : ∀ s, F s s) {ss ts : List Str} (hlen : ss.length = ts.length)
    (h : ∀ fs, List.Forall₂ F ss fs → ∃ fs', List.Forall₂ F ts fs' ∧ List.Forall₂ G fs fs') :
    List.Forall₂ (fun s t => ∀ f, F s f → ∃ f', F t f' ∧ G f f') ss ts := by
  induction ss generalizing ts with
  | nil =>
    cases ts with
    | nil => exact .nil
    | cons t ts => simp at hlen
  | cons s ss ih =>
    cases ts with
    | nil => simp at hlen
    | cons t ts =>
      refine .cons (fun f hf => ?_) (ih (by simpa using hlen) (fun fs hfs => ?_))
      · obtain ⟨fs', h1, h2⟩ := h (f :: ss) (.cons hf (forms_self hF ss))
        cases h1 with
        | cons a _ => cases h2 with
          | cons b _ => exact ⟨_, a, b⟩
      · obtain ⟨fs', h1, h2⟩ := h (s :: fs) (.cons (hF s) hfs)
        cases h1 with
        | cons _ a => cases h2 with
          | cons _ b => exact ⟨_, a, b⟩

theorem sameForms_iff {U : Ucd} {a b : Except PyErr (List Str)} {l l' : List Str} {F F' : Str → Prop} (ha : a = .ok l) (hb : b = .ok l')
    (h1 : ∀ f, f ∈ l ↔ F f) (h2 : ∀ f, f ∈ l' ↔ F' f) :
    Spec.SameForms U a b ↔ (∀ f, F f → ∃ f', F' f' ∧ Canon U f f') ∧ ∀ f', F' f' → ∃ f, F f ∧ Canon U f' f := by
  rw [ha, hb]
  constructor
  · rintro ⟨g1, g2⟩
    refine ⟨fun f hf => ?_, fun f hf => ?_⟩
    · obtain ⟨f', a, b⟩ := g1 f ((h1 f).2 hf); exact ⟨f', (h2 f').1 a, b⟩
    · obtain ⟨f', a, b⟩ := g2 f ((h2 f).2 hf); exact ⟨f', (h1 f').1 a, b.symm⟩
  · rintro ⟨g1, g2⟩
    refine ⟨fun f hf => ?_, fun f hf => ?_⟩
    · obtain ⟨f', a, b⟩ := g1 f ((h1 f).1 hf); exact ⟨f', (h2 f').2 a, b⟩
    · obtain ⟨f', a, b⟩ := g2 f ((h2 f).1 hf); exact ⟨f', (h1 f').2 a, b.symm⟩

theorem forall₂_flip {R : Str → Str → Prop} {a b : List Str} (h : List.Forall₂ R a b) : List.Forall₂ (fun x y => R y x) b a := by
  induction h with
  | nil => exact .nil
  | cons h _ ih => exact .cons h ih

theorem forall₂_imp {R S : Str → Str → Prop} (hRS : ∀ x y, R x y → S x y) {a b : List Str} (h : List.Forall₂ R a b) : List.Forall₂ S a b := by
  induction h with
  | nil => exact .nil
  | cons h _ ih => exact .cons (hRS _ _ h) ih

theorem forall₂_both {R S : Str → Str → Prop} {a b : List Str} (h : List.Forall₂ R a b) (h' : List.Forall₂ S a b) :
    List.Forall₂ (fun x y => R x y ∧ S x y) a b := by
  induction h with
  | nil => exact .nil
  | cons h _ ih => cases h' with
    | cons g h' => exact .cons ⟨h, g⟩ (ih h')

/-- Two spellings of a segment that begins with a kana. -/
def Spec.Spellings (U : Ucd) (s t : Str) : Prop := Spec.MarkedKana s ∧ Spec.MarkedKana t ∧ Canon U s t ∧ Spec.KanaStart s

theorem spellings_start {U : Ucd} (hU : KanaUcd U) (hp : Spec.PlainKana U) {s t : Str} (h : Spec.Spellings U s t) : Spec.KanaStart t := by
  obtain ⟨hs, ht, hc, c, s, rfl, hk⟩ := h
  have hD := nfd_of_canon hU.full hc
  rw [nfd_marked hU hp hs, nfd_marked hU hp ht] at hD
  cases t with
  | nil => have := flatMap_decomp_nil hU hD; cases this
  | cons d t => exact ⟨d, t, rfl, (marked_kana_iff hU hp hs ht hD).1 hk⟩

/-- C191: two spellings of a reading have the same surface forms exactly if their first segments end with the same character, and each later segment begins with
the same character or with one that is never voiced. -/
theorem C191_surface_iff {U : Ucd} (hU : KanaUcd U) (hp : Spec.PlainKana U) {s t : Str} {ss ts : List Str} (h : Spec.Spellings U s t)
    (hh : List.Forall₂ (Spec.Spellings U) ss ts) : ∃ l l', surfaceForms (s :: ss) = .ok l ∧ surfaceForms (t :: ts) = .ok l' ∧
      (Spec.SameReadings U l l' ↔ s.getLast? = t.getLast? ∧
        List.Forall₂ (fun a b => a.head? = b.head? ∨ ∀ c v, a.head? = some c ∨ b.head? = some c → ¬ Spec.Voices c v) ss ts) := by
  have hstart : ∀ {ss ts : List Str}, List.Forall₂ (Spec.Spellings U) ss ts → (∀ s ∈ ss, Spec.KanaStart s) ∧ (∀ t ∈ ts, Spec.KanaStart t) := by
    intro ss ts hh
    induction hh with
    | nil => exact ⟨(by intro s hs; cases hs), (by intro s hs; cases hs)⟩
    | cons h _ ih =>
      refine ⟨fun a ha => ?_, fun a ha => ?_⟩
      · rcases List.mem_cons.1 ha with rfl | ha
        · exact h.2.2.2
        · exact ih.1 a ha
      · rcases List.mem_cons.1 ha with rfl | ha
        · exact spellings_start hU hp h
        · exact ih.2 a ha
  have hok : Spec.OnbinOk s := .inr h.2.2.2
  have hok' : Spec.OnbinOk t := .inr (spellings_start hU hp h)
  obtain ⟨l, e1, _, m1⟩ := C17_surface_forms_exact s ss hok (hstart hh).1
  obtain ⟨l', e2, _, m2⟩ := C17_surface_forms_exact t ts hok' (hstart hh).2
  refine ⟨l, l', e1, e2, ?_⟩
  obtain ⟨o, eo, _, mo⟩ := (onbinVariants_spec s).1 hok
  obtain ⟨o', eo', _, mo'⟩ := (onbinVariants_spec t).1 hok'
  have honb : s.getLast? = t.getLast? ↔ Spec.SameForms U (onbinVariants s) (onbinVariants t) := by
    rw [C191_onbin_iff hU hp h.1 h.2.1 h.2.2.1]
    refine ⟨.inl, ?_⟩
    rintro (e | ⟨c, hc, hn⟩)
    · exact e
    · obtain ⟨c', r, rfl, hk⟩ := h.2.2.2
      simp at hc; subst hc; exact absurd hk hn
  have hren : ∀ a b, Spec.Spellings U a b → ((a.head? = b.head? ∨ ∀ c v, a.head? = some c ∨ b.head? = some c → ¬ Spec.Voices c v) ↔
      (∀ f, Spec.RendakuForm a f → ∃ f', Spec.RendakuForm b f' ∧ Canon U f f') ∧
      ∀ f, Spec.RendakuForm b f → ∃ f', Spec.RendakuForm a f' ∧ Canon U f f') := by
    intro a b hab
    obtain ⟨r, er, _, mr⟩ := rendaku_exists a hab.2.2.2
    obtain ⟨r', er', _, mr'⟩ := rendaku_exists b (spellings_start hU hp hab)
    rw [← C191_rendaku_iff hU hp hab.1 hab.2.1 hab.2.2.1, sameForms_iff er er' mr mr']
  rw [honb, sameForms_iff eo eo' mo mo']
  have self0 : ∀ s, Spec.OnbinForm s s := fun s => .inl rfl
  have self1 : ∀ s, Spec.RendakuForm s s := fun s => .inl rfl
  constructor
  · rintro ⟨g1, g2⟩
    have k1 : ∀ f0 fs, Spec.OnbinForm s f0 → List.Forall₂ Spec.RendakuForm ss fs →
        ∃ f0' fs', Spec.OnbinForm t f0' ∧ List.Forall₂ Spec.RendakuForm ts fs' ∧ Canon U f0 f0' ∧ List.Forall₂ (Canon U) fs fs' := by
      intro f0 fs a b
      obtain ⟨r', hr', hc⟩ := g1 (f0 :: fs) ((m1 _).2 ⟨f0, fs, rfl, a, b⟩)
      obtain ⟨f0', fs', rfl, a', b'⟩ := (m2 _).1 hr'
      cases hc with
      | cons c d => exact ⟨f0', fs', a', b', c, d⟩
    have k2 : ∀ f0 fs, Spec.OnbinForm t f0 → List.Forall₂ Spec.RendakuForm ts fs →
        ∃ f0' fs', Spec.OnbinForm s f0' ∧ List.Forall₂ Spec.RendakuForm ss fs' ∧ Canon U f0 f0' ∧ List.Forall₂ (Canon U) fs fs' := by
      intro f0 fs a b
      obtain ⟨r', hr', hc⟩ := g2 (f0 :: fs) ((m2 _).2 ⟨f0, fs, rfl, a, b⟩)
      obtain ⟨f0', fs', rfl, a', b'⟩ := (m1 _).1 hr'
      cases hc with
      | cons c d => exact ⟨f0', fs', a', b', c.symm, forall₂_imp (fun x y h => h.symm) (forall₂_flip d)⟩
    refine ⟨⟨fun f hf => ?_, fun f hf => ?_⟩, ?_⟩
    · obtain ⟨f0', _, a, _, c, _⟩ := k1 f ss hf (forms_self self1 ss); exact ⟨f0', a, c⟩
    · obtain ⟨f0', _, a, _, c, _⟩ := k2 f ts hf (forms_self self1 ts); exact ⟨f0', a, c⟩
    · have f1 := forms_backward (G := Canon U) self1 hh.length_eq (fun fs hfs => by
        obtain ⟨_, fs', _, a, _, c⟩ := k1 s fs (self0 s) hfs; exact ⟨fs', a, c⟩)
      have f2 := forms_backward (G := Canon U) self1 hh.length_eq.symm (fun fs hfs => by
        obtain ⟨_, fs', _, a, _, c⟩ := k2 t fs (self0 t) hfs; exact ⟨fs', a, c⟩)
      exact forall₂_imp (fun a b h => (hren a b h.1).2 h.2) (forall₂_both hh (forall₂_both f1 (forall₂_flip f2)))
  · rintro ⟨⟨o1, o2⟩, hall⟩
    have hb := forall₂_imp (fun a b h => (hren a b h.1).1 h.2) (forall₂_both hh hall)
    refine ⟨fun r hr => ?_, fun r hr => ?_⟩
    · obtain ⟨f0, fs, rfl, a, b⟩ := (m1 _).1 hr
      obtain ⟨f0', a', c⟩ := o1 f0 a
      obtain ⟨fs', b', d⟩ := forms_forward (forall₂_imp (fun _ _ h => h.1) hb) fs b
      exact ⟨f0' :: fs', (m2 _).2 ⟨f0', fs', rfl, a', b'⟩, .cons c d⟩
    · obtain ⟨f0, fs, rfl, a, b⟩ := (m2 _).1 hr
      obtain ⟨f0', a', c⟩ := o2 f0 a
      obtain ⟨fs', b', d⟩ := forms_forward (forall₂_imp (fun _ _ h => h.2) (forall₂_flip hb)) fs b
      exact ⟨f0' :: fs', (m1 _).2 ⟨f0', fs', rfl, a', b'⟩, .cons c.symm (forall₂_imp (fun x y h => h.symm) (forall₂_flip d))⟩

/-- Not vacuous: two spellings of がく, こう that differ in both segments. -/
example : Spec.Spellings kanaUcd u!"がく" [c!"か", 0x3099, c!"く"] ∧ List.Forall₂ (Spec.Spellings kanaUcd) [u!"こぐう"] [[c!"こ", c!"く", 0x3099, c!"う"]] := by
  refine ⟨⟨?_, ?_, Canon.decompose (U := kanaUcd) [] c!"が" u!"く", c!"が", u!"く", rfl, by decide +kernel⟩,
    .cons ⟨?_, ?_, Canon.decompose (U := kanaUcd) [c!"こ"] c!"ぐ" u!"う", c!"こ", u!"ぐう", rfl, by decide +kernel⟩ .nil⟩ <;>
    (unfold Spec.MarkedKana IsSoundMark; decide +kernel)

end Cjk
