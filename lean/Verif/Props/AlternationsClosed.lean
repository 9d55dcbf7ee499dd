import Verif.Props.Alternations
/-!
# C168: making and undoing alternations
-/

namespace Cjk
open Py
open Spec (Canonical Ungeminated Voices sokuonOf onbinOf OnbinForm RendakuForm)

theorem voices_once {k v w : Chr} (h : Voices k v) : ¬ Voices v w := by
  obtain ⟨p, hp, rfl, hv⟩ := h
  rintro ⟨q, hq, rfl, hw⟩
  have : ∀ p ∈ Spec.voicings, ∀ v ∈ p.2, ∀ q ∈ Spec.voicings, q.1 ≠ v := by decide +kernel
  exact this p hp _ hv q hq rfl

theorem sokuon_not_onbin (c : Chr) : sokuonOf c ∉ onbinOf c := by
  unfold Spec.sokuonOf Spec.onbinOf
  split <;> decide

theorem sokuon_voices {k v : Chr} (h : Voices k v) : sokuonOf k = sokuonOf v ∧ onbinOf k = onbinOf v := by
  have := (C22_voicing_structure k v h).2.1
  unfold Spec.sokuonOf Spec.onbinOf
  by_cases hk : Spec.InScript .hiragana k
  · rw [if_pos hk, if_pos hk, if_pos (this.1 hk), if_pos (this.1 hk)]; exact ⟨rfl, rfl⟩
  · rw [if_neg hk, if_neg hk, if_neg (fun h => hk (this.2 h)), if_neg (fun h => hk (this.2 h))]; exact ⟨rfl, rfl⟩

theorem ends_eq {c c' a b : Chr} {i j : Str} (h : c :: i ++ [a] = c' :: j ++ [b]) : c = c' ∧ i = j ∧ a = b := by
  simp only [List.cons_append, List.cons.injEq] at h
  obtain ⟨h1, h2⟩ := h
  have := List.append_inj' h2 rfl
  exact ⟨h1, this.1, by simpa using this.2⟩

theorem ungeminated_trans {r : Bool} {seg f g : Str} (h : Ungeminated r seg f) (h' : Ungeminated r f g) : Ungeminated r seg g := by
  rcases h with rfl | ⟨hr, c, init, o, rfl, ho, rfl⟩
  · exact h'
  · rcases h' with rfl | ⟨_, c', init', o', e, ho', rfl⟩
    · exact Or.inr ⟨hr, c, init, o, rfl, ho, rfl⟩
    · obtain ⟨rfl, rfl, rfl⟩ := ends_eq e
      exact absurd ho (sokuon_not_onbin _)

theorem ungeminated_swap {r : Bool} {k v : Chr} {t g : Str} (hv : Voices k v) (h : Ungeminated r (k :: t) g) :
    ∃ u, g = k :: u ∧ Ungeminated r (v :: t) (v :: u) := by
  rcases h with rfl | ⟨hr, c, init, o, e, ho, rfl⟩
  · exact ⟨t, rfl, Or.inl rfl⟩
  · simp only [List.cons_append, List.cons.injEq] at e
    obtain ⟨rfl, rfl⟩ := e
    refine ⟨init ++ [o], rfl, Or.inr ⟨hr, v, init, o, ?_, ?_, rfl⟩⟩
    · rw [(sokuon_voices hv).1]; rfl
    · rw [← (sokuon_voices hv).2]; exact ho

theorem canonical_trans {l r : Bool} {seg f g : Str} (h : Canonical l r seg f) (h' : Canonical l r f g) : Canonical l r seg g := by
  rcases h with h | ⟨hl, v, k, t, hu, hv, rfl⟩
  · rcases h' with h' | ⟨hl, v, k, t, hu, hv, rfl⟩
    · exact Or.inl (ungeminated_trans h h')
    · exact Or.inr ⟨hl, v, k, t, ungeminated_trans h hu, hv, rfl⟩
  · rcases h' with h' | ⟨_, v', k', t', hu', hv', rfl⟩
    · obtain ⟨u, rfl, hu2⟩ := ungeminated_swap hv h'
      exact Or.inr ⟨hl, v, k, u, ungeminated_trans hu hu2, hv, rfl⟩
    · obtain ⟨u, e, _⟩ := ungeminated_swap hv hu'
      cases e
      exact absurd hv (voices_once hv')

theorem canonical_head {l r : Bool} {c : Chr} {s f : Str} (h : Canonical l r (c :: s) f) :
    ∃ d t, f = d :: t ∧ (d = c ∨ Voices d c) := by
  rcases h with h | ⟨_, v, k, t, hu, hv, rfl⟩
  · obtain ⟨t, rfl⟩ := ungeminated_head h
    exact ⟨c, t, rfl, Or.inl rfl⟩
  · obtain ⟨u, e⟩ := ungeminated_head hu
    cases e
    exact ⟨k, t, rfl, Or.inr hv⟩

theorem voices_not_vu {k v : Chr} (h : Voices k v) : ¬ Spec.IsVu k := by
  obtain ⟨p, hp, rfl, _⟩ := h
  have : ∀ p ∈ Spec.voicings, ¬ Spec.IsVu p.1 := by decide +kernel
  exact this p hp

theorem good_inContext {segs form : List Str} (hg : Spec.GoodSegments segs) (h : Spec.InContext segs form) : Spec.GoodSegments form := by
  intro i f hf
  have hi : i < segs.length := by
    have := (List.getElem?_eq_some_iff.1 hf).1
    rw [h.1] at this; exact this
  obtain ⟨c, s, hs, hk, hvu⟩ := hg i segs[i] (by simp [hi])
  have hc := h.2 i segs[i] f (by simp [hi]) hf
  rw [hs] at hc
  obtain ⟨d, t, rfl, hd⟩ := canonical_head hc
  rcases hd with rfl | hd
  · exact ⟨d, t, rfl, hk, hvu⟩
  · exact ⟨d, t, rfl, (voices_kana hd).1, fun _ => voices_not_vu hd⟩

/-- C168: undoing alternations once is enough: the canonical forms of a canonical form are among those found already. -/
theorem C168_canonical_closed (segs : List Str) (l : List (List Str)) (hl : canonicalForms segs = .ok l) (form : List Str) (hf : form ∈ l) :
    ∃ l', canonicalForms form = .ok l' ∧ ∀ g ∈ l', g ∈ l := by
  have hg := C19_canonical_forms_domain segs l hl
  obtain ⟨l1, e1, _, _, m1⟩ := C19_canonical_forms_exact segs hg
  rw [hl] at e1; cases e1
  have hc := (m1 form).1 hf
  obtain ⟨l2, e2, _, _, m2⟩ := C19_canonical_forms_exact form (good_inContext hg hc)
  refine ⟨l2, e2, fun g hgm => (m1 g).2 ?_⟩
  have hc2 := (m2 g).1 hgm
  refine ⟨hc2.1.trans hc.1, ?_⟩
  intro i seg f hs hf2
  have hi := (List.getElem?_eq_some_iff.1 hs).1
  rw [← hc.1] at hi
  have h1 := hc.2 i seg form[i] hs (by simp [hi])
  have h2 := hc2.2 i form[i] f (by simp [hi]) hf2
  rw [hc.1] at h2
  exact canonical_trans h1 h2

/-! ### Surface forms -/

theorem onbinForm_trans {s f g : Str} (h : OnbinForm s f) (h' : OnbinForm f g) : OnbinForm s g := by
  rcases h with rfl | ⟨c, init, l, rfl, rfl⟩
  · exact h'
  · rcases h' with rfl | ⟨c', init', l', e, rfl⟩
    · exact Or.inr ⟨c, init, l, rfl, rfl⟩
    · obtain ⟨rfl, rfl, _⟩ := ends_eq e
      exact Or.inr ⟨c, init, l, rfl, rfl⟩

theorem rendakuForm_trans {s f g : Str} (h : RendakuForm s f) (h' : RendakuForm f g) : RendakuForm s g := by
  rcases h with rfl | ⟨k, v, t, rfl, hv, rfl⟩
  · exact h'
  · rcases h' with rfl | ⟨k', v', t', e, hv', rfl⟩
    · exact Or.inr ⟨k, v, t, rfl, hv, rfl⟩
    · cases e
      exact absurd hv' (voices_once hv)

theorem surfaceForms_domain {segs : List Str} {l : List (List Str)} (hl : surfaceForms segs = .ok l) :
    ∃ s0 rest, segs = s0 :: rest ∧ Spec.OnbinOk s0 ∧ ∀ s ∈ rest, Spec.KanaStart s := by
  obtain ⟨he, h0, h1⟩ := C17_surface_forms_errors
  cases segs with
  | nil => rw [he] at hl; cases hl
  | cons s0 rest =>
    refine ⟨s0, rest, rfl, ?_⟩
    by_cases ho : Spec.OnbinOk s0
    · refine ⟨ho, ?_⟩
      -- the first bad segment
      by_cases hall : ∀ s ∈ rest, Spec.KanaStart s
      · exact hall
      · exfalso
        have : ∀ rest : List Str, ¬ (∀ s ∈ rest, Spec.KanaStart s) →
            ∃ pre bad post, rest = pre ++ bad :: post ∧ (∀ s ∈ pre, Spec.KanaStart s) ∧ ¬ Spec.KanaStart bad := by
          intro rest
          induction rest with
          | nil => intro h; exact absurd (by simp) h
          | cons a rest ih =>
            intro h
            by_cases ha : Spec.KanaStart a
            · obtain ⟨pre, bad, post, rfl, h1, h2⟩ := ih (fun hx => h (by
                intro s hs
                rcases List.mem_cons.1 hs with rfl | hs
                · exact ha
                · exact hx s hs))
              refine ⟨a :: pre, bad, post, rfl, ?_, h2⟩
              intro s hs
              rcases List.mem_cons.1 hs with rfl | hs
              · exact ha
              · exact h1 s hs
            · exact ⟨[], a, rest, rfl, by simp, ha⟩
        obtain ⟨pre, bad, post, rfl, hp, hb⟩ := this rest hall
        rw [h1 s0 pre bad post ho hp hb] at hl
        cases hl
    · rw [h0 s0 rest ho] at hl; cases hl

theorem onbinOk_form {s f : Str} (h : Spec.OnbinOk s) (hf : OnbinForm s f) : Spec.OnbinOk f := by
  rcases hf with rfl | ⟨c, init, l, rfl, rfl⟩
  · exact h
  · right
    rcases h with h | ⟨c', s, e, hk⟩
    · simp at h
    · simp only [List.cons_append, List.cons.injEq] at e
      exact ⟨c, _, rfl, e.1 ▸ hk⟩

theorem kanaStart_form {s f : Str} (h : Spec.KanaStart s) (hf : RendakuForm s f) : Spec.KanaStart f := by
  rcases hf with rfl | ⟨k, v, t, rfl, hv, rfl⟩
  · exact h
  · exact ⟨v, t, rfl, (voices_kana hv).2⟩

theorem forall₂_trans {α : Type} {R : α → α → Prop} (ht : ∀ a b c, R a b → R b c → R a c) {x y z : List α}
    (h : List.Forall₂ R x y) (h' : List.Forall₂ R y z) : List.Forall₂ R x z := by
  induction h generalizing z with
  | nil => cases h'; exact .nil
  | cons hab _ ih =>
    cases h' with
    | cons hbc h' => exact .cons (ht _ _ _ hab hbc) (ih h')

/-- C168: the surface forms of a surface form are among those found already. -/
theorem C168_surface_closed (segs : List Str) (l : List (List Str)) (hl : surfaceForms segs = .ok l) (form : List Str) (hf : form ∈ l) :
    ∃ l', surfaceForms form = .ok l' ∧ ∀ g ∈ l', g ∈ l := by
  obtain ⟨s0, rest, rfl, h0, hr⟩ := surfaceForms_domain hl
  obtain ⟨l1, e1, _, m1⟩ := C17_surface_forms_exact s0 rest h0 hr
  rw [hl] at e1; cases e1
  obtain ⟨f0, fs, rfl, hf0, hfs⟩ := (m1 form).1 hf
  have hk : ∀ s ∈ fs, Spec.KanaStart s := by
    intro s hs
    obtain ⟨j, hj, rfl⟩ := List.getElem_of_mem hs
    obtain ⟨hlen, hx⟩ := forall₂_iff_getElem.1 hfs
    have hj' : j < rest.length := by omega
    exact kanaStart_form (hr rest[j] (List.getElem_mem _)) (hx j _ _ (by simp [hj']) (by simp [hj]))
  obtain ⟨l2, e2, _, m2⟩ := C17_surface_forms_exact f0 fs (onbinOk_form h0 hf0) hk
  refine ⟨l2, e2, fun g hg => (m1 g).2 ?_⟩
  obtain ⟨g0, gs, rfl, hg0, hgs⟩ := (m2 g).1 hg
  exact ⟨g0, gs, rfl, onbinForm_trans hf0 hg0, forall₂_trans (R := RendakuForm) (fun _ _ _ a b => rendakuForm_trans a b) hfs hgs⟩

/-! ### The one from the other -/

/-- A later segment and its canonical form differ at most in the first kana. -/
def Spec.OnlyVoicing (seg form : Str) : Prop := form.drop 1 = seg.drop 1

theorem rendaku_of_canonical {r : Bool} {c : Chr} {s f : Str} (h : Canonical true r (c :: s) f) :
    RendakuForm f (c :: s) ↔ Spec.OnlyVoicing (c :: s) f := by
  constructor
  · rintro (h | ⟨k, v, t, rfl, _, e⟩)
    · rw [h]; rfl
    · cases e; rfl
  · intro hv
    unfold Spec.OnlyVoicing at hv
    rcases h with h | ⟨_, v, k, t, hu, hvo, rfl⟩
    · obtain ⟨t, rfl⟩ := ungeminated_head h
      simp only [List.drop_succ_cons, List.drop_zero] at hv
      exact Or.inl (by rw [hv])
    · obtain ⟨u, e⟩ := ungeminated_head hu
      cases e
      simp only [List.drop_succ_cons, List.drop_zero] at hv
      exact Or.inr ⟨k, c, t, rfl, hvo, by rw [hv]⟩

theorem onbin_of_canonical {r : Bool} {s f : Str} (h : Canonical false r s f) : OnbinForm f s := by
  rcases h with (rfl | ⟨_, c, init, o, rfl, _, rfl⟩) | ⟨h, _⟩
  · exact Or.inl rfl
  · exact Or.inr ⟨c, init, o, rfl, rfl⟩
  · cases h

theorem onlyVoicing_last {s f : Str} (h : Canonical true false s f) : Spec.OnlyVoicing s f := by
  rcases h with (rfl | ⟨h, _⟩) | ⟨_, v, k, t, (rfl | ⟨h, _⟩), _, rfl⟩
  · rfl
  · cases h
  · rfl
  · cases h

/-- C168: a reading is among the surface forms of one of its canonical forms exactly if no segment but the first had its sokuon undone. -/
theorem C168_converse_iff (s0 : Str) (segs : List Str) (l : List (List Str)) (hl : canonicalForms (s0 :: segs) = .ok l) (f0 : Str) (fs : List Str)
    (hf : f0 :: fs ∈ l) :
    ∃ l', surfaceForms (f0 :: fs) = .ok l' ∧ (s0 :: segs ∈ l' ↔ List.Forall₂ Spec.OnlyVoicing segs fs) := by
  have hg := C19_canonical_forms_domain _ l hl
  obtain ⟨l1, e1, _, _, m1⟩ := C19_canonical_forms_exact _ hg
  rw [hl] at e1; cases e1
  have hc := (m1 _).1 hf
  have hgf := good_inContext hg hc
  obtain ⟨c0, t0, hf0, hk0, _⟩ := hgf 0 f0 rfl
  have hks : ∀ s ∈ fs, Spec.KanaStart s := by
    intro s hs
    obtain ⟨j, hj, rfl⟩ := List.getElem_of_mem hs
    obtain ⟨c, t, e, h1, _⟩ := hgf (j + 1) fs[j] (by simp)
    exact ⟨c, t, e, h1⟩
  obtain ⟨l2, e2, _, m2⟩ := C17_surface_forms_exact f0 fs (Or.inr ⟨c0, t0, hf0, hk0⟩) hks
  refine ⟨l2, e2, ?_⟩
  rw [m2]
  have hlen : fs.length = segs.length := by simpa using hc.1
  have key : List.Forall₂ RendakuForm fs segs ↔ List.Forall₂ Spec.OnlyVoicing segs fs := by
    rw [forall₂_iff_getElem, forall₂_iff_getElem]
    constructor
    · rintro ⟨_, h⟩
      refine ⟨hlen.symm, fun i a b ha hb => ?_⟩
      obtain ⟨c, s, rfl, _⟩ := hg (i + 1) a (by simpa using ha)
      have := hc.2 (i + 1) _ b (by simpa using ha) (by simpa using hb)
      exact (rendaku_of_canonical this).1 (h i b _ hb ha)
    · rintro ⟨_, h⟩
      refine ⟨hlen, fun i b a hb ha => ?_⟩
      obtain ⟨c, s, rfl, _⟩ := hg (i + 1) a (by simpa using ha)
      have := hc.2 (i + 1) _ b (by simpa using ha) (by simpa using hb)
      exact (rendaku_of_canonical this).2 (h i _ b ha hb)
  constructor
  · rintro ⟨g0, gs, e, _, h⟩
    cases e
    exact key.1 h
  · intro h
    exact ⟨s0, segs, rfl, onbin_of_canonical (hc.2 0 s0 f0 rfl rfl), key.2 h⟩

/-- C168: so for readings of one or two segments the two functions are inverse to each other: every canonical form has the reading among
its surface forms. -/
theorem C168_converse_partial (s0 : Str) (segs : List Str) (h2 : segs.length ≤ 1) (l : List (List Str))
    (hl : canonicalForms (s0 :: segs) = .ok l) (form : List Str) (hf : form ∈ l) :
    ∃ l', surfaceForms form = .ok l' ∧ s0 :: segs ∈ l' := by
  have hg := C19_canonical_forms_domain _ l hl
  obtain ⟨l1, e1, _, _, m1⟩ := C19_canonical_forms_exact _ hg
  rw [hl] at e1; cases e1
  have hc := (m1 _).1 hf
  cases form with
  | nil => exact absurd hc.1 (by simp)
  | cons f0 fs =>
    obtain ⟨l', e, hm⟩ := C168_converse_iff s0 segs l hl f0 fs hf
    refine ⟨l', e, hm.2 (forall₂_iff_getElem.2 ⟨by simpa using hc.1.symm, fun i a b ha hb => ?_⟩)⟩
    have hi := (List.getElem?_eq_some_iff.1 ha).1
    have := hc.2 (i + 1) a b (by simpa using ha) (by simpa using hb)
    have h0 : i = 0 := by omega
    subst h0
    simp only [List.length_cons] at this
    rw [show decide (0 + 1 + 1 < segs.length + 1) = false from by simp; omega] at this
    exact onlyVoicing_last this

/-- C168 as stated is false for three segments: に+がく+き is a canonical form of にがっき, but にがっき is no surface form of it. -/
theorem C168_refuted :
    [u!"に", u!"がく", u!"き"] ∈ ((canonicalForms [u!"に", u!"がっ", u!"き"]).toOption.getD []) ∧
    [u!"に", u!"がっ", u!"き"] ∉ ((surfaceForms [u!"に", u!"がく", u!"き"]).toOption.getD []) := by
  constructor <;> decide +kernel

-- the hypotheses are met
example : (canonicalForms [u!"がっ", u!"こう"]).toOption.isSome ∧ [u!"がく", u!"こう"] ∈ ((canonicalForms [u!"がっ", u!"こう"]).toOption.getD []) ∧
    (surfaceForms [u!"がく", u!"こう"]).toOption.isSome := by decide +kernel

end Cjk
