import Verif.Props.KanaVoiced
/-!
# C137: exactly when composed and decomposed segments have the same forms
-/

namespace Cjk
open Py
open Spec (Canon KanaUcd IsSoundMark)

/-- A text of kana and separate sound marks. -/
def Spec.MarkedKana (s : Str) : Prop := ∀ c ∈ s, Spec.IsKana c ∨ IsSoundMark c

/-- The same exception, or lists of forms that are the same up to canonical equivalence. -/
def Spec.SameForms (U : Ucd) : Except PyErr (List Str) → Except PyErr (List Str) → Prop
  | .ok l, .ok l' => (∀ f ∈ l, ∃ f' ∈ l', Canon U f f') ∧ ∀ f' ∈ l', ∃ f ∈ l, Canon U f f'
  | .error e, .error e' => e = e'
  | _, _ => False

/-! ### Decompositions -/

theorem marked_decomp {U : Ucd} (hU : KanaUcd U) (hp : Spec.PlainKana U) {c : Chr} (hc : Spec.IsKana c ∨ IsSoundMark c) :
    (U.decomp c = [c] ∧ (U.ccc c = 0 ∨ U.ccc c = 8)) ∨ ∃ m b, IsSoundMark m ∧ (c, b) ∈ Spec.pairsOf m ∧ U.decomp c = [b, m] ∧ U.ccc b = 0 := by
  rcases hc with hc | hc
  · rcases kana_decomp hU hp hc with h | h
    · exact .inl ⟨h.1, .inl h.2⟩
    · exact .inr h
  · exact .inl ⟨(hU.mark c hc).1, .inr (hU.mark c hc).2⟩

theorem canonOrder_marked (U : Ucd) (l : Str) (h : ∀ x ∈ l, U.ccc x = 0 ∨ U.ccc x = 8) : canonOrder U l = l := by
  have key : ∀ (l acc : Str), (∀ x ∈ l, U.ccc x = 0 ∨ U.ccc x = 8) → (∀ x ∈ acc, U.ccc x = 0 ∨ U.ccc x = 8) →
      l.foldl (fun acc c => insertMark U c acc) acc = l.reverse ++ acc := by
    intro l
    induction l with
    | nil => intro acc _ _; rfl
    | cons c l ih =>
      intro acc h1 h2
      have hc := h1 c (by simp)
      have e : insertMark U c acc = c :: acc := by
        cases acc with
        | nil => rfl
        | cons d acc =>
          have hd := h2 d (by simp)
          rw [insertMark, if_neg (by omega)]
      rw [List.foldl_cons, e, ih (c :: acc) (fun x hx => h1 x (by simp [hx]))]
      · simp
      · intro x hx
        rcases List.mem_cons.1 hx with rfl | hx
        · exact hc
        · exact h2 x hx
  unfold canonOrder
  rw [key l [] h (by simp)]
  simp

theorem nfd_marked {U : Ucd} (hU : KanaUcd U) (hp : Spec.PlainKana U) {s : Str} (hs : Spec.MarkedKana s) : nfd U s = s.flatMap U.decomp := by
  refine canonOrder_marked U _ (fun x hx => ?_)
  obtain ⟨c, hc, hx⟩ := List.mem_flatMap.1 hx
  rcases marked_decomp hU hp (hs c hc) with ⟨h1, h2⟩ | ⟨m, b, hm, _, h1, h2⟩
  · rw [h1, List.mem_singleton] at hx; rw [hx]; exact h2
  · rw [h1] at hx
    rcases List.mem_cons.1 hx with rfl | hx
    · exact .inl h2
    · rw [List.mem_singleton.1 hx]; exact .inr (hU.mark m hm).2

theorem canon_of_decomp {U : Ucd} {s t : Str} (h : s.flatMap U.decomp = t.flatMap U.decomp) : Canon U s t :=
  (canon_flatMap U s).trans (h ▸ (canon_flatMap U t).symm)

/-- Bases are kana of the same script, and not composed. -/
theorem pair_base {U : Ucd} (hp : Spec.PlainKana U) {m c b : Chr} (h : (c, b) ∈ Spec.pairsOf m) :
    Spec.sokuonOf b = Spec.sokuonOf c ∧ Spec.onbinOf b = Spec.onbinOf c := by
  have k1 : ∀ p ∈ Spec.voicedPairs, Spec.sokuonOf p.2 = Spec.sokuonOf p.1 ∧ Spec.onbinOf p.2 = Spec.onbinOf p.1 := by decide +kernel
  have k2 : ∀ p ∈ Spec.semivoicedPairs, Spec.sokuonOf p.2 = Spec.sokuonOf p.1 ∧ Spec.onbinOf p.2 = Spec.onbinOf p.1 := by decide +kernel
  unfold Spec.pairsOf at h
  split at h
  · exact k1 _ h
  · exact k2 _ h

/-- The first characters of equivalent texts. -/
theorem marked_heads {U : Ucd} (hU : KanaUcd U) (hp : Spec.PlainKana U) {c d : Chr} {s t : Str} (hc : Spec.IsKana c ∨ IsSoundMark c)
    (hd : Spec.IsKana d ∨ IsSoundMark d) (h : (c :: s).flatMap U.decomp = (d :: t).flatMap U.decomp) :
    c = d ∨ (∃ m, IsSoundMark m ∧ (c, d) ∈ Spec.pairsOf m) ∨ ∃ m, IsSoundMark m ∧ (d, c) ∈ Spec.pairsOf m := by
  rw [List.flatMap_cons, List.flatMap_cons] at h
  rcases marked_decomp hU hp hc with ⟨h1, _⟩ | ⟨m, b, hm, hcb, h1, _⟩ <;>
    rcases marked_decomp hU hp hd with ⟨h2, _⟩ | ⟨m', b', hm', hdb, h2, _⟩ <;> rw [h1, h2] at h
  · injection h with e _; exact .inl e
  · injection h with e _; rw [e]; exact .inr (.inr ⟨m', hm', hdb⟩)
  · injection h with e _; rw [← e]; exact .inr (.inl ⟨m, hm, hcb⟩)
  · injection h with e1 e2
    injection e2 with e2 _
    subst e1; subst e2
    exact .inl (pairs_injective hcb hdb)

theorem marked_scripts {U : Ucd} (hU : KanaUcd U) (hp : Spec.PlainKana U) {c d : Chr} {s t : Str} (hc : Spec.IsKana c ∨ IsSoundMark c)
    (hd : Spec.IsKana d ∨ IsSoundMark d) (h : (c :: s).flatMap U.decomp = (d :: t).flatMap U.decomp) :
    Spec.sokuonOf c = Spec.sokuonOf d ∧ Spec.onbinOf c = Spec.onbinOf d := by
  rcases marked_heads hU hp hc hd h with rfl | ⟨m, _, h⟩ | ⟨m, _, h⟩
  · exact ⟨rfl, rfl⟩
  · have := pair_base hp h; exact ⟨this.1.symm, this.2.symm⟩
  · exact pair_base hp h

theorem sokuon_decomp {U : Ucd} (hp : Spec.PlainKana U) (c : Chr) : U.decomp (Spec.sokuonOf c) = [Spec.sokuonOf c] := by
  have key : ∀ c ∈ u!"っッ", Spec.IsKana c ∧ (∀ q ∈ Spec.voicedPairs, q.1 ≠ c) ∧ ∀ q ∈ Spec.semivoicedPairs, q.1 ≠ c := by decide +kernel
  obtain ⟨a1, a2, a3⟩ := key (Spec.sokuonOf c) (by unfold Spec.sokuonOf; split <;> simp)
  exact (hp _ a1 (fun b hb => a2 _ hb rfl) (fun b hb => a3 _ hb rfl)).1

theorem onbin_decomp {U : Ucd} (hp : Spec.PlainKana U) {c o : Chr} (h : o ∈ Spec.onbinOf c) : U.decomp o = [o] := by
  have key : ∀ c ∈ u!"いちりきつくイチリキツク", Spec.IsKana c ∧ (∀ q ∈ Spec.voicedPairs, q.1 ≠ c) ∧ ∀ q ∈ Spec.semivoicedPairs, q.1 ≠ c := by decide +kernel
  obtain ⟨a1, a2, a3⟩ := key o (by unfold Spec.onbinOf at h; split at h <;> revert h <;> simp <;> omega)
  exact (hp _ a1 (fun b hb => a2 _ hb rfl) (fun b hb => a3 _ hb rfl)).1

theorem sokuon_not_mark (c : Chr) : ¬ IsSoundMark (Spec.sokuonOf c) := by
  unfold Spec.sokuonOf; split <;> (rintro (h | h) <;> revert h <;> decide)

/-- A text whose decomposition ends with a geminate ends with it. -/
theorem marked_last {U : Ucd} (hU : KanaUcd U) (hp : Spec.PlainKana U) {t u : Str} {c : Chr} (ht : Spec.MarkedKana t)
    (h : t.flatMap U.decomp = u ++ [Spec.sokuonOf c]) : ∃ t', t = t' ++ [Spec.sokuonOf c] ∧ t'.flatMap U.decomp = u := by
  rcases List.eq_nil_or_concat t with rfl | ⟨t', x, rfl⟩
  · simp at h
  · rw [List.concat_eq_append] at h ht ⊢
    rw [List.flatMap_append, List.flatMap_cons, List.flatMap_nil, List.append_nil] at h
    rcases marked_decomp hU hp (ht x (by simp)) with ⟨h1, _⟩ | ⟨m, b, hm, _, h1, _⟩ <;> rw [h1] at h
    · have := List.append_inj' h rfl
      injection this.2 with e _
      exact ⟨t', by rw [e], this.1⟩
    · rw [show t'.flatMap U.decomp ++ [b, m] = (t'.flatMap U.decomp ++ [b]) ++ [m] by simp] at h
      have := List.append_inj' h rfl
      injection this.2 with e _
      exact absurd (e ▸ hm) (sokuon_not_mark c)

/-- Undoing gemination gives equivalent forms. -/
theorem ungeminated_marked {U : Ucd} (hU : KanaUcd U) (hp : Spec.PlainKana U) {s t : Str} (hs : Spec.MarkedKana s) (ht : Spec.MarkedKana t)
    (h : s.flatMap U.decomp = t.flatMap U.decomp) (right : Bool) (f : Str) (hf : Spec.Ungeminated right s f) :
    ∃ f', Spec.Ungeminated right t f' ∧ f.flatMap U.decomp = f'.flatMap U.decomp := by
  rcases hf with rfl | ⟨hr, c, init, o, rfl, ho, rfl⟩
  · exact ⟨t, .inl rfl, h⟩
  · rw [List.flatMap_append, List.flatMap_cons (x := Spec.sokuonOf c), List.flatMap_nil, List.append_nil, sokuon_decomp hp] at h
    obtain ⟨t', rfl, h'⟩ := marked_last hU hp ht h.symm
    cases t' with
    | nil =>
      rw [List.flatMap_cons] at h'
      exact absurd (List.append_eq_nil_iff.1 h'.symm).1 (hU.ne_nil c)
    | cons d t' =>
      obtain ⟨e1, e2⟩ := marked_scripts hU hp (hs c (by simp)) (ht d (by simp)) h'.symm
      refine ⟨d :: t' ++ [o], .inr ⟨hr, d, t', o, by rw [e1], e2 ▸ ho, rfl⟩, ?_⟩
      rw [List.flatMap_append, List.flatMap_append, h']

/-- Undoing gemination does not change the length of the decomposition. -/
theorem ungeminated_length {U : Ucd} (hp : Spec.PlainKana U) {s f : Str} {right : Bool} (hf : Spec.Ungeminated right s f) :
    (f.flatMap U.decomp).length = (s.flatMap U.decomp).length := by
  rcases hf with rfl | ⟨hr, c, init, o, rfl, ho, rfl⟩
  · rfl
  · simp [List.flatMap_append, sokuon_decomp hp, onbin_decomp hp ho]

/-- With the same first character all forms are equivalent; without context on the left also with different ones. -/
theorem canonical_marked {U : Ucd} (hU : KanaUcd U) (hp : Spec.PlainKana U) {s t : Str} (hs : Spec.MarkedKana s) (ht : Spec.MarkedKana t)
    (h : s.flatMap U.decomp = t.flatMap U.decomp) (left right : Bool) (hh : left = false ∨ s.head? = t.head?) (f : Str)
    (hf : Spec.Canonical left right s f) : ∃ f', Spec.Canonical left right t f' ∧ Canon U f f' := by
  rcases hf with hf | ⟨hl, v, k, u, hf, hv, rfl⟩
  · obtain ⟨f', h1, h2⟩ := ungeminated_marked hU hp hs ht h right f hf
    exact ⟨f', .inl h1, canon_of_decomp h2⟩
  · have hhead : s.head? = t.head? := by
      rcases hh with hh | hh
      · rw [hl] at hh; cases hh
      · exact hh
    obtain ⟨f', h1, h2⟩ := ungeminated_marked hU hp hs ht h right _ hf
    have hsv : s.head? = some v := by
      rcases hf with hf | ⟨_, c, init, o, rfl, _, hf⟩
      · rw [← hf]; rfl
      · injection hf with e _; rw [e]; rfl
    have htv : ∃ u', f' = v :: u' := by
      rw [hsv] at hhead
      rcases h1 with rfl | ⟨_, c, init, o, rfl, _, rfl⟩
      · cases f' with
        | nil => cases hhead
        | cons x u' => simp at hhead; exact ⟨u', by rw [hhead]⟩
      · simp at hhead; exact ⟨init ++ [o], by rw [hhead]; rfl⟩
    obtain ⟨u', rfl⟩ := htv
    rw [List.flatMap_cons, List.flatMap_cons] at h2
    refine ⟨k :: u', .inr ⟨hl, v, k, u', h1, hv, rfl⟩, canon_of_decomp ?_⟩
    rw [List.flatMap_cons, List.flatMap_cons, List.append_cancel_left h2]

/-! ### The theorem -/

/-- A composed kana has, with context on the left, an exception or a form that its decomposed spelling has not. -/
theorem different_heads {U : Ucd} (hU : KanaUcd U) (hp : Spec.PlainKana U) {c d m : Chr} {s t : Str} (hs : Spec.MarkedKana (c :: s))
    (ht : Spec.MarkedKana (d :: t)) (h : (c :: s).flatMap U.decomp = (d :: t).flatMap U.decomp) (hm : IsSoundMark m)
    (hpair : (d, c) ∈ Spec.pairsOf m) (right : Bool) :
    ∃ l, canonicalSegmentForms (c :: s) true right = .ok l ∧ (canonicalSegmentForms (d :: t) true right = .error .keyError ∨
      ∃ l' f', canonicalSegmentForms (d :: t) true right = .ok l' ∧ f' ∈ l' ∧ ∀ f ∈ l, ¬ Canon U f f') := by
  have kk : ∀ p ∈ Spec.voicedPairs ++ Spec.semivoicedPairs, ¬ IsSoundMark p.1 ∧ ¬ IsSoundMark p.2 ∧ ¬ Spec.IsVu p.2 ∧
      (∀ q ∈ Spec.voicings, p.2 ∉ q.2) := by
    unfold IsSoundMark; decide +kernel
  have hmem : (d, c) ∈ Spec.voicedPairs ++ Spec.semivoicedPairs := by
    unfold Spec.pairsOf at hpair
    split at hpair
    · exact List.mem_append_left _ hpair
    · exact List.mem_append_right _ hpair
  obtain ⟨k1, k2, k3, k4⟩ := kk _ hmem
  have hck : Spec.IsKana c := (hs c (by simp)).resolve_right k2
  have hdk : Spec.IsKana d := (ht d (by simp)).resolve_right k1
  obtain ⟨l, hl, _, hiff⟩ := C137_decomposed (c :: s) s c hck (by rintro ⟨k', q, hq, _, h⟩; exact k4 q hq h) k3 rfl right
  refine ⟨l, hl, ?_⟩
  by_cases hvu : Spec.IsVu d
  · exact .inl ((C16_canonical_segment_forms_partial (d :: t) true right).2.1 d t rfl hdk ⟨rfl, hvu⟩)
  · right
    obtain ⟨l', hl', _, hiff'⟩ := (C16_canonical_segment_forms_partial (d :: t) true right).2.2 d t rfl hdk (fun h => hvu h.2)
    have hvoiced : isVoiced d = true := by
      rw [← (C136_character hU d).1, C136_voiced_iff hU]
      exact .inl ⟨d, c, rfl, List.mem_append.1 hmem⟩
    obtain ⟨k, hk⟩ := ((isVoiced_iff d hdk).1 hvoiced).resolve_right hvu
    refine ⟨l', k :: t, hl', (hiff' _).2 (.inr ⟨rfl, d, k, t, .inl rfl, hk, rfl⟩), fun f hf hcan => ?_⟩
    have hlen := congrArg List.length (nfd_of_canon hU.full hcan)
    simp only [nfd, (canonOrder_perm U _).length_eq] at hlen
    rw [ungeminated_length hp ((hiff f).1 hf), h, List.flatMap_cons, List.flatMap_cons, (decomp_pair hU hm hpair).1] at hlen
    have hkd : U.decomp k = [k] := by
      have kv : ∀ p ∈ Spec.voicings, Spec.IsKana p.1 ∧ (∀ q ∈ Spec.voicedPairs, q.1 ≠ p.1) ∧ ∀ q ∈ Spec.semivoicedPairs, q.1 ≠ p.1 := by decide +kernel
      obtain ⟨p, hpm, rfl, _⟩ := hk
      obtain ⟨a1, a2, a3⟩ := kv p hpm
      exact (hp _ a1 (fun b hb => a2 _ hb rfl) (fun b hb => a3 _ hb rfl)).1
    rw [hkd] at hlen
    simp at hlen

/-- C137: canonically equivalent texts of kana and sound marks have the same forms exactly if there is no context on the left or they begin with the
same character. -/
theorem C137_iff {U : Ucd} (hU : KanaUcd U) (hp : Spec.PlainKana U) {s t : Str} (hs : Spec.MarkedKana s) (ht : Spec.MarkedKana t)
    (h : Canon U s t) (left right : Bool) :
    Spec.SameForms U (canonicalSegmentForms s left right) (canonicalSegmentForms t left right) ↔ left = false ∨ s.head? = t.head? := by
  have hD := nfd_of_canon hU.full h
  rw [nfd_marked hU hp hs, nfd_marked hU hp ht] at hD
  have hflat : ∀ (x : Chr) (r : Str), (x :: r).flatMap U.decomp ≠ [] := by
    intro x r e
    rw [List.flatMap_cons] at e
    exact hU.ne_nil x (List.append_eq_nil_iff.1 e).1
  cases s with
  | nil =>
    cases t with
    | nil =>
      refine ⟨fun _ => .inr rfl, fun _ => ?_⟩
      rw [(C16_canonical_segment_forms_partial [] left right).1 (.inl rfl)]
      exact rfl
    | cons d t => exact absurd hD.symm (hflat d t)
  | cons c s =>
    cases t with
    | nil => exact absurd hD (hflat c s)
    | cons d t =>
      have hheads := marked_heads hU hp (hs c (by simp)) (ht d (by simp)) hD
      constructor
      · intro hsame
        cases left with
        | false => exact .inl rfl
        | true =>
          right
          rcases hheads with rfl | ⟨m, hm, hpair⟩ | ⟨m, hm, hpair⟩
          · rfl
          · obtain ⟨l, h1, h2 | ⟨l', f', h2, hf', hno⟩⟩ := different_heads hU hp ht hs hD.symm hm hpair right
            · rw [h1, h2] at hsame; exact hsame.elim
            · rw [h1, h2] at hsame
              obtain ⟨f, hf, hc⟩ := hsame.1 f' hf'
              exact absurd hc.symm (hno f hf)
          · obtain ⟨l, h1, h2 | ⟨l', f', h2, hf', hno⟩⟩ := different_heads hU hp hs ht hD hm hpair right
            · rw [h1, h2] at hsame; exact hsame.elim
            · rw [h1, h2] at hsame
              obtain ⟨f, hf, hc⟩ := hsame.2 f' hf'
              exact absurd hc (hno f hf)
      · intro hh
        have hkana : Spec.IsKana c ↔ Spec.IsKana d := by
          have kk : ∀ p ∈ Spec.voicedPairs ++ Spec.semivoicedPairs, ¬ IsSoundMark p.1 ∧ ¬ IsSoundMark p.2 := by
            unfold IsSoundMark; decide +kernel
          have hmem : ∀ {m a b : Chr}, (a, b) ∈ Spec.pairsOf m → (a, b) ∈ Spec.voicedPairs ++ Spec.semivoicedPairs := by
            intro m a b hpair
            unfold Spec.pairsOf at hpair
            split at hpair
            · exact List.mem_append_left _ hpair
            · exact List.mem_append_right _ hpair
          rcases hheads with rfl | ⟨m, hm, hpair⟩ | ⟨m, hm, hpair⟩
          · exact Iff.rfl
          · have := kk _ (hmem hpair)
            exact ⟨fun _ => (ht d (by simp)).resolve_right this.2, fun _ => (hs c (by simp)).resolve_right this.1⟩
          · have := kk _ (hmem hpair)
            exact ⟨fun _ => (ht d (by simp)).resolve_right this.1, fun _ => (hs c (by simp)).resolve_right this.2⟩
        by_cases hc : Spec.IsKana c
        · have hd := hkana.1 hc
          have hvu : (left = true ∧ Spec.IsVu c) ↔ (left = true ∧ Spec.IsVu d) := by
            rcases hh with rfl | hh
            · simp
            · simp at hh; rw [hh]
          by_cases hv : left = true ∧ Spec.IsVu c
          · rw [(C16_canonical_segment_forms_partial (c :: s) left right).2.1 c s rfl hc hv,
              (C16_canonical_segment_forms_partial (d :: t) left right).2.1 d t rfl hd (hvu.1 hv)]
            exact rfl
          · obtain ⟨l, h1, _, h2⟩ := (C16_canonical_segment_forms_partial (c :: s) left right).2.2 c s rfl hc hv
            obtain ⟨l', h3, _, h4⟩ := (C16_canonical_segment_forms_partial (d :: t) left right).2.2 d t rfl hd (fun h => hv (hvu.2 h))
            rw [h1, h3]
            constructor
            · intro f hf
              obtain ⟨f', e1, e2⟩ := canonical_marked hU hp hs ht hD left right hh f ((h2 f).1 hf)
              exact ⟨f', (h4 f').2 e1, e2⟩
            · intro f hf
              obtain ⟨f', e1, e2⟩ := canonical_marked hU hp ht hs hD.symm left right (hh.imp_right Eq.symm) f ((h4 f).1 hf)
              exact ⟨f', (h2 f').2 e1, e2.symm⟩
        · rw [(C16_canonical_segment_forms_partial (c :: s) left right).1 (.inr ⟨c, s, rfl, hc⟩),
            (C16_canonical_segment_forms_partial (d :: t) left right).1 (.inr ⟨d, t, rfl, fun h => hc (hkana.2 h)⟩)]
          exact rfl

/-- Not vacuous: がぐっ with the second kana composed or not (same forms), and with the first kana decomposed (other forms with context on the left). -/
example : Spec.MarkedKana u!"がぐっ" ∧ Spec.MarkedKana [c!"が", c!"く", 0x3099, c!"っ"] ∧ Spec.MarkedKana [c!"か", 0x3099, c!"ぐ", c!"っ"] ∧
    Canon kanaUcd u!"がぐっ" [c!"が", c!"く", 0x3099, c!"っ"] ∧ Canon kanaUcd u!"がぐっ" [c!"か", 0x3099, c!"ぐ", c!"っ"] := by
  refine ⟨?_, ?_, ?_, .decompose [c!"が"] c!"ぐ" u!"っ", .decompose [] c!"が" u!"ぐっ"⟩ <;> (unfold Spec.MarkedKana IsSoundMark; decide +kernel)

end Cjk
