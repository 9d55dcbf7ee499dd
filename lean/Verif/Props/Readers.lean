import Verif.Model.Readers
import Verif.Props.Tanaka
import Verif.Props.TatoebaLinks
import Verif.Props.TatoebaSentences
import Verif.Props.TreeEq
/-!
# C106, C107: the Tatoeba readers as dictionaries; the reported source
-/

namespace Cjk
open Py

/-- A mapping all of whose methods agree that exactly the keys with `S` are there. -/
structure Spec.DictLike {V : Type} (m : PyMapping V) (S : Int → Prop) : Prop where
  once : m.iter.Nodup
  iter : ∀ i, i ∈ m.iter ↔ S i
  len : m.len = m.iter.length
  contains : ∀ i, (S i → m.contains i = .ok true) ∧ (¬ S i → m.contains i = .ok false)
  getItem : ∀ i, (S i → ∃ v, m.getItem i = .ok v) ∧ (¬ S i → m.getItem i = .error .keyError)
  get : ∀ i x, (S i → m.get i x = m.getItem i) ∧ (¬ S i → m.get i x = .ok x)
  items : ∃ l, m.items = .ok l ∧ l.map Prod.fst = m.iter ∧ m.values = .ok (l.map Prod.snd) ∧ ∀ kv ∈ l, m.getItem kv.1 = .ok kv.2

theorem itemsLoop_ok {V : Type} (g : Int → Except PyErr V) (ks : List Int) (h : ∀ k ∈ ks, ∃ v, g k = .ok v) :
    ∃ l, itemsLoop g ks = .ok l ∧ l.map Prod.fst = ks ∧ ∀ kv ∈ l, g kv.1 = .ok kv.2 := by
  induction ks with
  | nil => exact ⟨[], rfl, rfl, by simp⟩
  | cons k ks ih =>
    obtain ⟨v, hv⟩ := h k (by simp)
    obtain ⟨l, h1, h2, h3⟩ := ih (fun k hk => h k (by simp [hk]))
    refine ⟨(k, v) :: l, by rw [itemsLoop, hv, h1], by simp [h2], ?_⟩
    intro kv hkv
    rcases List.mem_cons.1 hkv with rfl | hkv
    · exact hv
    · exact h3 kv hkv

/-- What the three readers have in common. -/
theorem consistent_of {V : Type} (m : PyMapping V) (S : Int → Prop) (h1 : m.iter.Nodup) (h2 : m.len = m.iter.length) (h3 : ∀ i, i ∈ m.iter ↔ S i)
    (h4 : ∀ i, (S i → ∃ v, m.getItem i = .ok v) ∧ (¬ S i → m.getItem i = .error .keyError)) : Spec.DictLike m S where
  once := h1
  iter := h3
  len := h2
  getItem := h4
  contains i := by
    refine ⟨fun hs => ?_, fun hs => ?_⟩
    · obtain ⟨v, hv⟩ := (h4 i).1 hs
      unfold PyMapping.contains
      rw [hv]
    · unfold PyMapping.contains
      rw [(h4 i).2 hs]
  get i x := by
    refine ⟨fun hs => ?_, fun hs => ?_⟩
    · obtain ⟨v, hv⟩ := (h4 i).1 hs
      unfold PyMapping.get
      rw [hv]
    · unfold PyMapping.get
      rw [(h4 i).2 hs]
  items := by
    obtain ⟨l, e1, e2, e3⟩ := itemsLoop_ok m.getItem m.iter (fun k hk => (h4 k).1 ((h3 k).1 hk))
    exact ⟨l, e1, e2, by unfold PyMapping.values PyMapping.items; rw [e1]; rfl, e3⟩

/-! ### C106 -/

/-- The ids that a sentence reader should know. -/
def Spec.SentenceId (languages : Option (List Str)) (rows : List (List Str)) (i : Int) : Prop :=
  ∃ r ∈ Spec.accepted languages rows, Spec.rowId r = .ok i

/-- C106: a sentence reader is a dictionary of the ids in the accepted rows, and `sentence`, `language` and (for detailed files)
`details` know the same ids. -/
theorem C106_sentences {D : Type} {strptime : Str → Except PyErr D} {languages : Option (List Str)} {rows : Rows} {a : SentData D}
    (h : sentLoad strptime languages rows = .ok a) :
    Spec.DictLike a.mapping (Spec.SentenceId languages rows.1) ∧
    (∀ i, (Spec.SentenceId languages rows.1 i →
        a.sentence i = a.mapping.getItem i ∧ (∃ l, a.language i = .ok l) ∧
        ((rows.1.headD []).length = 6 → ∃ d, a.details i = .ok d)) ∧
      (¬ Spec.SentenceId languages rows.1 i →
        a.sentence i = .error .invalidIDError ∧ a.language i = .error .invalidIDError ∧
        ((rows.1.headD []).length = 6 → a.details i = .error .invalidIDError))) := by
  obtain ⟨hn, hids⟩ := C54_ids h
  have hsent := C54_sentence h
  have hrow : ∀ i, Spec.SentenceId languages rows.1 i ↔ ∃ r, Spec.lastRow (Spec.accepted languages rows.1) i = some r := by
    intro i
    constructor
    · rintro ⟨r, hr, hi⟩
      cases hl : Spec.lastRow (Spec.accepted languages rows.1) i with
      | some r => exact ⟨r, rfl⟩
      | none => exact absurd hi (lastRow_none.1 hl r hr)
    · rintro ⟨r, hr⟩
      exact ⟨r, lastRow_mem hr⟩
  have hget : ∀ i, (Spec.SentenceId languages rows.1 i → ∃ v, a.mapping.getItem i = .ok v ∧ a.sentence i = .ok v) ∧
      (¬ Spec.SentenceId languages rows.1 i → a.mapping.getItem i = .error .keyError ∧ a.sentence i = .error .invalidIDError) := by
    intro i
    have hm := hids i
    rw [SentData.ids, ← Dict.get?_isSome_iff] at hm
    unfold SentData.mapping SentData.sentence Dict.getItem
    refine ⟨fun hs => ?_, fun hs => ?_⟩
    · obtain ⟨v, hv⟩ := Option.isSome_iff_exists.1 (hm.2 hs)
      exact ⟨v, by simp [hv], by simp [hv]⟩
    · cases hv : Dict.get? a.sent i with
      | some v => exact absurd (hm.1 (by rw [hv]; rfl)) hs
      | none => exact ⟨by simp [hv], by simp⟩
  refine ⟨consistent_of _ _ hn (by simp [SentData.mapping, Dict.keys]) hids ?_, fun i => ⟨fun hs => ?_, fun hs => ?_⟩⟩
  · intro i
    refine ⟨fun hs => ?_, fun hs => ((hget i).2 hs).1⟩
    obtain ⟨v, hv, _⟩ := (hget i).1 hs
    exact ⟨v, hv⟩
  · obtain ⟨v, h1, h2⟩ := (hget i).1 hs
    obtain ⟨r, hr⟩ := (hrow i).1 hs
    refine ⟨by rw [h1, h2], ?_, ?_⟩
    · rw [C55_language_exact h i]
      split
      · exact ⟨_, rfl⟩
      · rename_i hf
        rw [List.find?_eq_none] at hf
        obtain ⟨hra, hri⟩ := lastRow_mem hr
        exact absurd (by simp only [List.any_eq_true, decide_eq_true_eq]; exact ⟨r, hra, rfl, hri⟩)
          (hf (Spec.rowLang r) (by rw [mem_dedup]; exact List.mem_map_of_mem hra))
    · intro h6
      rw [C54_details h i, if_pos h6, hr]
      exact ⟨_, rfl⟩
  · have hno : Spec.lastRow (Spec.accepted languages rows.1) i = none := by
      cases hl : Spec.lastRow (Spec.accepted languages rows.1) i with
      | none => rfl
      | some r => exact absurd ((hrow i).2 ⟨r, hl⟩) hs
    refine ⟨((hget i).2 hs).2, ?_, ?_⟩
    · rw [C55_language_exact h i]
      split
      · rename_i l hf
        have := List.find?_some hf
        simp only [List.any_eq_true, decide_eq_true_eq] at this
        obtain ⟨r, hr, _, hi⟩ := this
        exact absurd ⟨r, hr, hi⟩ hs
      · rfl
    · intro h6
      rw [C54_details h i, if_pos h6, hno]

/-- C106: a links reader is a dictionary of the ids in the accepted links, and `group` knows the same ids. -/
theorem C106_links {src : Str} {rows : Rows} {subset : Option (List Int)} {name : Str} {fn : Spec.FilterName} {r : LinkReader}
    (hn : asciiLower name = fn.text) (h : LinkReader.new src rows subset name = .ok r) :
    Spec.DictLike r.data.mapping (Spec.Occurs (Spec.links subset fn rows.1)) ∧
    (∀ i, (Spec.Occurs (Spec.links subset fn rows.1) i → r.data.groupOf i = r.data.mapping.getItem i) ∧
      (¬ Spec.Occurs (Spec.links subset fn rows.1) i → r.data.groupOf i = .error .invalidIDError)) := by
  have inv := linkInv_all (Spec.links subset fn rows.1)
  rw [← linkReader_new hn h] at inv
  have hget : ∀ i, (Spec.Occurs (Spec.links subset fn rows.1) i → ∃ v, r.data.getItem i = .ok v) ∧
      (¬ Spec.Occurs (Spec.links subset fn rows.1) i → r.data.getItem i = .error .keyError) := by
    intro i
    unfold LinkData.getItem Dict.getItem
    refine ⟨fun hs => ?_, fun hs => ?_⟩
    · obtain ⟨n, hn⟩ := Option.isSome_iff_exists.1 ((inv.occurs i).1 hs)
      obtain ⟨g, hg, _⟩ := inv.home i n hn
      exact ⟨g, by simp [hn, hg, bind, Except.bind]⟩
    · cases hv : Dict.get? r.data.link i with
      | some v => exact absurd ((inv.occurs i).2 (by rw [hv]; rfl)) hs
      | none => rfl
  refine ⟨consistent_of _ _ inv.wfl (by simp [LinkData.mapping, Dict.keys]) ?_ hget, fun i => ⟨fun hs => ?_, fun hs => ?_⟩⟩
  · intro i
    rw [inv.occurs i, Dict.get?_isSome_iff]
    rfl
  · obtain ⟨v, hv⟩ := (hget i).1 hs
    unfold LinkData.groupOf LinkData.mapping
    simp only [hv]
  · unfold LinkData.groupOf
    rw [(hget i).2 hs]

theorem indexRows_WF {edict : Option (Dict Str (List Str))} {subset : Option (List Int)} {rows : List (List Str)} :
    ∀ {d d' : IndexData}, indexRows edict subset d rows = .ok d' → Dict.WF d.sent → Dict.WF d'.sent := by
  induction rows with
  | nil => intro d d' h hw; cases h; exact hw
  | cons r rows ih =>
    intro d d' h hw
    rw [indexRows] at h
    cases hr : indexRow edict subset d r with
    | error e => rw [hr] at h; cases h
    | ok d1 =>
      rw [hr] at h
      refine ih h ?_
      obtain ⟨_, _, _, hc⟩ := indexRow_eq_ok hr
      rcases hc with ⟨_, rfl⟩ | ⟨_, k, m, ws, _, _, _, rfl⟩
      · exact hw
      · exact Dict.WF_set hw _ _

/-- The ids that an index reader should know. -/
def Spec.IndexId (subset : Option (List Int)) (rows : List (List Str)) (i : Int) : Prop :=
  ∃ r ∈ Spec.indexAccepted subset rows, Spec.rowId r = .ok i

/-- C106: an index reader is a dictionary of the ids in the accepted rows, and `link` knows the same ids. -/
theorem C106_indices {edict : Option (Dict Str (List Str))} {subset : Option (List Int)} {rows : Rows} {d : IndexData}
    (h : indexLoad edict subset rows = .ok d) :
    Spec.DictLike d.mapping (Spec.IndexId subset rows.1) ∧
    (∀ i, (Spec.IndexId subset rows.1 i → ∃ m, d.linkOf i = .ok m) ∧
      (¬ Spec.IndexId subset rows.1 i → d.linkOf i = .error .invalidIDError)) := by
  obtain ⟨hrows, hwf⟩ : indexRows edict subset ⟨[], []⟩ rows.1 = .ok d ∧ Dict.WF d.sent := by
    unfold indexLoad at h
    cases hr : indexRows edict subset ⟨[], []⟩ rows.1 with
    | error e => rw [hr] at h; cases h
    | ok d' =>
      rw [hr] at h
      simp only at h
      cases hx : rows.2 with
      | some e => rw [hx] at h; cases h
      | none =>
        rw [hx] at h
        cases h
        exact ⟨rfl, indexRows_WF hr Dict.WF_nil⟩
  obtain ⟨k1, k2⟩ := indexRows_eq_ok hrows
  have hrow : ∀ i, Spec.IndexId subset rows.1 i ↔ ∃ r, Spec.lastRow (Spec.indexAccepted subset rows.1) i = some r := by
    intro i
    constructor
    · rintro ⟨r, hr, hi⟩
      cases hl : Spec.lastRow (Spec.indexAccepted subset rows.1) i with
      | some r => exact ⟨r, rfl⟩
      | none => exact absurd hi (lastRow_none.1 hl r hr)
    · rintro ⟨r, hr⟩
      exact ⟨r, lastRow_mem hr⟩
  have hs : ∀ i, Spec.IndexId subset rows.1 i ↔ (Dict.get? d.sent i).isSome := by
    intro i
    have := k1 i
    rw [hrow]
    cases hl : Spec.lastRow (Spec.indexAccepted subset rows.1) i with
    | none =>
      rw [hl] at this
      simp at this
      simp [this]
    | some r =>
      rw [hl] at this
      simp at this
      obtain ⟨v, hv, _⟩ := this
      simp [hv]
  have hl' : ∀ i, Spec.IndexId subset rows.1 i ↔ (Dict.get? d.link i).isSome := by
    intro i
    have := k2 i
    rw [hrow]
    cases hl : Spec.lastRow (Spec.indexAccepted subset rows.1) i with
    | none =>
      rw [hl] at this
      simp at this
      simp [this]
    | some r =>
      rw [hl] at this
      simp at this
      obtain ⟨v, hv, _⟩ := this
      simp [hv]
  refine ⟨consistent_of _ _ hwf (by simp [IndexData.mapping, Dict.keys]) ?_ ?_, fun i => ⟨fun hi => ?_, fun hi => ?_⟩⟩
  · intro i
    rw [hs, Dict.get?_isSome_iff]
    rfl
  · intro i
    unfold IndexData.mapping IndexData.getItem Dict.getItem
    refine ⟨fun hi => ?_, fun hi => ?_⟩
    · obtain ⟨v, hv⟩ := Option.isSome_iff_exists.1 ((hs i).1 hi)
      exact ⟨v, by simp [hv]⟩
    · cases hv : Dict.get? d.sent i with
      | some v => exact absurd ((hs i).2 (by rw [hv]; rfl)) hi
      | none => simp [hv]
  · obtain ⟨v, hv⟩ := Option.isSome_iff_exists.1 ((hl' i).1 hi)
    exact ⟨v, by simp [IndexData.linkOf, hv]⟩
  · unfold IndexData.linkOf
    cases hv : Dict.get? d.link i with
    | some v => exact absurd ((hl' i).2 (by rw [hv]; rfl)) hi
    | none => rfl

theorem dictsEq_iff {V : Type} (veq : V → V → Bool) (a b : Dict Int V) (ha : Dict.WF a) (hb : Dict.WF b) :
    dictsEq veq a b = true ↔ ∀ x, match Dict.get? a x, Dict.get? b x with
      | none, none => True
      | some v, some w => veq v w = true
      | _, _ => False := by
  have ka : (Dict.keys a).length = a.length := by simp [Dict.keys]
  have kb : (Dict.keys b).length = b.length := by simp [Dict.keys]
  unfold dictsEq
  simp only [Bool.and_eq_true, beq_iff_eq, List.all_eq_true]
  constructor
  · rintro ⟨hlen, hall⟩ x
    have hsub : ∀ y ∈ Dict.keys a, y ∈ Dict.keys b := by
      intro y hy
      obtain ⟨kv, hkv, rfl⟩ := List.mem_map.1 hy
      have := hall kv hkv
      rw [← Dict.get?_isSome_iff]
      cases hg : Dict.get? b kv.1 with
      | none => rw [hg] at this; cases this
      | some w => rfl
    have hback := subset_back ha hsub (by omega)
    cases e : Dict.get? a x with
    | none =>
      rw [Dict.get?_eq_none_iff] at e
      rw [(Dict.get?_eq_none_iff b x).2 (fun hx => e (hback x hx))]
      trivial
    | some v =>
      have := hall (x, v) ((Dict.get?_eq_some_iff ha x v).1 e)
      simp only at this
      cases hg : Dict.get? b x with
      | none => rw [hg] at this; cases this
      | some w => rw [hg] at this; exact this
  · intro hx
    have h1 : ∀ y ∈ Dict.keys a, y ∈ Dict.keys b := by
      intro y hy
      rw [← Dict.get?_isSome_iff] at hy ⊢
      have := hx y
      obtain ⟨v, hv⟩ := Option.isSome_iff_exists.1 hy
      rw [hv] at this
      cases hg : Dict.get? b y with
      | none => rw [hg] at this; exact this.elim
      | some w => rfl
    have h2 : ∀ y ∈ Dict.keys b, y ∈ Dict.keys a := by
      intro y hy
      rw [← Dict.get?_isSome_iff] at hy ⊢
      have := hx y
      obtain ⟨v, hv⟩ := Option.isSome_iff_exists.1 hy
      rw [hv] at this
      cases hg : Dict.get? a y with
      | none => rw [hg] at this; exact this.elim
      | some w => rfl
    refine ⟨?_, ?_⟩
    · have := length_le_of_subset ha h1
      have := length_le_of_subset hb h2
      omega
    · intro kv hkv
      have := hx kv.1
      rw [(Dict.get?_eq_some_iff ha kv.1 kv.2).2 hkv] at this
      cases hg : Dict.get? b kv.1 with
      | none => rw [hg] at this; exact this.elim
      | some w => rw [hg] at this; exact this

theorem get?_of_items {V : Type} {m : PyMapping V} {S : Int → Prop} (hm : Spec.DictLike m S) {l : List (Int × V)} (h : m.items = .ok l) :
    Dict.WF (Dict.ofList l) ∧ ∀ x, (Dict.get? (Dict.ofList l) x = none ∧ ¬ S x) ∨ ∃ v, Dict.get? (Dict.ofList l) x = some v ∧ m.getItem x = .ok v := by
  obtain ⟨l', h1, h2, _, h3⟩ := hm.items
  rw [h] at h1
  cases h1
  have hnd : (l.map Prod.fst).Nodup := by rw [h2]; exact hm.once
  rw [Dict.ofList_of_nodup l hnd]
  refine ⟨hnd, fun x => ?_⟩
  cases hg : Dict.get? l x with
  | none =>
    left
    refine ⟨rfl, fun hs => ?_⟩
    rw [Dict.get?_eq_none_iff] at hg
    apply hg
    show x ∈ l.map Prod.fst
    rw [h2]
    exact (hm.iter x).2 hs
  | some v => exact Or.inr ⟨v, rfl, h3 (x, v) (Dict.mem_of_get?_eq_some hg)⟩

/-- C106: comparing two readers with `==` never raises, and they are equal exactly if they know the same ids and have equal values for
each of them. -/
theorem C106_equality {V : Type} (veq : V → V → Bool) {m n : PyMapping V} {S T : Int → Prop} (hm : Spec.DictLike m S) (hn : Spec.DictLike n T) :
    ∃ b, m.eq veq n = .ok b ∧
      (b = true ↔ (∀ i, S i ↔ T i) ∧ ∀ i v w, m.getItem i = .ok v → n.getItem i = .ok w → veq v w = true) := by
  obtain ⟨l, hl, _⟩ := hm.items
  obtain ⟨l', hl', _⟩ := hn.items
  refine ⟨_, by unfold PyMapping.eq; rw [hl, hl'], ?_⟩
  obtain ⟨w1, g1⟩ := get?_of_items hm hl
  obtain ⟨w2, g2⟩ := get?_of_items hn hl'
  rw [dictsEq_iff veq _ _ w1 w2]
  have hS : ∀ i v, m.getItem i = .ok v → S i := by
    intro i v hv
    by_cases hs : S i
    · exact hs
    · rw [(hm.getItem i).2 hs] at hv; cases hv
  have hT : ∀ i v, n.getItem i = .ok v → T i := by
    intro i v hv
    by_cases hs : T i
    · exact hs
    · rw [(hn.getItem i).2 hs] at hv; cases hv
  constructor
  · intro h
    refine ⟨fun i => ?_, fun i v w hv hw => ?_⟩
    · have := h i
      rcases g1 i with ⟨e1, s1⟩ | ⟨v, e1, s1⟩ <;> rcases g2 i with ⟨e2, s2⟩ | ⟨w, e2, s2⟩ <;> rw [e1, e2] at this
      · exact ⟨fun hs => absurd hs s1, fun hs => absurd hs s2⟩
      · exact this.elim
      · exact this.elim
      · exact ⟨fun _ => hT i w s2, fun _ => hS i v s1⟩
    · have := h i
      rcases g1 i with ⟨e1, s1⟩ | ⟨v', e1, s1⟩
      · exact absurd (hS i v hv) s1
      · rcases g2 i with ⟨e2, s2⟩ | ⟨w', e2, s2⟩
        · exact absurd (hT i w hw) s2
        · rw [e1, e2] at this
          rw [hv] at s1; rw [hw] at s2
          cases s1; cases s2
          exact this
  · rintro ⟨h1, h2⟩ x
    rcases g1 x with ⟨e1, s1⟩ | ⟨v, e1, s1⟩ <;> rcases g2 x with ⟨e2, s2⟩ | ⟨w, e2, s2⟩ <;> rw [e1, e2]
    · trivial
    · exact s1 ((h1 x).2 (hT x w s2))
    · exact s2 ((h1 x).1 (hS x v s1))
    · exact h2 x v w s1 s2

theorem setsEq_iff (a b : List Int) : setsEq a b = true ↔ ∀ x, x ∈ a ↔ x ∈ b := by
  unfold setsEq
  simp only [Bool.and_eq_true, List.all_eq_true, decide_eq_true_eq]
  exact ⟨fun h x => ⟨h.1 x, h.2 x⟩, fun h => ⟨fun x => (h x).1, fun x => (h x).2⟩⟩

/-- Two words that count as equal: the same fields, where a display that is missing stands for the headword. -/
def Spec.SameWord (v w : Tanaka) : Prop :=
  v.headword = w.headword ∧ v.reading = w.reading ∧ v.sense = w.sense ∧ v.isExample = w.isExample ∧
    v.display.getD v.headword = w.display.getD w.headword

/-- Two sentences of the same length with words that count as equal, one by one. -/
def Spec.SameWords (vs ws : List Tanaka) : Prop :=
  vs.length = ws.length ∧ ∀ (k : Nat) v w, vs[k]? = some v → ws[k]? = some w → Spec.SameWord v w

theorem eq_iff_sameWord (v w : Tanaka) : v.eq w = true ↔ Spec.SameWord v w := by
  rw [C61_eq_iff]
  unfold Spec.SameWord
  constructor
  · rintro ⟨h1, h2, h3, h4, h5⟩
    refine ⟨h1, h2, h3, h4, ?_⟩
    rcases h5 with h5 | ⟨h5, h6⟩ | ⟨h5, h6⟩
    · rw [h5, h1]
    · rw [h5, h6]; exact h1
    · rw [h5, h6]; exact h1
  · rintro ⟨h1, h2, h3, h4, h5⟩
    refine ⟨h1, h2, h3, h4, ?_⟩
    cases hv : v.display with
    | none =>
      cases hw : w.display with
      | none => exact .inl rfl
      | some y =>
        rw [hv, hw] at h5
        simp only [Option.getD_none, Option.getD_some] at h5
        exact .inr (.inl ⟨rfl, by rw [← h5, h1]⟩)
    | some x =>
      cases hw : w.display with
      | none =>
        rw [hv, hw] at h5
        simp only [Option.getD_none, Option.getD_some] at h5
        exact .inr (.inr ⟨rfl, by rw [h5, h1]⟩)
      | some y =>
        rw [hv, hw] at h5
        simp only [Option.getD_some] at h5
        exact .inl (by rw [h5])

theorem wordsEq_iff (vs ws : List Tanaka) : wordsEq vs ws = true ↔ Spec.SameWords vs ws := by
  unfold Spec.SameWords
  induction vs generalizing ws with
  | nil =>
    cases ws with
    | nil => simp [wordsEq]
    | cons w ws => simp [wordsEq]
  | cons v vs ih =>
    cases ws with
    | nil => simp [wordsEq]
    | cons w ws =>
      simp only [wordsEq, Bool.and_eq_true, ih, eq_iff_sameWord, List.length_cons, Nat.add_right_cancel_iff]
      constructor
      · rintro ⟨h1, h2, h3⟩
        refine ⟨h2, fun k x y hx hy => ?_⟩
        cases k with
        | zero => simp only [List.getElem?_cons_zero, Option.some.injEq] at hx hy; subst hx; subst hy; exact h1
        | succ k => exact h3 k x y (by simpa using hx) (by simpa using hy)
      · rintro ⟨h1, h2⟩
        exact ⟨h2 0 v w rfl rfl, h1, fun k x y hx hy => h2 (k + 1) x y (by simpa using hx) (by simpa using hy)⟩

/-- C106: `==` of two readers of the same kind never raises.  Sentence readers are equal exactly if they know the same ids with the same sentences,
links readers if they know the same ids with the same groups, index readers if they know the same ids with words that count as equal. -/
theorem C106_compared :
    (∀ {D : Type} {strptime : Str → Except PyErr D} {languages languages' : Option (List Str)} {rows rows' : Rows} {a a' : SentData D},
      sentLoad strptime languages rows = .ok a → sentLoad strptime languages' rows' = .ok a' →
      ∃ b, a.mapping.eq (fun v w => decide (v = w)) a'.mapping = .ok b ∧
        (b = true ↔ (∀ i, Spec.SentenceId languages rows.1 i ↔ Spec.SentenceId languages' rows'.1 i) ∧
          ∀ i, Spec.SentenceId languages rows.1 i → a.sentence i = a'.sentence i)) ∧
    (∀ {src src' name name' : Str} {subset subset' : Option (List Int)} {rows rows' : Rows} {fn fn' : Spec.FilterName} {r r' : LinkReader},
      asciiLower name = fn.text → asciiLower name' = fn'.text → LinkReader.new src rows subset name = .ok r →
      LinkReader.new src' rows' subset' name' = .ok r' →
      ∃ b, r.data.mapping.eq setsEq r'.data.mapping = .ok b ∧
        (b = true ↔ (∀ i, Spec.Occurs (Spec.links subset fn rows.1) i ↔ Spec.Occurs (Spec.links subset' fn' rows'.1) i) ∧
          ∀ i g g', r.data.groupOf i = .ok g → r'.data.groupOf i = .ok g' → ∀ x, x ∈ g ↔ x ∈ g')) ∧
    (∀ {edict edict' : Option (Dict Str (List Str))} {subset subset' : Option (List Int)} {rows rows' : Rows} {d d' : IndexData},
      indexLoad edict subset rows = .ok d → indexLoad edict' subset' rows' = .ok d' →
      ∃ b, d.mapping.eq wordsEq d'.mapping = .ok b ∧
        (b = true ↔ (∀ i, Spec.IndexId subset rows.1 i ↔ Spec.IndexId subset' rows'.1 i) ∧
          ∀ i ws ws', d.getItem i = .ok ws → d'.getItem i = .ok ws' → Spec.SameWords ws ws')) := by
  refine ⟨?_, ?_, ?_⟩
  · intro D strptime languages languages' rows rows' a a' h h'
    obtain ⟨h1, h2⟩ := C106_sentences h
    obtain ⟨h1', h2'⟩ := C106_sentences h'
    obtain ⟨b, hb, hiff⟩ := C106_equality (fun v w => decide (v = w)) h1 h1'
    refine ⟨b, hb, hiff.trans ⟨fun ⟨e1, e2⟩ => ⟨e1, fun i hi => ?_⟩, fun ⟨e1, e2⟩ => ⟨e1, fun i v w hv hw => ?_⟩⟩⟩
    · rw [((h2 i).1 hi).1, ((h2' i).1 ((e1 i).1 hi)).1]
      obtain ⟨v, hv⟩ := (h1.getItem i).1 hi
      obtain ⟨w, hw⟩ := (h1'.getItem i).1 ((e1 i).1 hi)
      have := e2 i v w hv hw
      rw [hv, hw, of_decide_eq_true this]
    · have hi : Spec.SentenceId languages rows.1 i := by
        by_cases hi : Spec.SentenceId languages rows.1 i
        · exact hi
        · rw [(h1.getItem i).2 hi] at hv; cases hv
      have := e2 i hi
      rw [((h2 i).1 hi).1, ((h2' i).1 ((e1 i).1 hi)).1, hv, hw] at this
      cases this
      exact decide_eq_true rfl
  · intro src src' name name' subset subset' rows rows' fn fn' r r' hn hn' h h'
    obtain ⟨h1, h2⟩ := C106_links hn h
    obtain ⟨h1', h2'⟩ := C106_links hn' h'
    obtain ⟨b, hb, hiff⟩ := C106_equality setsEq h1 h1'
    have key : ∀ {data : LinkData} {S : Int → Prop}, Spec.DictLike data.mapping S →
        (∀ i, (S i → data.groupOf i = data.mapping.getItem i) ∧ (¬ S i → data.groupOf i = .error .invalidIDError)) →
        ∀ i g, data.groupOf i = .ok g ↔ data.mapping.getItem i = .ok g := by
      intro data S k1 k2 i g
      by_cases hi : S i
      · rw [(k2 i).1 hi]
      · rw [(k2 i).2 hi, (k1.getItem i).2 hi]; constructor <;> intro x <;> cases x
    refine ⟨b, hb, hiff.trans ⟨fun ⟨e1, e2⟩ => ⟨e1, fun i g g' hg hg' => ?_⟩, fun ⟨e1, e2⟩ => ⟨e1, fun i g g' hg hg' => ?_⟩⟩⟩
    · exact (setsEq_iff g g').1 (e2 i g g' ((key h1 h2 i g).1 hg) ((key h1' h2' i g').1 hg'))
    · exact (setsEq_iff g g').2 (e2 i g g' ((key h1 h2 i g).2 hg) ((key h1' h2' i g').2 hg'))
  · intro edict edict' subset subset' rows rows' d d' h h'
    obtain ⟨b, hb, hiff⟩ := C106_equality wordsEq (C106_indices h).1 (C106_indices h').1
    refine ⟨b, hb, hiff.trans ⟨fun ⟨e1, e2⟩ => ⟨e1, fun i g g' hg hg' => ?_⟩, fun ⟨e1, e2⟩ => ⟨e1, fun i g g' hg hg' => ?_⟩⟩⟩
    · exact (wordsEq_iff g g').1 (e2 i g g' hg hg')
    · exact (wordsEq_iff g g').2 (e2 i g g' hg hg')

/-- Two index files that differ in a display that repeats the headword give equal readers. -/
example : ∃ d d', indexLoad none none ([[u!"1", u!"7", u!"彼"]], none) = .ok d ∧ indexLoad none none ([[u!"1", u!"9", u!"彼{彼}"]], none) = .ok d' ∧
    d.mapping.eq wordsEq d'.mapping = .ok true := by
  refine ⟨_, _, rfl, rfl, ?_⟩; decide +kernel

/-- A reader with a group of three, one of two, and a lookup that fails. -/
example : ∃ r, LinkReader.new u!"links.csv" ([[u!"1", u!"2"], [u!"4", u!"5"], [u!"2", u!"3"]], none) none u!"Both" = .ok r ∧
    asciiLower u!"Both" = Spec.FilterName.both.text ∧ r.data.mapping.contains 3 = .ok true ∧ r.data.mapping.contains 6 = .ok false ∧
    r.data.mapping.items = .ok [(2, [2, 1, 3]), (1, [2, 1, 3]), (5, [5, 4]), (4, [5, 4]), (3, [2, 1, 3])] := by
  refine ⟨_, rfl, ?_, ?_, ?_, ?_⟩ <;> decide +kernel

/-! ### C107 -/

/-- The source of the data according to what the caller has seen: the last one whose assignment did not raise. -/
def Spec.loadedFrom (first : Str) : List (Str × Option PyErr) → Str
  | [] => first
  | (src, none) :: l => Spec.loadedFrom src l
  | (_, some _) :: l => Spec.loadedFrom first l

/-- What is needed of an assignment. -/
structure AssignLaw {R A : Type} (assign : R → Str → Rows → R × Option PyErr) (src : R → Str) (data : R → A) : Prop where
  named : ∀ r s rows, src (assign r s rows).1 = s
  kept : ∀ r s rows e, (assign r s rows).2 = some e → data (assign r s rows).1 = data r

/-- The sources of a history together with what the assignments raised. -/
def seen {R : Type} (assign : R → Str → Rows → R × Option PyErr) (r : R) (l : List (Str × Rows)) : List (Str × Option PyErr) :=
  (l.map Prod.fst).zip (assignAll assign r l).2

theorem assignAll_src {R A : Type} {assign : R → Str → Rows → R × Option PyErr} {src : R → Str} {data : R → A}
    (h : AssignLaw assign src data) (r : R) (l : List (Str × Rows)) :
    src (assignAll assign r l).1 = (l.map Prod.fst).getLastD (src r) := by
  induction l generalizing r with
  | nil => rfl
  | cons x l ih =>
    obtain ⟨s, rows⟩ := x
    rw [assignAll]
    simp only [ih, h.named, List.map_cons]
    cases l.map Prod.fst <;> rfl

theorem assignAll_append {R : Type} (assign : R → Str → Rows → R × Option PyErr) (r : R) (l l' : List (Str × Rows)) :
    (assignAll assign r (l ++ l')).1 = (assignAll assign (assignAll assign r l).1 l').1 := by
  induction l generalizing r with
  | nil => rfl
  | cons x l ih => obtain ⟨s, rows⟩ := x; simp only [List.cons_append, assignAll, ih]

theorem loadedFrom_last {R : Type} {assign : R → Str → Rows → R × Option PyErr}
    (r : R) (l : List (Str × Rows)) (first : Str) (s : Str) (rows : Rows)
    (hok : (assign (assignAll assign r l).1 s rows).2 = none) :
    Spec.loadedFrom first (seen assign r (l ++ [(s, rows)])) = s := by
  induction l generalizing r first with
  | nil =>
    simp only [assignAll] at hok
    simp [seen, assignAll, hok, Spec.loadedFrom]
  | cons x l ih =>
    obtain ⟨s', rows'⟩ := x
    have := ih (assign r s' rows').1
    simp only [assignAll] at hok
    simp only [seen, List.cons_append, List.map_cons, assignAll, List.zip_cons_cons]
    cases (assign r s' rows').2 with
    | none => exact ih (assign r s' rows').1 s' hok
    | some e => exact ih (assign r s' rows').1 first hok

theorem assignAll_failed {R A : Type} {assign : R → Str → Rows → R × Option PyErr} {src : R → Str} {data : R → A}
    (h : AssignLaw assign src data) (r : R) (l : List (Str × Rows)) (hf : none ∉ (assignAll assign r l).2) :
    data (assignAll assign r l).1 = data r := by
  induction l generalizing r with
  | nil => rfl
  | cons x l ih =>
    obtain ⟨s, rows⟩ := x
    simp only [assignAll, List.mem_cons, not_or] at hf ⊢
    rw [ih _ hf.2]
    cases he : (assign r s rows).2 with
    | none => exact absurd he.symm hf.1
    | some e => exact h.kept r s rows e he

theorem sentences_law {D : Type} (strptime : Str → Except PyErr D) :
    AssignLaw (fun (r : SentReader D) s rows => r.assign strptime s rows) (·.src) (·.data) := by
  refine ⟨fun r s rows => ?_, fun r s rows e he => ?_⟩
  · unfold SentReader.assign
    cases sentLoad strptime r.languages rows <;> rfl
  · unfold SentReader.assign at *
    cases h1 : sentLoad strptime r.languages rows <;> rw [h1] at he
    cases he

theorem links_law : AssignLaw LinkReader.assign (·.src) (·.data) := by
  refine ⟨fun r s rows => ?_, fun r s rows e he => ?_⟩
  · unfold LinkReader.assign
    cases linkLoad r.subset r.filter rows <;> rfl
  · unfold LinkReader.assign at *
    cases h1 : linkLoad r.subset r.filter rows <;> rw [h1] at he
    cases he

theorem indices_law : AssignLaw IndexReader.assign (·.src) (·.data) := by
  refine ⟨fun r s rows => ?_, fun r s rows e he => ?_⟩
  · unfold IndexReader.assign
    cases indexLoad r.edict r.subset rows <;> rfl
  · unfold IndexReader.assign at *
    cases h1 : indexLoad r.edict r.subset rows <;> rw [h1] at he
    cases he

/-- C56 over whole histories: after any assignments, the data are those from the last assignment that did not raise, however many failed
since. -/
theorem C56_history {D : Type} (strptime : Str → Except PyErr D) :
    (∀ (r : SentReader D) (l l' : List (Str × Rows)),
      none ∉ (assignAll (fun r s rows => r.assign strptime s rows) (assignAll (fun r s rows => r.assign strptime s rows) r l).1 l').2 →
      (assignAll (fun r s rows => r.assign strptime s rows) r (l ++ l')).1.data = (assignAll (fun r s rows => r.assign strptime s rows) r l).1.data) ∧
    (∀ (r : LinkReader) (l l' : List (Str × Rows)), none ∉ (assignAll LinkReader.assign (assignAll LinkReader.assign r l).1 l').2 →
      (assignAll LinkReader.assign r (l ++ l')).1.data = (assignAll LinkReader.assign r l).1.data) ∧
    (∀ (r : IndexReader) (l l' : List (Str × Rows)), none ∉ (assignAll IndexReader.assign (assignAll IndexReader.assign r l).1 l').2 →
      (assignAll IndexReader.assign r (l ++ l')).1.data = (assignAll IndexReader.assign r l).1.data) := by
  refine ⟨fun r l l' h => ?_, fun r l l' h => ?_, fun r l l' h => ?_⟩
  · rw [assignAll_append]; exact assignAll_failed (sentences_law strptime) _ _ h
  · rw [assignAll_append]; exact assignAll_failed links_law _ _ h
  · rw [assignAll_append]; exact assignAll_failed indices_law _ _ h

/-- C107: what the readers report as their source: the one assigned last, whether or not the assignment raised. -/
theorem C107_exact {D : Type} (strptime : Str → Except PyErr D) (l : List (Str × Rows)) :
    (∀ r : SentReader D, (assignAll (fun r s rows => r.assign strptime s rows) r l).1.src = (l.map Prod.fst).getLastD r.src) ∧
    (∀ r : LinkReader, (assignAll LinkReader.assign r l).1.src = (l.map Prod.fst).getLastD r.src) ∧
    (∀ r : IndexReader, (assignAll IndexReader.assign r l).1.src = (l.map Prod.fst).getLastD r.src) :=
  ⟨fun r => assignAll_src (sentences_law strptime) r l, fun r => assignAll_src links_law r l, fun r => assignAll_src indices_law r l⟩

/-- C107 (partial): as long as the last assignment did not raise, the reported source is the one the data came from, whatever failed
before.  Missing: readers whose last assignment raised, see `C107_refuted`. -/
theorem C107_partial {D : Type} (strptime : Str → Except PyErr D) (l : List (Str × Rows)) (s : Str) (rows : Rows) :
    (∀ r : SentReader D, ((assignAll (fun r s rows => r.assign strptime s rows) r l).1.assign strptime s rows).2 = none →
      (assignAll (fun r s rows => r.assign strptime s rows) r (l ++ [(s, rows)])).1.src =
        Spec.loadedFrom r.src (seen (fun r s rows => r.assign strptime s rows) r (l ++ [(s, rows)]))) ∧
    (∀ r : LinkReader, ((assignAll LinkReader.assign r l).1.assign s rows).2 = none →
      (assignAll LinkReader.assign r (l ++ [(s, rows)])).1.src = Spec.loadedFrom r.src (seen LinkReader.assign r (l ++ [(s, rows)]))) ∧
    (∀ r : IndexReader, ((assignAll IndexReader.assign r l).1.assign s rows).2 = none →
      (assignAll IndexReader.assign r (l ++ [(s, rows)])).1.src = Spec.loadedFrom r.src (seen IndexReader.assign r (l ++ [(s, rows)]))) := by
  refine ⟨fun r h => ?_, fun r h => ?_, fun r h => ?_⟩
  · rw [(C107_exact strptime _).1, loadedFrom_last r l _ s rows h]; simp
  · rw [(C107_exact strptime _).2.1, loadedFrom_last r l _ s rows h]; simp
  · rw [(C107_exact strptime _).2.2, loadedFrom_last r l _ s rows h]; simp

/-- C107 is false: a failed assignment changes the reported source although the data stay.  This is so for every reader and every source
with another name that raises. -/
theorem C107_refuted {D : Type} (strptime : Str → Except PyErr D) (s : Str) (rows : Rows) (e : PyErr) :
    (∀ r : SentReader D, (r.assign strptime s rows).2 = some e → s ≠ r.src →
      (r.assign strptime s rows).1.data = r.data ∧ (r.assign strptime s rows).1.src ≠
        Spec.loadedFrom r.src (seen (fun r s rows => r.assign strptime s rows) r [(s, rows)])) ∧
    (∀ r : LinkReader, (r.assign s rows).2 = some e → s ≠ r.src →
      (r.assign s rows).1.data = r.data ∧ (r.assign s rows).1.src ≠ Spec.loadedFrom r.src (seen LinkReader.assign r [(s, rows)])) ∧
    (∀ r : IndexReader, (r.assign s rows).2 = some e → s ≠ r.src →
      (r.assign s rows).1.data = r.data ∧ (r.assign s rows).1.src ≠ Spec.loadedFrom r.src (seen IndexReader.assign r [(s, rows)])) := by
  refine ⟨fun r h hs => ⟨(sentences_law strptime).kept r s rows e h, ?_⟩, fun r h hs => ⟨links_law.kept r s rows e h, ?_⟩,
    fun r h hs => ⟨indices_law.kept r s rows e h, ?_⟩⟩
  · rw [(sentences_law strptime).named r s rows]
    simpa [seen, assignAll, h, Spec.loadedFrom] using hs
  · rw [links_law.named r s rows]
    simpa [seen, assignAll, h, Spec.loadedFrom] using hs
  · rw [indices_law.named r s rows]
    simpa [seen, assignAll, h, Spec.loadedFrom] using hs

/-- A reader with a good reload, and then one that fails. -/
example : ∃ r : LinkReader, LinkReader.new u!"a.csv" ([[u!"1", u!"2"]], none) none u!"both" = .ok r ∧
    (assignAll LinkReader.assign r [(u!"b.csv", ([[u!"3", u!"4"]], none)), (u!"c.csv", ([[u!"5"]], none))]).2 =
      [none, some .invalidFileError] ∧
    (assignAll LinkReader.assign r [(u!"b.csv", ([[u!"3", u!"4"]], none)), (u!"c.csv", ([[u!"5"]], none))]).1.src = u!"c.csv" ∧
    Spec.loadedFrom r.src (seen LinkReader.assign r [(u!"b.csv", ([[u!"3", u!"4"]], none)), (u!"c.csv", ([[u!"5"]], none))]) = u!"b.csv" := by
  refine ⟨_, rfl, ?_, ?_, ?_⟩ <;> decide +kernel

end Cjk
