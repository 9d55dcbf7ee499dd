import Verif.Props.BilingualDict
import Verif.Props.BilingualUpdate
import Verif.Props.MapLaws
/-!
# C172: merging entries and dictionaries in any grouping
-/

namespace Cjk
open Py

theorem padded_of_equal {e : Entry} (h : e.readings.length = e.senses.length) : e.padded = e.readings := by
  unfold Entry.padded
  split
  · rename_i h1
    rw [← h, h1]
    simp [repeatList]
  · rfl

/-- **C172** (entries).  Homographs may be merged in any grouping: updating `a` with `b` and then with `c` gives the same entry as updating `b`
with `c` first and then `a` with the result; and a word that differs makes both raise the same exception. -/
theorem C172_entries (a b c : Entry) (ha : Spec.Aligned a) (hb : Spec.Aligned b) (hc : Spec.Aligned c) :
    (∀ ab b' abc c', a.update b = .ok (ab, b') → ab.update c = .ok (abc, c') →
      ∃ bc c'' x, b.update c = .ok (bc, c'') ∧ a.update bc = .ok (abc, x)) ∧
    (∀ bc c'' abc x, b.update c = .ok (bc, c'') → a.update bc = .ok (abc, x) →
      ∃ ab b' c', a.update b = .ok (ab, b') ∧ ab.update c = .ok (abc, c')) := by
  have len : ∀ x y : Entry, Spec.Aligned x → Spec.Aligned y → (x.padded ++ y.padded).length = (x.senses ++ y.senses).length := by
    intro x y hx hy
    rw [List.length_append, List.length_append, Entry.padded_length hx, Entry.padded_length hy]
  constructor
  · intro ab b' abc c' h1 h2
    obtain ⟨w1, e1, _⟩ := Entry.update_ok h1
    subst e1
    obtain ⟨w2, e2, _⟩ := Entry.update_ok h2
    subst e2
    simp only at w2
    refine ⟨_, _, ⟨b.word, b.padded ++ c.padded, b.senses ++ c.senses⟩, by unfold Entry.update; rw [if_pos (w1.symm.trans w2)], ?_⟩
    unfold Entry.update
    rw [if_pos w1]
    simp only [padded_of_equal (e := ⟨a.word, a.padded ++ b.padded, a.senses ++ b.senses⟩) (len a b ha hb),
      padded_of_equal (e := ⟨b.word, b.padded ++ c.padded, b.senses ++ c.senses⟩) (len b c hb hc), List.append_assoc]
  · intro bc c'' abc x h1 h2
    obtain ⟨w1, e1, _⟩ := Entry.update_ok h1
    subst e1
    obtain ⟨w2, e2, _⟩ := Entry.update_ok h2
    subst e2
    simp only at w2
    refine ⟨_, _, ⟨c.word, c.padded, c.senses⟩, by unfold Entry.update; rw [if_pos w2], ?_⟩
    unfold Entry.update
    rw [if_pos (w2.trans w1)]
    simp only [padded_of_equal (e := ⟨a.word, a.padded ++ b.padded, a.senses ++ b.senses⟩) (len a b ha hb),
      padded_of_equal (e := ⟨b.word, b.padded ++ c.padded, b.senses ++ c.senses⟩) (len b c hb hc), List.append_assoc]

/-- **C172** (order of entries).  Merged the other way round, a word has the same senses under each reading, those of the other entry first. -/
theorem C172_swapped (a b ab b' ba a' : Entry) (ha : Spec.Aligned a) (hb : Spec.Aligned b) (hna : a.senses ≠ []) (hnb : b.senses ≠ [])
    (h : a.update b = .ok (ab, b')) (h' : b.update a = .ok (ba, a')) :
    ∃ d e, ab.sensesByReading = .ok d ∧ ba.sensesByReading = .ok e ∧
      ∀ r, ((Dict.get? d r).getD []).Perm ((Dict.get? e r).getD []) := by
  obtain ⟨da, db, dab, _, h1, h2, h3, _, h5, _⟩ := C29_update a b ab b' ha hb h hna hnb
  obtain ⟨eb, ea, eba, _, k1, k2, k3, _, k5, _⟩ := C29_update b a ba a' hb ha h' hnb hna
  rw [h1] at k2; cases k2
  rw [h2] at k1; cases k1
  refine ⟨_, _, h3, k3, fun r => ?_⟩
  rw [h5, k5]
  exact List.perm_append_comm

/-- **C172** (merging twice).  A homograph that is merged twice has its senses twice. -/
theorem C172_twice (a b ab b' abb b'' : Entry) (ha : Spec.Aligned a) (hb : Spec.Aligned b)
    (h : a.update b = .ok (ab, b')) (h' : ab.update b' = .ok (abb, b'')) :
    abb.senses = a.senses ++ b.senses ++ b.senses ∧ Spec.pairs abb = Spec.pairs a ++ Spec.pairs b ++ Spec.pairs b := by
  obtain ⟨_, e1, e2⟩ := Entry.update_ok h
  have hl := Entry.update_lengths ha hb h
  obtain ⟨_, e3, _⟩ := Entry.update_ok h'
  have hl2 := Entry.update_lengths (Or.inr hl.1) (Or.inr hl.2) h'
  have p1 := padded_of_equal hl.1
  have p2 := padded_of_equal hl.2
  have p3 := padded_of_equal hl2.1
  rw [Spec.pairs_eq_zip, Spec.pairs_eq_zip, Spec.pairs_eq_zip, p3, e3, p1, p2, e1, e2]
  refine ⟨rfl, ?_⟩
  simp only
  rw [List.zip_append, List.zip_append (Entry.padded_length ha)]
  simp [Entry.padded_length ha, Entry.padded_length hb]

variable {d e f : Dict Str Entry}

/-- **C172** (dictionaries).  Updates of dictionaries may be grouped in any way, order of the words included. -/
theorem C172_dictionaries (hd : Dict.WF d) (he : Dict.WF e) (hf : Dict.WF f) :
    (bilingualUpdate d e .overwrite >>= fun x => bilingualUpdate x f .overwrite) =
      (bilingualUpdate e f .overwrite >>= fun y => bilingualUpdate d y .overwrite) := by
  show Except.ok (Dict.update (Dict.update d e) f) = Except.ok (Dict.update d (Dict.update e f))
  congr 1
  have wde := Dict.WF_update hd e
  have wef := Dict.WF_update he f
  apply dict_ext_keys (Dict.WF_update wde f)
  · rw [keys_update_nodup _ f hf, keys_update_nodup _ e he, keys_update_nodup d _ wef]
    have : (Dict.update e f).map Prod.fst = Dict.keys (Dict.update e f) := rfl
    rw [this, keys_update_nodup e f hf]
    simp only [List.append_assoc, List.filter_append, List.filter_filter]
    congr 2
    apply List.filter_congr
    intro x hx
    by_cases h1 : x ∈ Dict.keys d <;> by_cases h2 : x ∈ Dict.keys e <;> by_cases h3 : x ∈ e.map Prod.fst <;>
      simp_all [List.mem_append, List.mem_filter, Dict.keys]
  · intro k
    rw [get?_update_nodup _ f hf, get?_update_nodup d e he, get?_update_nodup d _ wef, get?_update_nodup e f hf]
    cases Dict.get? f k <;> cases Dict.get? e k <;> rfl

/-- **C172** (dictionaries).  Updating a dictionary with itself, with an empty one, or a second time with the same one changes nothing. -/
theorem C172_no_change (hd : Dict.WF d) (he : Dict.WF e) :
    bilingualUpdate d d .overwrite = .ok d ∧ bilingualUpdate d [] .overwrite = .ok d ∧
    (bilingualUpdate d e .overwrite >>= fun x => bilingualUpdate x e .overwrite) = bilingualUpdate d e .overwrite := by
  have inside : ∀ x y : Dict Str Entry, Dict.WF x → Dict.WF y → (∀ k v, Dict.get? y k = some v → Dict.get? x k = some v) → Dict.update x y = x := by
    intro x y hx hy h
    apply dict_ext_keys (Dict.WF_update hx y)
    · rw [keys_update_nodup x y hy]
      refine Eq.trans (congrArg (Dict.keys x ++ ·) ?_) (List.append_nil _)
      · rw [List.filter_eq_nil_iff]
        intro k hk
        have hk2 : k ∈ Dict.keys y := hk
        cases hg : Dict.get? y k with
        | none => exact absurd hk2 ((Dict.get?_eq_none_iff y k).1 hg)
        | some v =>
          have := h k v hg
          have hkx : k ∈ Dict.keys x := by
            apply Classical.byContradiction
            intro hn
            rw [(Dict.get?_eq_none_iff x k).2 hn] at this
            cases this
          simp [hkx]
    · intro k
      rw [get?_update_nodup x y hy]
      cases hg : Dict.get? y k with
      | none => rfl
      | some v => rw [h k v hg]; rfl
  refine ⟨?_, rfl, ?_⟩
  · show Except.ok (Dict.update d d) = Except.ok d
    rw [inside d d hd hd (fun _ _ h => h)]
  · show Except.ok (Dict.update (Dict.update d e) e) = Except.ok (Dict.update d e)
    rw [inside _ e (Dict.WF_update hd e) he]
    intro k v h
    rw [get?_update_nodup d e he, h]
    rfl

/-- The hypotheses are met: three homographs, and dictionaries that share a word. -/
example : Spec.Aligned ⟨u!"生", [u!"なま"], [u!"raw", u!"live"]⟩ ∧ Spec.Aligned ⟨u!"生", [u!"せい", u!"き"], [u!"life", u!"pure"]⟩ ∧
    Entry.update ⟨u!"生", [u!"なま"], [u!"raw", u!"live"]⟩ ⟨u!"生", [u!"せい", u!"き"], [u!"life", u!"pure"]⟩ =
      .ok (⟨u!"生", [u!"なま", u!"なま", u!"せい", u!"き"], [u!"raw", u!"live", u!"life", u!"pure"]⟩,
        ⟨u!"生", [u!"せい", u!"き"], [u!"life", u!"pure"]⟩) := by
  refine ⟨Or.inl rfl, Or.inr rfl, by decide +kernel⟩
example : bilingualUpdate [(u!"生", ⟨u!"生", [u!"なま"], [u!"raw"]⟩), (u!"木", ⟨u!"木", [u!"き"], [u!"tree"]⟩)]
    [(u!"生", ⟨u!"生", [u!"せい"], [u!"life"]⟩)] .overwrite =
    .ok [(u!"生", ⟨u!"生", [u!"せい"], [u!"life"]⟩), (u!"木", ⟨u!"木", [u!"き"], [u!"tree"]⟩)] := by decide +kernel

end Cjk
