import Verif.Spec.EntryHeap
/-!
# C97: entries do not share lists
-/

namespace Cjk
open Py Spec

/-! ### Single steps -/

theorem view_congr {h h' : EHeap} {e : ERef} (h1 : h'.lists e.readings = h.lists e.readings) (h2 : h'.lists e.senses = h.lists e.senses) :
    h'.view e = h.view e := by simp [EHeap.view, h1, h2]

theorem views_congr {h h' : EHeap} (he : h'.entries = h.entries) (hl : ∀ a, Owned h a → h'.lists a = h.lists a) : h'.views = h.views := by
  unfold EHeap.views
  rw [he]
  apply List.map_congr_left
  intro e hm
  exact view_congr (hl _ ⟨e, hm, Or.inl rfl⟩) (hl _ ⟨e, hm, Or.inr rfl⟩)

theorem views_put {h : EHeap} {a : Nat} {xs : List Str} (ha : ¬ Owned h a) : (h.put a xs).views = h.views := by
  apply views_congr (h := h) (h' := h.put a xs) rfl
  intro b hb
  have : b ≠ a := by rintro rfl; exact ha hb
  simp [EHeap.put, this]

theorem Spec.Separate.put {h : EHeap} (hs : Separate h) (a : Nat) (xs : List Str) : Separate (h.put a xs) := ⟨hs.exist, hs.inner, hs.outer⟩

theorem Spec.Separate.next_free {h : EHeap} (hs : Separate h) : ¬ Owned h h.next := fun ho => absurd (hs.exist _ ho) (Nat.lt_irrefl _)

theorem views_alloc {h : EHeap} (hs : Separate h) (xs : List Str) : (h.alloc xs).views = h.views :=
  views_put (xs := xs) hs.next_free

theorem Spec.Separate.alloc {h : EHeap} (hs : Separate h) (xs : List Str) : Separate (h.alloc xs) :=
  ⟨fun a ha => Nat.lt_succ_of_lt (hs.exist a ha), hs.inner, hs.outer⟩

theorem Spec.Separate.push {h : EHeap} (hs : Separate h) {w : Str} {r s : Nat} (hc : Careful h (.new w r s)) :
    Separate { h with entries := h.entries ++ [⟨w, r, s⟩] } ∧
      EHeap.views { h with entries := h.entries ++ [⟨w, r, s⟩] } = h.views ++ [⟨w, h.lists r, h.lists s⟩] := by
  obtain ⟨c1, c2, c3, c4, c5⟩ := hc
  refine ⟨⟨?_, ?_, ?_⟩, by simp [EHeap.views, EHeap.view]⟩
  · rintro a ⟨e, hm, ha⟩
    simp only [List.mem_append, List.mem_singleton] at hm
    rcases hm with hm | rfl
    · exact hs.exist a ⟨e, hm, ha⟩
    · rcases ha with rfl | rfl
      · exact c1
      · exact c2
  · intro e hm
    simp only [List.mem_append, List.mem_singleton] at hm
    rcases hm with hm | rfl
    · exact hs.inner e hm
    · exact c3
  · have key : ∀ {i : Nat} {e : ERef}, (h.entries ++ [⟨w, r, s⟩])[i]? = some e →
        (h.entries[i]? = some e) ∨ (i = h.entries.length ∧ e = ⟨w, r, s⟩) := by
      intro i e hi
      rcases Nat.lt_trichotomy i h.entries.length with hl | hl | hl
      · left; rwa [List.getElem?_append_left hl] at hi
      · right; subst hl; simp at hi; exact ⟨rfl, hi.symm⟩
      · rw [List.getElem?_eq_none (by simp; omega)] at hi; cases hi
    intro i j e f hi hj hij
    rcases key hi with hi | ⟨rfl, rfl⟩ <;> rcases key hj with hj | ⟨rfl, rfl⟩
    · exact hs.outer i j e f hi hj hij
    · have hm := List.mem_of_getElem? hi
      refine ⟨?_, ?_, ?_, ?_⟩
      · rintro h; exact c4 ⟨e, hm, Or.inl h.symm⟩
      · rintro h; exact c5 ⟨e, hm, Or.inl h.symm⟩
      · rintro h; exact c4 ⟨e, hm, Or.inr h.symm⟩
      · rintro h; exact c5 ⟨e, hm, Or.inr h.symm⟩
    · have hm := List.mem_of_getElem? hj
      refine ⟨?_, ?_, ?_, ?_⟩
      · rintro h; exact c4 ⟨f, hm, Or.inl h⟩
      · rintro h; exact c4 ⟨f, hm, Or.inr h⟩
      · rintro h; exact c5 ⟨f, hm, Or.inl h⟩
      · rintro h; exact c5 ⟨f, hm, Or.inr h⟩
    · exact absurd rfl hij

theorem Spec.Separate.newEntry {h h' : EHeap} (hs : Separate h) {w : Str} {r s : Nat} (hc : Careful h (.new w r s))
    (he : h.newEntry w r s = .ok h') : Separate h' ∧ h'.views = h.views ++ [⟨w, h.lists r, h.lists s⟩] := by
  unfold EHeap.newEntry at he
  split at he
  · simp only [Except.ok.injEq] at he
    subst he
    exact hs.push hc
  · cases he

theorem views_getElem? (h : EHeap) (i : Nat) : h.views[i]? = h.entries[i]?.map h.view := by simp [EHeap.views]

/-- Padding changes one entry. -/
theorem Spec.Separate.padAt {h : EHeap} (hs : Separate h) {i : Nat} {e : ERef} (hi : h.entries[i]? = some e) :
    Separate (h.padAt i) ∧ (h.padAt i).views = h.views.set i { h.view e with readings := (h.view e).padded } ∧
      (h.padAt i).entries.length = h.entries.length ∧ h.next ≤ (h.padAt i).next ∧
      (∃ e', (h.padAt i).entries[i]? = some e' ∧ e'.word = e.word ∧ e'.senses = e.senses) ∧
      (∀ k, k ≠ i → (h.padAt i).entries[k]? = h.entries[k]?) := by
  have hm := List.mem_of_getElem? hi
  obtain ⟨hil, hie⟩ := List.getElem?_eq_some_iff.1 hi
  unfold EHeap.padAt
  rw [hi]
  simp only
  by_cases h1 : (h.lists e.readings).length = 1
  · rw [if_pos h1]
    have hmem : ∀ f ∈ h.entries.set i { e with readings := h.next }, f ∈ h.entries ∨ f = { e with readings := h.next } := by
      intro f hf
      rcases List.mem_or_eq_of_mem_set hf with hf | hf
      · exact Or.inl hf
      · exact Or.inr hf
    have hne : e.senses ≠ h.next := fun he => hs.next_free ⟨e, hm, Or.inr he.symm⟩
    refine ⟨⟨?_, ?_, ?_⟩, ?_, by simp, by simp [EHeap.alloc], ⟨{ e with readings := h.next }, by simp [hil], rfl, rfl⟩, ?_⟩
    · rintro a ⟨f, hf, ha⟩
      show a < h.next + 1
      rcases hmem f hf with hf | rfl
      · exact Nat.lt_succ_of_lt (hs.exist a ⟨f, hf, ha⟩)
      · rcases ha with rfl | rfl
        · exact Nat.lt_succ_self _
        · exact Nat.lt_succ_of_lt (hs.exist _ ⟨e, hm, Or.inr rfl⟩)
    · intro f hf
      rcases hmem f hf with hf | rfl
      · exact hs.inner f hf
      · exact fun h => hne h.symm
    · have key : ∀ {k : Nat} {f : ERef}, (h.entries.set i { e with readings := h.next })[k]? = some f →
          (k ≠ i ∧ h.entries[k]? = some f) ∨ (k = i ∧ f = { e with readings := h.next }) := by
        intro k f hk
        by_cases hki : k = i
        · subst hki
          rw [List.getElem?_set_self hil] at hk
          exact Or.inr ⟨rfl, (Option.some.inj hk).symm⟩
        · rw [List.getElem?_set_ne (Ne.symm hki)] at hk
          exact Or.inl ⟨hki, hk⟩
      intro k l f g hk hl hkl
      rcases key hk with ⟨a1, a2⟩ | ⟨rfl, rfl⟩ <;> rcases key hl with ⟨b1, b2⟩ | ⟨rfl, rfl⟩
      · exact hs.outer k l f g a2 b2 hkl
      · obtain ⟨o1, o2, o3, o4⟩ := hs.outer _ _ _ _ a2 hi hkl
        have hf := List.mem_of_getElem? a2
        exact ⟨fun he => hs.next_free ⟨f, hf, Or.inl he.symm⟩, o2, fun he => hs.next_free ⟨f, hf, Or.inr he.symm⟩, o4⟩
      · obtain ⟨o1, o2, o3, o4⟩ := hs.outer _ _ _ _ hi b2 hkl
        have hf := List.mem_of_getElem? b2
        exact ⟨fun he => hs.next_free ⟨g, hf, Or.inl he⟩, fun he => hs.next_free ⟨g, hf, Or.inr he⟩, o3, o4⟩
      · exact absurd rfl hkl
    · apply List.ext_getElem?
      intro k
      rw [views_getElem?]
      by_cases hki : k = i
      · subst hki
        rw [List.getElem?_set_self hil, List.getElem?_set_self (by simpa [EHeap.views] using hil)]
        have hp : (h.view e).padded = repeatList (h.lists e.senses).length (h.lists e.readings) := if_pos h1
        simp only [Option.map_some, hp]
        simp only [EHeap.view, EHeap.alloc, EHeap.put, hne, if_false, if_true]
      · rw [List.getElem?_set_ne (Ne.symm hki), List.getElem?_set_ne (Ne.symm hki), views_getElem?]
        cases hk : h.entries[k]? with
        | none => rfl
        | some f =>
          have hf := List.mem_of_getElem? hk
          have n1 : f.readings ≠ h.next := fun he => hs.next_free ⟨f, hf, Or.inl he.symm⟩
          have n2 : f.senses ≠ h.next := fun he => hs.next_free ⟨f, hf, Or.inr he.symm⟩
          simp only [Option.map_some, EHeap.view, EHeap.alloc, EHeap.put, n1, n2, if_false]
    · intro k hk
      exact List.getElem?_set_ne (Ne.symm hk)
  · rw [if_neg h1]
    refine ⟨hs, ?_, rfl, Nat.le_refl _, ⟨e, hi, rfl, rfl⟩, fun _ _ => rfl⟩
    have : ({ h.view e with readings := (h.view e).padded } : Entry) = h.view e := by
      simp [Entry.padded, EHeap.view, h1]
    rw [this]
    apply List.ext_getElem?
    intro k
    by_cases hki : k = i
    · subst hki
      rw [List.getElem?_set_self (by simpa [EHeap.views] using hil), views_getElem?, hi]
      rfl
    · rw [List.getElem?_set_ne (Ne.symm hki)]

/-- Joining changes one entry. -/
theorem Spec.Separate.join {h : EHeap} (hs : Separate h) {i j : Nat} {e f : ERef} (hi : h.entries[i]? = some e) (hj : h.entries[j]? = some f) :
    Separate (h.join i j) ∧ (h.join i j).views = h.views.set i
        ⟨e.word, (h.view e).readings ++ (h.view f).readings, (h.view e).senses ++ (h.view f).senses⟩ ∧
      (h.join i j).entries = h.entries ∧ (h.join i j).next = h.next := by
  obtain ⟨hil, hie⟩ := List.getElem?_eq_some_iff.1 hi
  have hm := List.mem_of_getElem? hi
  unfold EHeap.join
  rw [hi, hj]
  refine ⟨(hs.put _ _).put _ _, ?_, rfl, rfl⟩
  have hin := hs.inner e hm
  have hfs : f.senses ≠ e.readings := by
    by_cases hij : i = j
    · subst hij
      rw [hi] at hj; cases hj
      exact Ne.symm hin
    · exact fun h' => (hs.outer i j e f hi hj hij).2.1 h'.symm
  apply List.ext_getElem?
  intro k
  rw [views_getElem?]
  show (h.entries[k]?).map _ = _
  by_cases hki : k = i
  · subst hki
    rw [List.getElem?_set_self (by simpa [EHeap.views] using hil), hi]
    simp [EHeap.view, EHeap.extend, EHeap.put, hin, Ne.symm hin, hfs]
  · rw [List.getElem?_set_ne (Ne.symm hki), views_getElem?]
    cases hk : h.entries[k]? with
    | none => rfl
    | some g =>
      obtain ⟨o1, o2, o3, o4⟩ := hs.outer k i g e hk hi hki
      simp [EHeap.view, EHeap.extend, EHeap.put, o1, o2, o3, o4]

theorem padded_padded (e : Entry) : ({ e with readings := e.padded } : Entry).padded = e.padded := by
  unfold Entry.padded
  simp only
  by_cases h : e.readings.length = 1
  · simp only [if_pos h]
    split
    · rename_i h2
      have h3 : e.senses.length = 1 := by
        simpa [repeatList, h] using h2
      rw [h3]
      simp [repeatList]
    · rfl
  · simp only [if_neg h]

theorem Spec.Separate.update {h h' : EHeap} (hs : Separate h) {i j : Nat} (hu : h.update i j = .ok h') :
    ∃ a b x, h.views[i]? = some a ∧ h.views[j]? = some b ∧ a.update b = .ok x ∧
      Separate h' ∧ h'.views = (h.views.set j x.2).set i x.1 ∧ h.next ≤ h'.next ∧ h'.entries.length = h.entries.length := by
  unfold EHeap.update at hu
  cases hi : h.entries[i]? with
  | none => rw [hi] at hu; cases hu
  | some e =>
    cases hj : h.entries[j]? with
    | none => rw [hi, hj] at hu; cases hu
    | some f =>
      rw [hi, hj] at hu
      simp only at hu
      split at hu
      · rename_i hw
        simp only [Except.ok.injEq] at hu
        subst hu
        obtain ⟨p1, p2, p3, p4, ⟨e1, p5, p6, p7⟩, p8⟩ := hs.padAt hi
        refine ⟨h.view e, h.view f, _, by rw [views_getElem?, hi]; rfl, by rw [views_getElem?, hj]; rfl,
          by unfold Entry.update; rw [if_pos (show (h.view e).word = (h.view f).word from hw)], ?_⟩
        have hil := (List.getElem?_eq_some_iff.1 hi).1
        have hjl := (List.getElem?_eq_some_iff.1 hj).1
        have hvl : h.views.length = h.entries.length := by simp [EHeap.views]
        by_cases hij : i = j
        · subst hij
          rw [hi] at hj; cases hj
          obtain ⟨q1, q2, q3, q4, ⟨e2, q5, q6, q7⟩, q8⟩ := p1.padAt p5
          obtain ⟨r1, r2, r3, r4⟩ := q1.join q5 q5
          have v1 : (h.padAt i).view e1 = { h.view e with readings := (h.view e).padded } := by
            have := congrArg (fun l => l[i]?) p2
            simp only [views_getElem?, p5, Option.map_some] at this
            rw [List.getElem?_set_self (by rw [hvl]; exact hil)] at this
            exact Option.some.inj this
          have v2 : ((h.padAt i).padAt i).view e2 = { h.view e with readings := (h.view e).padded } := by
            have := congrArg (fun l => l[i]?) q2
            simp only [views_getElem?, q5, Option.map_some] at this
            rw [List.getElem?_set_self (by rw [p2]; simpa [hvl] using hil), v1, padded_padded] at this
            exact Option.some.inj this
          refine ⟨r1, ?_, by rw [r4]; omega, by rw [r3, q3, p3]⟩
          rw [r2, q2, p2, v2]
          simp only [List.set_set, q6, p6]
          rfl
        · have hj1 : (h.padAt i).entries[j]? = some f := by rw [p8 j (Ne.symm hij)]; exact hj
          obtain ⟨q1, q2, q3, q4, ⟨f2, q5, q6, q7⟩, q8⟩ := p1.padAt hj1
          have hi2 : ((h.padAt i).padAt j).entries[i]? = some e1 := by rw [q8 i hij]; exact p5
          obtain ⟨r1, r2, r3, r4⟩ := q1.join hi2 q5
          have v0 : (h.padAt i).view f = h.view f := by
            have := congrArg (fun l => l[j]?) p2
            simp only [views_getElem?, hj1, Option.map_some] at this
            rw [List.getElem?_set_ne hij, views_getElem?, hj] at this
            exact Option.some.inj this
          have v1 : ((h.padAt i).padAt j).view e1 = { h.view e with readings := (h.view e).padded } := by
            have := congrArg (fun l => l[i]?) q2
            simp only [views_getElem?, hi2, Option.map_some] at this
            rw [List.getElem?_set_ne (Ne.symm hij), p2, List.getElem?_set_self (by rw [hvl]; exact hil)] at this
            exact Option.some.inj this
          have v2 : ((h.padAt i).padAt j).view f2 = { h.view f with readings := (h.view f).padded } := by
            have := congrArg (fun l => l[j]?) q2
            simp only [views_getElem?, q5, Option.map_some] at this
            rw [List.getElem?_set_self (by rw [p2]; simpa [hvl] using hjl), v0] at this
            exact Option.some.inj this
          refine ⟨r1, ?_, by rw [r4]; omega, by rw [r3, q3, p3]⟩
          rw [r2, q2, p2, v1, v2, v0, p6]
          rw [List.set_comm _ _ (Ne.symm hij), List.set_set, List.set_comm _ _ hij]
          rfl
      · cases hu

/-! ### `senses_by_reading` -/

/-- While `senses_by_reading` runs: the lists in the dictionary are new and different, and hold what the value model says. -/
structure ByReading (h : EHeap) (st : EHeap × Dict Str Nat) (d : Dict Str (List Str)) : Prop where
  entries : st.1.entries = h.entries
  next : h.next ≤ st.1.next
  old : ∀ a < h.next, st.1.lists a = h.lists a
  fresh : ∀ kv ∈ st.2, h.next ≤ kv.2 ∧ kv.2 < st.1.next
  nodup : (st.2.map (·.2)).Nodup
  wf : Dict.WF st.2
  content : st.2.map (fun kv => (kv.1, st.1.lists kv.2)) = d

theorem dict_get?_map {β : Type} (f : Nat → β) (d : Dict Str Nat) (k : Str) :
    Dict.get? (d.map (fun kv => (kv.1, f kv.2))) k = (Dict.get? d k).map f := by
  induction d with
  | nil => rfl
  | cons kv d ih =>
    obtain ⟨k', v⟩ := kv
    simp only [List.map_cons, Dict.get?_cons, ih]
    split <;> rfl

theorem dict_set_map {β : Type} (f : Nat → β) (y : β) (a : Nat) (k : Str) (d : Dict Str Nat) (hd : (d.map (·.2)).Nodup)
    (ha : Dict.get? d k = some a) :
    d.map (fun kv => (kv.1, if kv.2 = a then y else f kv.2)) = Dict.set (d.map (fun kv => (kv.1, f kv.2))) k y := by
  induction d with
  | nil => cases ha
  | cons kv d ih =>
    obtain ⟨k', v⟩ := kv
    simp only [List.map_cons, List.nodup_cons, List.mem_map, not_exists, not_and] at hd
    simp only [Dict.get?_cons] at ha
    simp only [List.map_cons, Dict.set]
    by_cases hk : k' = k
    · rw [if_pos hk] at ha
      cases ha
      rw [if_pos hk, if_pos rfl]
      congr 1
      apply List.map_congr_left
      intro kv hkv
      rw [if_neg (hd.1 kv hkv)]
    · rw [if_neg hk] at ha
      rw [if_neg hk, ih hd.2 ha]
      have : v ≠ a := fun e => hd.1 (k, a) (Dict.mem_of_get?_eq_some ha) (by rw [e])
      rw [if_neg this]

theorem ByReading.step {h : EHeap} {st : EHeap × Dict Str Nat} {d : Dict Str (List Str)} (hb : ByReading h st d) (rs : Str × Str) :
    ByReading h (EHeap.appendUnder st rs) (appendUnder d rs.1 rs.2) := by
  have hget : Dict.get? d rs.1 = (Dict.get? st.2 rs.1).map st.1.lists := by
    rw [← hb.content]; exact dict_get?_map _ _ _
  unfold EHeap.appendUnder appendUnder
  cases hg : Dict.get? st.2 rs.1 with
  | some a =>
    have ha := hb.fresh _ (Dict.mem_of_get?_eq_some hg)
    simp only at ha
    refine ⟨hb.entries, hb.next, ?_, hb.fresh, hb.nodup, hb.wf, ?_⟩
    · intro b hb'
      have : b ≠ a := by omega
      simp only [EHeap.put, this, if_false]
      exact hb.old b hb'
    · rw [hget, hg, ← hb.content]
      exact dict_set_map st.1.lists _ a rs.1 st.2 hb.nodup hg
  | none =>
    have hk : rs.1 ∉ Dict.keys st.2 := (Dict.get?_eq_none_iff _ _).1 hg
    have hn := hb.next
    simp only
    have hset := Dict.set_of_not_mem st.2 rs.1 st.1.next hk
    refine ⟨hb.entries, Nat.le_succ_of_le hb.next, ?_, ?_, ?_, Dict.WF_set hb.wf _ _, ?_⟩
    · intro b hb'
      have : b ≠ st.1.next := by omega
      simp only [EHeap.alloc, EHeap.put, this, if_false]
      exact hb.old b hb'
    · intro kv hkv
      simp only [hset, List.mem_append, List.mem_singleton] at hkv
      show _ ∧ kv.2 < st.1.next + 1
      rcases hkv with hkv | rfl
      · have := hb.fresh kv hkv; omega
      · simp only; omega
    · simp only [hset, List.map_append, List.map_cons, List.map_nil]
      rw [List.nodup_append]
      refine ⟨hb.nodup, by simp, ?_⟩
      intro x hx y hy
      obtain ⟨kv, hkv, rfl⟩ := List.mem_map.1 hx
      simp only [List.mem_singleton] at hy
      have := (hb.fresh kv hkv).2
      omega
    · simp only [hset, List.map_append, List.map_cons, List.map_nil]
      rw [hget, hg]
      have hkd : rs.1 ∉ Dict.keys d := by
        rw [← Dict.get?_eq_none_iff, hget, hg]; rfl
      simp only [Option.map_none, Option.getD_none, List.nil_append]
      rw [Dict.set_of_not_mem d _ _ hkd, ← hb.content]
      congr 1
      · apply List.map_congr_left
        intro kv hkv
        have : kv.2 ≠ st.1.next := by have := (hb.fresh kv hkv).2; omega
        simp only [EHeap.alloc, EHeap.put, this, if_false]
      · simp [EHeap.alloc, EHeap.put]

theorem ByReading.fold {h : EHeap} (l : List (Str × Str)) : ∀ {st : EHeap × Dict Str Nat} {d : Dict Str (List Str)}, ByReading h st d →
    ByReading h (l.foldl EHeap.appendUnder st) (l.foldl (fun d rs => appendUnder d rs.1 rs.2) d) := by
  induction l with
  | nil => intro st d hb; exact hb
  | cons x l ih => intro st d hb; exact ih (hb.step x)

/-- C97: `senses_by_reading` answers as on values, and every list in the answer is new and used once: no entry and no list that was there before
changes, and writing into the lists of the answer changes no entry. -/
theorem C97_by_reading (h : EHeap) (i : Nat) (e : ERef) (hi : h.entries[i]? = some e) :
    (∀ err, h.sensesByReading i = .error err ↔ (h.view e).sensesByReading = .error err) ∧
    ∀ h' d, h.sensesByReading i = .ok (h', d) →
      (h.view e).sensesByReading = .ok (d.map (fun kv => (kv.1, h'.lists kv.2))) ∧
      h'.entries = h.entries ∧ h.next ≤ h'.next ∧ (∀ a < h.next, h'.lists a = h.lists a) ∧ (∀ kv ∈ d, h.next ≤ kv.2 ∧ kv.2 < h'.next) ∧ (d.map (·.2)).Nodup := by
  have hv : (h.view e).sensesByReading =
      if (h.lists e.readings).length > 1 then
        if (h.lists e.senses).length = (h.lists e.readings).length then
          .ok (((h.lists e.readings).zip (h.lists e.senses)).foldl (fun d rs => appendUnder d rs.1 rs.2) [])
        else .error .assertionError
      else match h.lists e.readings with
        | [r] => .ok [(r, h.lists e.senses)]
        | _ => .error .valueError := rfl
  rw [hv]
  unfold EHeap.sensesByReading
  rw [hi]
  simp only
  by_cases h1 : (h.lists e.readings).length > 1
  · rw [if_pos h1, if_pos h1]
    by_cases h2 : (h.lists e.senses).length = (h.lists e.readings).length
    · rw [if_pos h2, if_pos h2]
      refine ⟨by simp, ?_⟩
      intro h' d hd
      simp only [Except.ok.injEq] at hd
      have := ByReading.fold (h := h) ((h.lists e.readings).zip (h.lists e.senses)) (st := (h, [])) (d := [])
        ⟨rfl, Nat.le_refl _, fun _ _ => rfl, by simp, by simp, Dict.WF_nil, rfl⟩
      rw [hd] at this
      exact ⟨by rw [this.content], this.entries, this.next, this.old, this.fresh, this.nodup⟩
    · rw [if_neg h2, if_neg h2]
      exact ⟨fun _ => by simp, fun _ _ hd => by cases hd⟩
  · rw [if_neg h1, if_neg h1]
    match hr : h.lists e.readings with
    | [r] =>
      refine ⟨by simp, ?_⟩
      intro h' d hd
      simp only [Except.ok.injEq, Prod.mk.injEq] at hd
      obtain ⟨rfl, rfl⟩ := hd
      refine ⟨by simp [EHeap.alloc, EHeap.put], rfl, by simp [EHeap.alloc], ?_, by simp [EHeap.alloc], by simp⟩
      intro a ha
      have : a ≠ h.next := by omega
      simp [EHeap.alloc, EHeap.put, this]
    | [] => exact ⟨fun _ => by simp, fun _ _ hd => by cases hd⟩
    | _ :: _ :: _ => exact ⟨fun _ => by simp, fun _ _ hd => by cases hd⟩

/-! ### Programs -/

theorem Spec.Separate.mono {h h' : EHeap} (hs : Separate h) (he : h'.entries = h.entries) (hn : h.next ≤ h'.next) : Separate h' := by
  refine ⟨?_, ?_, ?_⟩
  · rintro a ⟨e, hm, ha⟩
    rw [he] at hm
    exact Nat.lt_of_lt_of_le (hs.exist a ⟨e, hm, ha⟩) hn
  · rw [he]; exact hs.inner
  · rw [he]; exact hs.outer

theorem update_none {h : EHeap} {i j : Nat} {err : PyErr} (hu : h.update i j = .error err) :
    EntryOp.step h.views (.update i j) = h.views := by
  unfold EntryOp.step
  unfold EHeap.update at hu
  simp only [views_getElem?]
  cases hi : h.entries[i]? with
  | none => rfl
  | some e =>
    cases hj : h.entries[j]? with
    | none => rfl
    | some f =>
      rw [hi, hj] at hu
      simp only at hu
      split at hu
      · cases hu
      · rename_i hw
        simp [Entry.update, EHeap.view, hw]

theorem step_refines {h : EHeap} (hs : Separate h) (op : HeapOp) (hc : Careful h op) :
    Separate (op.step h) ∧ (op.step h).views = (match op with
      | .new w r s => [EntryOp.new w (h.lists r) (h.lists s)]
      | .update i j => [EntryOp.update i j]
      | _ => []).foldl EntryOp.step h.views := by
  cases op with
  | list xs => exact ⟨hs.alloc xs, views_alloc hs xs⟩
  | write a xs => exact ⟨hs.put a xs, views_put hc⟩
  | new w r s =>
    simp only [HeapOp.step, List.foldl_cons, List.foldl_nil]
    cases hn : h.newEntry w r s with
    | ok h' =>
      obtain ⟨h1, h2⟩ := hs.newEntry hc hn
      refine ⟨h1, ?_⟩
      simp only
      rw [h2]
      unfold EHeap.newEntry at hn
      split at hn
      · rename_i hl
        simp [EntryOp.step, Entry.new, hl]
      · cases hn
    | error e =>
      refine ⟨hs, ?_⟩
      unfold EHeap.newEntry at hn
      split at hn
      · cases hn
      · rename_i hl
        simp [EntryOp.step, Entry.new, hl]
  | update i j =>
    simp only [HeapOp.step, List.foldl_cons, List.foldl_nil]
    cases hu : h.update i j with
    | ok h' =>
      obtain ⟨a, b, x, h1, h2, h3, h4, h5, _⟩ := hs.update hu
      refine ⟨h4, ?_⟩
      simp only [EntryOp.step, h1, h2, h3]
      exact h5
    | error e => exact ⟨hs, (update_none hu).symm⟩
  | byReading i =>
    simp only [HeapOp.step, List.foldl_nil]
    cases hr : h.sensesByReading i with
    | error e => exact ⟨hs, rfl⟩
    | ok st =>
      obtain ⟨h', d⟩ := st
      simp only
      cases hi : h.entries[i]? with
      | none =>
        unfold EHeap.sensesByReading at hr
        rw [hi] at hr
        cases hr
      | some e =>
        obtain ⟨_, h2, h3, h4, _⟩ := (C97_by_reading h i e hi).2 h' d hr
        exact ⟨hs.mono h2 h3, views_congr h2 (fun a ha => h4 a (hs.exist a ha))⟩

theorem separate_empty : Separate .empty := ⟨by rintro a ⟨e, he, _⟩; simp [EHeap.empty] at he, by simp [EHeap.empty], by
  intro i j e f hi; simp [EHeap.empty] at hi⟩

/-- C97 (partial): in every program that gives each entry two lists of its own and does not write into them afterwards, the entries are at all times
what the value model says: entries change by their own `update` only (and are padded as the argument of one).  Missing: programs in which a list is
shared, for which the claim is false (`C97_shared_refuted`). -/
theorem C97_values_partial (ops : List HeapOp) (hc : AllCareful .empty ops) :
    (HeapOp.run .empty ops).views = EntryOp.run (asValues .empty ops) ∧ Separate (HeapOp.run .empty ops) := by
  suffices H : ∀ (ops : List HeapOp) (h : EHeap), Separate h → AllCareful h ops →
      (HeapOp.run h ops).views = (asValues h ops).foldl EntryOp.step h.views ∧ Separate (HeapOp.run h ops) from H ops _ separate_empty hc
  intro ops
  induction ops with
  | nil => intro h hs _; exact ⟨rfl, hs⟩
  | cons op ops ih =>
    intro h hs hc
    obtain ⟨h1, h2⟩ := step_refines hs op hc.1
    obtain ⟨h3, h4⟩ := ih _ h1 hc.2
    refine ⟨?_, h4⟩
    show (HeapOp.run (op.step h) ops).views = _
    rw [h3, h2]
    cases op <;> simp [asValues]

/-- C97 as stated is false: two entries that were given the same list of senses both change when one of them is updated. -/
theorem C97_shared_refuted : ∃ ops : List HeapOp,
    ((HeapOp.run .empty ops).view ⟨u!"b", 1, 2⟩).senses = [u!"x"] ∧ (HeapOp.run .empty ops).entries[1]? = some ⟨u!"b", 1, 2⟩ ∧
    ((HeapOp.run .empty (ops ++ [.update 0 0])).view ⟨u!"b", 1, 2⟩).senses = [u!"x", u!"x"] ∧
    (HeapOp.run .empty (ops ++ [.update 0 0])).entries[1]? = some ⟨u!"b", 1, 2⟩ :=
  ⟨[.list [u!"r"], .list [u!"q"], .list [u!"x"], .new u!"a" 0 2, .new u!"b" 1 2], by decide +kernel, by decide +kernel, by decide +kernel,
    by decide +kernel⟩

/-! ### Loading a dictionary -/

/-- A dictionary of entry objects, and what it looks like. -/
def EHeap.dictView (h : EHeap) (b : Dict Str Nat) : Dict Str Entry := b.map (fun kv => (kv.1, (h.views[kv.2]?).getD ⟨[], [], []⟩))

/-- The words of a dictionary have entries of their own. -/
structure Tidy (h : EHeap) (b : Dict Str Nat) : Prop where
  there : ∀ kv ∈ b, ∃ e, h.entries[kv.2]? = some e ∧ e.word = kv.1
  wf : Dict.WF b
  nodup : (b.map (·.2)).Nodup

theorem Spec.Separate.make {h : EHeap} (hs : Separate h) (x : Entry) :
    Separate (h.make x) ∧ (h.make x).views = h.views ++ [x] := by
  have h1 := (hs.alloc x.readings).alloc x.senses
  have h2 : ((h.alloc x.readings).alloc x.senses).views = h.views := by
    rw [views_alloc (hs.alloc x.readings), views_alloc hs]
  have l1 : ((h.alloc x.readings).alloc x.senses).lists h.next = x.readings := by simp [EHeap.alloc, EHeap.put]
  have l2 : ((h.alloc x.readings).alloc x.senses).lists (h.next + 1) = x.senses := by simp [EHeap.alloc, EHeap.put]
  have free : ∀ n, ¬ Owned h (h.next + n) := fun n ho => absurd (hs.exist _ ho) (by omega)
  have := h1.push (w := x.word) (r := h.next) (s := h.next + 1)
    ⟨by simp [EHeap.alloc]; omega, by simp [EHeap.alloc], by omega, free 0, free 1⟩
  rw [h2, l1, l2] at this
  exact this

theorem dictView_get? (h : EHeap) (b : Dict Str Nat) (w : Str) :
    Dict.get? (h.dictView b) w = (Dict.get? b w).map (fun i => (h.views[i]?).getD ⟨[], [], []⟩) :=
  dict_get?_map (fun i => (h.views[i]?).getD ⟨[], [], []⟩) _ _

theorem addEntry_refines {h : EHeap} (hs : Separate h) {b : Dict Str Nat} (ht : Tidy h b) (x : Entry) :
    ∃ h' b', h.addEntry b x = .ok (h', b') ∧ addEntry (h.dictView b) x = .ok (h'.dictView b') ∧ Separate h' ∧ Tidy h' b' ∧
      h.entries.length ≤ h'.entries.length ∧ (∀ kv ∈ b', kv ∈ b ∨ h.entries.length ≤ kv.2) ∧
      ∀ k < h.entries.length, (∀ kv ∈ b, kv.2 ≠ k) → h'.views[k]? = h.views[k]? := by
  obtain ⟨m1, m2⟩ := hs.make x
  have hvl : h.views.length = h.entries.length := by simp [EHeap.views]
  have hlen : ∀ kv ∈ b, kv.2 < h.entries.length := fun kv hkv => by
    obtain ⟨e, he, _⟩ := ht.there kv hkv
    exact (List.getElem?_eq_some_iff.1 he).1
  have hents : (h.make x).entries = h.entries ++ [⟨x.word, h.next, h.next + 1⟩] := rfl
  unfold EHeap.addEntry addEntry
  rw [dictView_get?]
  cases hg : Dict.get? b x.word with
  | none =>
    have hk := (Dict.get?_eq_none_iff _ _).1 hg
    have hset := Dict.set_of_not_mem b x.word h.entries.length hk
    have hkd : x.word ∉ Dict.keys (h.dictView b) := by
      rw [← Dict.get?_eq_none_iff, dictView_get?, hg]; rfl
    refine ⟨_, _, rfl, ?_, m1, ⟨?_, Dict.WF_set ht.wf _ _, ?_⟩, by simp [hents], ?_, ?_⟩
    · simp only [Option.map_none]
      rw [Dict.set_of_not_mem _ _ _ hkd, hset]
      unfold EHeap.dictView
      rw [List.map_append, m2]
      congr 2
      · apply List.map_congr_left
        intro kv hkv
        rw [List.getElem?_append_left (by rw [hvl]; exact hlen kv hkv)]
      · simp [← hvl]
    · intro kv hkv
      simp only [hset, List.mem_append, List.mem_singleton] at hkv
      rcases hkv with hkv | rfl
      · obtain ⟨e, he, hw⟩ := ht.there kv hkv
        exact ⟨e, by rw [hents, List.getElem?_append_left (hlen kv hkv)]; exact he, hw⟩
      · exact ⟨⟨x.word, h.next, h.next + 1⟩, by simp [hents], rfl⟩
    · simp only [hset, List.map_append, List.map_cons, List.map_nil]
      rw [List.nodup_append]
      refine ⟨ht.nodup, by simp, ?_⟩
      intro a ha c hc
      obtain ⟨kv, hkv, rfl⟩ := List.mem_map.1 ha
      simp only [List.mem_singleton] at hc
      have := hlen kv hkv
      omega
    · intro kv hkv
      simp only [hset, List.mem_append, List.mem_singleton] at hkv
      rcases hkv with hkv | rfl
      · exact Or.inl hkv
      · exact Or.inr (Nat.le_refl _)
    · intro k hk _
      rw [m2, List.getElem?_append_left (by rw [hvl]; exact hk)]
  | some i =>
    obtain ⟨e, he, hw⟩ := ht.there _ (Dict.mem_of_get?_eq_some hg)
    have hil := (List.getElem?_eq_some_iff.1 he).1
    simp only at he hw
    have he1 : (h.make x).entries[i]? = some e := by rw [hents, List.getElem?_append_left hil]; exact he
    have hx1 : (h.make x).entries[h.entries.length]? = some ⟨x.word, h.next, h.next + 1⟩ := by simp [hents]
    have hup : ∃ h2, (h.make x).update i h.entries.length = .ok h2 := by
      unfold EHeap.update
      rw [he1, hx1]
      simp [hw]
    obtain ⟨h2, hup⟩ := hup
    obtain ⟨a, c, y, u1, u2, u3, u4, u5, _, u7⟩ := m1.update hup
    have ua : h.views[i]?.getD ⟨[], [], []⟩ = a := by
      rw [m2, List.getElem?_append_left (by rw [hvl]; exact hil)] at u1
      rw [u1]; rfl
    have uc : c = x := by
      rw [m2, ← hvl] at u2
      simp at u2
      exact u2.symm
    subst uc
    have hne : i ≠ h.entries.length := by omega
    have hv2 : ∀ k < h.entries.length, h2.views[k]? = if k = i then some y.1 else h.views[k]? := by
      intro k hk
      rw [u5, m2]
      by_cases hki : k = i
      · subst hki
        rw [if_pos rfl, List.getElem?_set_self (by simp [hvl]; omega)]
      · rw [if_neg hki, List.getElem?_set_ne (Ne.symm hki), List.getElem?_set_ne (by omega),
          List.getElem?_append_left (by rw [hvl]; exact hk)]
    have hword : y.1.word = a.word := by
      unfold Entry.update at u3
      split at u3
      · cases u3; rfl
      · cases u3
    refine ⟨h2, b, by simp only [hup], ?_, u4, ⟨?_, ht.wf, ht.nodup⟩, by rw [u7, hents]; simp, fun kv hkv => Or.inl hkv, ?_⟩
    · simp only [Option.map_some, ua, u3, bind, Except.bind]
      congr 1
      unfold EHeap.dictView
      rw [← dict_set_map (fun i => (h.views[i]?).getD ⟨[], [], []⟩) y.1 i c.word b ht.nodup hg]
      apply List.map_congr_left
      intro kv hkv
      rw [hv2 kv.2 (hlen kv hkv)]
      split <;> rfl
    · intro kv hkv
      obtain ⟨e', he', hw'⟩ := ht.there kv hkv
      have hl := hlen kv hkv
      have hv := hv2 kv.2 hl
      rw [views_getElem?] at hv
      cases hc : h2.entries[kv.2]? with
      | none =>
        rw [List.getElem?_eq_none_iff] at hc
        rw [u7, hents] at hc
        simp at hc
        omega
      | some f =>
        refine ⟨f, rfl, ?_⟩
        rw [hc, Option.map_some] at hv
        have hfw : f.word = (h2.view f).word := rfl
        by_cases hki : kv.2 = i
        · rw [if_pos hki] at hv
          rw [hfw, Option.some.inj hv, hword, ← ua, views_getElem?, he]
          rw [hki, he] at he'
          cases he'
          exact hw'
        · rw [if_neg hki, views_getElem?, he'] at hv
          rw [hfw, Option.some.inj hv]
          exact hw'
    · intro k hk hkb
      rw [hv2 k hk, if_neg]
      intro hki
      exact hkb _ (Dict.mem_of_get?_eq_some hg) hki.symm

/-- C97: a dictionary that was loaded from a file holds what the value model says, each of its entries has two lists of its own that no other entry
uses, and no entry that was there before has changed. -/
theorem C97_load (parse : Str → Except PyErr Entry) (h : EHeap) (hs : Separate h) (lines : List Str) :
    (∀ err, h.parseLoop parse [] lines = .error err ↔ parseDictionary parse lines = .error err) ∧
    ∀ h' b, h.parseLoop parse [] lines = .ok (h', b) →
      parseDictionary parse lines = .ok (h'.dictView b) ∧ Separate h' ∧ (b.map (·.2)).Nodup ∧
      (∀ kv ∈ b, h.entries.length ≤ kv.2 ∧ kv.2 < h'.entries.length) ∧ ∀ k < h.entries.length, h'.views[k]? = h.views[k]? := by
  suffices H : ∀ (lines : List Str) (g : EHeap) (b : Dict Str Nat), Separate g → Tidy g b → h.entries.length ≤ g.entries.length →
      (∀ kv ∈ b, h.entries.length ≤ kv.2) →
      (∀ err, g.parseLoop parse b lines = .error err ↔ parseLoop parse (g.dictView b) lines = .error err) ∧
      ∀ h' b', g.parseLoop parse b lines = .ok (h', b') →
        parseLoop parse (g.dictView b) lines = .ok (h'.dictView b') ∧ Separate h' ∧ (b'.map (·.2)).Nodup ∧
        (∀ kv ∈ b', h.entries.length ≤ kv.2 ∧ kv.2 < h'.entries.length) ∧ ∀ k < h.entries.length, h'.views[k]? = g.views[k]? by
    exact H lines h [] hs ⟨by simp, Dict.WF_nil, by simp⟩ (Nat.le_refl _) (by simp)
  intro lines
  induction lines with
  | nil =>
    intro g b hg ht hl hb
    refine ⟨by simp [EHeap.parseLoop, parseLoop], ?_⟩
    intro h' b' e
    simp only [EHeap.parseLoop, Except.ok.injEq, Prod.mk.injEq] at e
    obtain ⟨rfl, rfl⟩ := e
    refine ⟨rfl, hg, ht.nodup, ?_, fun _ _ => rfl⟩
    intro kv hkv
    obtain ⟨e, he, _⟩ := ht.there kv hkv
    exact ⟨hb kv hkv, (List.getElem?_eq_some_iff.1 he).1⟩
  | cons l lines ih =>
    intro g b hg ht hl hb
    simp only [EHeap.parseLoop, parseLoop]
    cases hp : parse l with
    | error e => exact ⟨fun _ => by simp [bind, Except.bind], fun _ _ h => by cases h⟩
    | ok x =>
      obtain ⟨g', b', a1, a2, a3, a4, a5, a6, a7⟩ := addEntry_refines hg ht x
      simp only [a1, a2, bind, Except.bind]
      have := ih g' b' a3 a4 (by omega) (by
        intro kv hkv
        rcases a6 kv hkv with h | h
        · exact hb kv h
        · omega)
      refine ⟨this.1, ?_⟩
      intro h' b'' e
      obtain ⟨t1, t2, t3, t4, t5⟩ := this.2 h' b'' e
      refine ⟨t1, t2, t3, t4, ?_⟩
      intro k hk
      rw [t5 k hk]
      apply a7 k (by omega)
      intro kv hkv e
      have := hb kv hkv
      omega

/-- `BilingualDictionary.update` copies references, not entries: whatever is done later, the two dictionaries show the same entry under every
word of the argument, so an update of an entry through one of them is seen through the other. -/
theorem C97_dictionaries_share (b rhs : Dict Str Nat) (hr : Dict.WF rhs) (w : Str) (i : Nat) (hw : Dict.get? rhs w = some i) (h : EHeap) :
    Dict.get? (Dict.update b rhs) w = some i ∧
      Dict.get? (h.dictView (Dict.update b rhs)) w = Dict.get? (h.dictView rhs) w := by
  have : Dict.get? (Dict.update b rhs) w = some i := by
    rw [Dict.get?_update]
    split
    · rename_i kv hf
      have hm := List.mem_reverse.1 (List.mem_of_find?_eq_some hf)
      have hk : kv.1 = w := by simpa using List.find?_some hf
      have : Dict.get? rhs w = some kv.2 := (Dict.get?_eq_some_iff hr w kv.2).2 (by rw [← hk]; exact hm)
      rw [hw] at this
      exact this.symm
    · rename_i hf
      have := List.find?_eq_none.1 hf (w, i) (List.mem_reverse.2 (Dict.mem_of_get?_eq_some hw))
      simp at this
  exact ⟨this, by rw [dictView_get?, dictView_get?, this, hw]⟩

/-! ### The hypotheses hold of small programs -/

/-- Two homographs are made and merged, the senses are looked up, and the answer is changed. -/
def demoHeapOps : List HeapOp :=
  [.list [u!"かわ"], .list [u!"river", u!"brook"], .new u!"川" 0 1, .list [u!"こう"], .list [u!"stream"], .new u!"川" 2 3, .update 0 1,
    .byReading 0, .write 6 [u!"changed"], .update 0 1]

def demoHeapViews : List Entry :=
  [⟨u!"川", [u!"かわ", u!"かわ", u!"こう", u!"こう"], [u!"river", u!"brook", u!"stream", u!"stream"]⟩, ⟨u!"川", [u!"こう"], [u!"stream"]⟩]

example : AllCareful .empty demoHeapOps := by decide +kernel

example : (HeapOp.run .empty demoHeapOps).views = demoHeapViews := by decide +kernel

end Cjk
