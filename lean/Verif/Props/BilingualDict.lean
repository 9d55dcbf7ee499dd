import Verif.Spec.BilingualDict
/-!
# C28, C29: dictionary entries
-/

namespace Cjk
open Py

theorem repeatList_length {α : Type} (n : Nat) (xs : List α) : (repeatList n xs).length = n * xs.length := by
  simp [repeatList]

theorem repeatList_singleton {α : Type} (n : Nat) (x : α) : repeatList n [x] = List.replicate n x := by
  induction n with
  | zero => rfl
  | succ n ih => simp only [repeatList, List.replicate_succ, List.flatten_cons] at *; rw [ih]; rfl

theorem Entry.padded_length {e : Entry} (h : Spec.Aligned e) : e.padded.length = e.senses.length := by
  unfold Entry.padded
  split
  · rename_i h1; rw [repeatList_length, h1]; omega
  · rename_i h1; rcases h with h | h
    · exact absurd h h1
    · exact h

theorem Entry.update_ok {a b a' b' : Entry} (h : a.update b = .ok (a', b')) :
    a.word = b.word ∧ a' = ⟨a.word, a.padded ++ b.padded, a.senses ++ b.senses⟩ ∧ b' = ⟨b.word, b.padded, b.senses⟩ := by
  unfold Entry.update at h
  split at h
  · rename_i hw; cases h; exact ⟨hw, rfl, rfl⟩
  · cases h

/-! ### C28 -/

/-- A property of entries that constructors establish and updates preserve. -/
theorem EntryOp.step_inv {P : Entry → Prop}
    (hnew : ∀ w r s e, Entry.new w r s = .ok e → P e)
    (hupd : ∀ a b a' b', P a → P b → a.update b = .ok (a', b') → P a' ∧ P b')
    (es : List Entry) (h : ∀ e ∈ es, P e) (op : EntryOp) : ∀ e ∈ EntryOp.step es op, P e := by
  cases op with
  | new w r s =>
    simp only [EntryOp.step]
    cases hn : Entry.new w r s with
    | error x => exact h
    | ok e =>
      intro e' he'
      rcases List.mem_append.1 he' with he' | he'
      · exact h _ he'
      · rw [List.mem_singleton] at he'; subst he'; exact hnew w r s _ hn
  | update i j =>
    simp only [EntryOp.step]
    cases hi : es[i]? with
    | none => exact h
    | some a =>
      cases hj : es[j]? with
      | none => exact h
      | some b =>
        simp only
        cases hu : a.update b with
        | error x => exact h
        | ok r =>
          obtain ⟨a', b'⟩ := r
          have hP := hupd a b a' b' (h a (List.mem_of_getElem? hi)) (h b (List.mem_of_getElem? hj)) hu
          intro e he
          rcases List.mem_or_eq_of_mem_set he with he | rfl
          · rcases List.mem_or_eq_of_mem_set he with he | rfl
            · exact h e he
            · exact hP.2
          · exact hP.1

theorem Entry.new_aligned {w : Str} {r s : List Str} {e : Entry} (h : Entry.new w r s = .ok e) : Spec.Aligned e := by
  unfold Entry.new at h
  split at h
  · cases h; assumption
  · cases h

theorem Entry.update_lengths {a b a' b' : Entry} (ha : Spec.Aligned a) (hb : Spec.Aligned b)
    (h : a.update b = .ok (a', b')) :
    a'.readings.length = a'.senses.length ∧ b'.readings.length = b'.senses.length := by
  obtain ⟨_, rfl, rfl⟩ := Entry.update_ok h
  simp [Entry.padded_length ha, Entry.padded_length hb]

/-- C28: whatever a program constructs and merges, every entry has one reading or one per sense. -/
theorem C28_aligned (ops : List EntryOp) : ∀ e ∈ EntryOp.run ops, Spec.Aligned e := by
  have : ∀ (es : List Entry), (∀ e ∈ es, Spec.Aligned e) → ∀ e ∈ ops.foldl EntryOp.step es, Spec.Aligned e := by
    induction ops with
    | nil => intro es h; exact h
    | cons op ops ih =>
      intro es h
      exact ih _ (EntryOp.step_inv (fun _ _ _ _ => Entry.new_aligned)
        (fun a b a' b' ha hb hu => ⟨Or.inr (Entry.update_lengths ha hb hu).1, Or.inr (Entry.update_lengths ha hb hu).2⟩) es h op)
  exact this [] (by simp)

/-- Entries never disappear, keep their word, and equal lengths stay equal. -/
theorem EntryOp.step_keeps (es : List Entry) (h : ∀ e ∈ es, Spec.Aligned e) (op : EntryOp) (i : Nat) (e : Entry)
    (he : es[i]? = some e) (hlen : e.readings.length = e.senses.length) :
    ∃ e', (EntryOp.step es op)[i]? = some e' ∧ e'.word = e.word ∧ e'.readings.length = e'.senses.length := by
  have hi : i < es.length := by
    rcases Nat.lt_or_ge i es.length with hlt | hge
    · exact hlt
    · rw [List.getElem?_eq_none hge] at he; cases he
  cases op with
  | new w r s =>
    simp only [EntryOp.step]
    cases hn : Entry.new w r s with
    | error x => exact ⟨e, he, rfl, hlen⟩
    | ok x => exact ⟨e, by rw [List.getElem?_append_left hi]; exact he, rfl, hlen⟩
  | update a b =>
    simp only [EntryOp.step]
    cases ha : es[a]? with
    | none => exact ⟨e, he, rfl, hlen⟩
    | some x =>
      cases hb : es[b]? with
      | none => exact ⟨e, he, rfl, hlen⟩
      | some y =>
        simp only
        cases hu : x.update y with
        | error z => exact ⟨e, he, rfl, hlen⟩
        | ok r =>
          obtain ⟨x', y'⟩ := r
          have hl := Entry.update_lengths (h x (List.mem_of_getElem? ha)) (h y (List.mem_of_getElem? hb)) hu
          obtain ⟨_, hx', hy'⟩ := Entry.update_ok hu
          simp only [List.getElem?_set, List.length_set]
          by_cases hai : a = i
          · subst hai
            rw [ha] at he; cases he
            exact ⟨x', by simp [hi], by rw [hx'], hl.1⟩
          · rw [if_neg hai]
            by_cases hbi : b = i
            · subst hbi
              rw [hb] at he; cases he
              exact ⟨y', by simp [hi], by rw [hy'], hl.2⟩
            · rw [if_neg hbi]; exact ⟨e, he, rfl, hlen⟩

/-- C28: once an update of entry `i` succeeded, entry `i` has as many readings as senses, whatever
happens afterwards. -/
theorem C28_equal_after_update (ops ops' : List EntryOp) (i j : Nat) (a b : Entry)
    (ha : (EntryOp.run ops)[i]? = some a) (hb : (EntryOp.run ops)[j]? = some b) (hw : a.word = b.word) :
    ∃ e, (EntryOp.run (ops ++ .update i j :: ops'))[i]? = some e ∧ e.word = a.word ∧
      e.readings.length = e.senses.length := by
  have hal := C28_aligned ops
  have hu : a.update b = .ok (⟨a.word, a.padded ++ b.padded, a.senses ++ b.senses⟩, ⟨b.word, b.padded, b.senses⟩) := by
    simp [Entry.update, hw]
  have hlen := Entry.update_lengths (hal a (List.mem_of_getElem? ha)) (hal b (List.mem_of_getElem? hb)) hu
  have hi : i < (EntryOp.run ops).length := by
    rcases Nat.lt_or_ge i (EntryOp.run ops).length with hlt | hge
    · exact hlt
    · rw [List.getElem?_eq_none hge] at ha; cases ha
  have hstep : (EntryOp.run (ops ++ [.update i j]))[i]? =
      some ⟨a.word, a.padded ++ b.padded, a.senses ++ b.senses⟩ := by
    unfold EntryOp.run at *
    rw [List.foldl_append]
    simp only [List.foldl_cons, List.foldl_nil, EntryOp.step, ha, hb, hu]
    simp [hi]
  have key : ∀ (ops' pre : List EntryOp) (e : Entry), (EntryOp.run pre)[i]? = some e → e.word = a.word →
      e.readings.length = e.senses.length →
      ∃ e', (EntryOp.run (pre ++ ops'))[i]? = some e' ∧ e'.word = a.word ∧ e'.readings.length = e'.senses.length := by
    intro ops'
    induction ops' with
    | nil => intro pre e h1 h2 h3; exact ⟨e, by simpa using h1, h2, h3⟩
    | cons op ops' ih =>
      intro pre e h1 h2 h3
      obtain ⟨e', h1', h2', h3'⟩ := EntryOp.step_keeps _ (C28_aligned pre) op i e h1 h3
      have : (EntryOp.run (pre ++ [op]))[i]? = some e' := by
        unfold EntryOp.run at *; rw [List.foldl_append]; exact h1'
      obtain ⟨e'', h⟩ := ih (pre ++ [op]) e' this (h2'.trans h2) h3'
      exact ⟨e'', by simpa using h⟩
  obtain ⟨e, he⟩ := key ops' (ops ++ [.update i j]) ⟨a.word, a.padded ++ b.padded, a.senses ++ b.senses⟩ hstep rfl hlen.1
  exact ⟨e, by simpa using he⟩

/-- C28: the update appends the other entry's pairs; with another word it raises and changes nothing. -/
theorem C28_other_word (es : List Entry) (i j : Nat) (a b : Entry) (ha : es[i]? = some a) (hb : es[j]? = some b)
    (hw : a.word ≠ b.word) :
    a.update b = .error .genericException ∧ EntryOp.step es (.update i j) = es := by
  have hu : a.update b = .error .genericException := by simp [Entry.update, hw]
  exact ⟨hu, by simp [EntryOp.step, ha, hb, hu]⟩

/-- A program in which all three theorems say something: two homographs, one updated with the other
(whose readings are padded too), then with itself. -/
example : EntryOp.run [.new u!"明日" [u!"あした"] [u!"a", u!"b"], .new u!"明日" [u!"あす"] [u!"c"],
      .new u!"x" [u!"y"] [u!"z"], .update 0 1, .update 0 0, .update 0 2] =
    [⟨u!"明日", [u!"あした", u!"あした", u!"あす", u!"あした", u!"あした", u!"あす"], [u!"a", u!"b", u!"c", u!"a", u!"b", u!"c"]⟩,
     ⟨u!"明日", [u!"あす"], [u!"c"]⟩, ⟨u!"x", [u!"y"], [u!"z"]⟩] := by decide +kernel

/-! ### C29 -/

theorem get?_appendUnder (d : Dict Str (List Str)) (r s r' : Str) :
    Dict.get? (appendUnder d r s) r' = if r = r' then some ((Dict.get? d r).getD [] ++ [s]) else Dict.get? d r' := by
  rw [appendUnder, Dict.get?_set]

theorem get?_foldl_appendUnder (l : List (Str × Str)) (d : Dict Str (List Str)) (r : Str) :
    Dict.get? (l.foldl (fun d rs => appendUnder d rs.1 rs.2) d) r =
      if (l.filter (fun p => p.1 = r)) = [] then Dict.get? d r
      else some ((Dict.get? d r).getD [] ++ (l.filter (fun p => p.1 = r)).map Prod.snd) := by
  induction l generalizing d with
  | nil => simp
  | cons p l ih =>
    simp only [List.foldl_cons, ih, get?_appendUnder]
    by_cases h : p.1 = r
    · simp only [h, if_true, List.filter_cons, decide_true, Option.getD_some, List.map_cons,
        reduceCtorEq, if_false]
      split
      · rename_i h2; simp [h2]
      · simp
    · have hf : List.filter (fun p : Str × Str => decide (p.1 = r)) (p :: l) = List.filter (fun p => decide (p.1 = r)) l :=
        List.filter_cons_of_neg (by simpa using h)
      simp only [h, if_false, hf]

theorem Spec.pairs_eq_zip {e : Entry} : Spec.pairs e = e.padded.zip e.senses := by
  unfold Spec.pairs Entry.padded
  cases hr : e.readings with
  | nil => simp
  | cons r rs =>
    cases rs with
    | nil =>
      simp only [List.length_singleton, if_true, repeatList_singleton]
      generalize e.senses = s
      induction s with
      | nil => rfl
      | cons x s ih => simp only [List.map_cons, List.length_cons, List.replicate_succ, List.zip_cons_cons, ih]
    | cons r' rs => simp

/-- C29: for a valid entry with a sense, the result maps each reading to its senses in order and has
no other keys. -/
theorem C29_partition (e : Entry) (h : Spec.Aligned e) (hne : e.senses ≠ []) :
    ∃ d, e.sensesByReading = .ok d ∧
      (∀ r, Dict.get? d r = if Spec.sensesFor e r = [] then none else some (Spec.sensesFor e r)) := by
  unfold Entry.sensesByReading
  by_cases h1 : e.readings.length > 1
  · have h2 : e.senses.length = e.readings.length := by
      rcases h with h | h
      · omega
      · exact h.symm
    refine ⟨_, by rw [if_pos h1, if_pos h2], ?_⟩
    intro r
    rw [get?_foldl_appendUnder]
    have hp : Spec.pairs e = e.readings.zip e.senses := by
      unfold Spec.pairs
      cases hr : e.readings with
      | nil => rfl
      | cons x xs =>
        cases xs with
        | nil => rw [hr] at h1; simp at h1
        | cons y ys => rfl
    unfold Spec.sensesFor
    rw [hp]
    simp only [Dict.get?, List.map_eq_nil_iff, Option.getD_none, List.nil_append]
  · rw [if_neg h1]
    cases hr : e.readings with
    | nil =>
      rcases h with h | h
      · rw [hr] at h; simp at h
      · rw [hr] at h; exact absurd (List.length_eq_zero_iff.1 h.symm) hne
    | cons x xs =>
      cases xs with
      | cons y ys => rw [hr] at h1; simp at h1
      | nil =>
        refine ⟨_, rfl, ?_⟩
        intro r
        have hp : Spec.pairs e = e.senses.map (fun s => (x, s)) := by unfold Spec.pairs; rw [hr]
        have hf : Spec.sensesFor e r = if x = r then e.senses else [] := by
          unfold Spec.sensesFor
          rw [hp, List.filter_map, List.map_map]
          have hid : (Prod.snd ∘ fun s : Str => (x, s)) = id := rfl
          rw [hid, List.map_id]
          by_cases hx : x = r
          · rw [if_pos hx]
            apply List.filter_eq_self.2
            intro a _; simp [hx]
          · rw [if_neg hx]
            apply List.filter_eq_nil_iff.2
            intro a _; simp [hx]
        rw [hf]
        by_cases hx : x = r
        · simp [Dict.get?, hx, hne]
        · simp [Dict.get?, hx]

theorem values_appendUnder (d : Dict Str (List Str)) (r s : Str) :
    (Dict.values (appendUnder d r s)).flatten.Perm ((Dict.values d).flatten ++ [s]) := by
  unfold appendUnder
  induction d with
  | nil => exact List.Perm.refl _
  | cons kv d ih =>
    obtain ⟨k, v⟩ := kv
    simp only [Dict.set, Dict.get?_cons]
    by_cases h : k = r
    · simp only [h, if_true, Option.getD_some, Dict.values, List.map_cons, List.flatten_cons, List.append_assoc]
      exact List.Perm.append_left _ List.perm_append_comm
    · simp only [h, if_false, Dict.values, List.map_cons, List.flatten_cons, List.append_assoc]
      exact List.Perm.append_left _ ih

theorem values_foldl_appendUnder (l : List (Str × Str)) (d : Dict Str (List Str)) :
    (Dict.values (l.foldl (fun d rs => appendUnder d rs.1 rs.2) d)).flatten.Perm
      ((Dict.values d).flatten ++ l.map Prod.snd) := by
  induction l generalizing d with
  | nil => simp
  | cons p l ih =>
    refine (ih _).trans ?_
    refine ((values_appendUnder d p.1 p.2).append_right _).trans ?_
    simp

/-- C29: no sense is lost, none is invented and none is counted twice: the lists of the result
together are a rearrangement of the senses of the entry. -/
theorem C29_no_sense_lost (e : Entry) (h : Spec.Aligned e) (hne : e.senses ≠ []) :
    ∃ d, e.sensesByReading = .ok d ∧ (Dict.values d).flatten.Perm e.senses := by
  unfold Entry.sensesByReading
  by_cases h1 : e.readings.length > 1
  · have h2 : e.senses.length = e.readings.length := by
      rcases h with h | h
      · omega
      · exact h.symm
    refine ⟨_, by rw [if_pos h1, if_pos h2], ?_⟩
    refine (values_foldl_appendUnder _ _).trans ?_
    rw [List.map_snd_zip (by omega)]
    exact List.Perm.refl _
  · rw [if_neg h1]
    cases hr : e.readings with
    | nil =>
      rcases h with h | h
      · rw [hr] at h; simp at h
      · rw [hr] at h; exact absurd (List.length_eq_zero_iff.1 h.symm) hne
    | cons x xs =>
      cases xs with
      | cons y ys => rw [hr] at h1; simp at h1
      | nil => exact ⟨_, rfl, by simp [Dict.values]⟩

/-- C29: merging concatenates the mappings, reading by reading; the argument keeps its mapping. -/
theorem C29_update (a b a' b' : Entry) (ha : Spec.Aligned a) (hb : Spec.Aligned b)
    (h : a.update b = .ok (a', b')) (hna : a.senses ≠ []) (hnb : b.senses ≠ []) :
    ∃ da db da' db', a.sensesByReading = .ok da ∧ b.sensesByReading = .ok db ∧
      a'.sensesByReading = .ok da' ∧ b'.sensesByReading = .ok db' ∧
      (∀ r, (Dict.get? da' r).getD [] = (Dict.get? da r).getD [] ++ (Dict.get? db r).getD []) ∧
      (∀ r, Dict.get? db' r = Dict.get? db r) := by
  have hl := Entry.update_lengths ha hb h
  have ha' : Spec.Aligned a' := Or.inr hl.1
  have hb' : Spec.Aligned b' := Or.inr hl.2
  obtain ⟨hw, hea, heb⟩ := Entry.update_ok h
  obtain ⟨da, hda, hga⟩ := C29_partition a ha hna
  obtain ⟨db, hdb, hgb⟩ := C29_partition b hb hnb
  obtain ⟨da', hda', hga'⟩ := C29_partition a' ha' (by rw [hea]; simp [hna])
  obtain ⟨db', hdb', hgb'⟩ := C29_partition b' hb' (by rw [heb]; exact hnb)
  have hpadself : ∀ (x : Entry), x.readings.length = x.senses.length → Spec.pairs x = x.readings.zip x.senses := by
    intro x hx
    rw [Spec.pairs_eq_zip]
    unfold Entry.padded
    split
    · rename_i h1
      rw [← hx, h1]
      simp [repeatList]
    · rfl
  have hpa : Spec.pairs a' = Spec.pairs a ++ Spec.pairs b := by
    rw [hpadself a' hl.1, hea, Spec.pairs_eq_zip, Spec.pairs_eq_zip]
    exact List.zip_append (Entry.padded_length ha)
  have hpb : Spec.pairs b' = Spec.pairs b := by
    rw [hpadself b' hl.2, heb, Spec.pairs_eq_zip]
  have hget : ∀ {d : Dict Str (List Str)} {e : Entry} {r : Str},
      Dict.get? d r = (if Spec.sensesFor e r = [] then none else some (Spec.sensesFor e r)) →
      (Dict.get? d r).getD [] = Spec.sensesFor e r := by
    intro d e r hd
    rw [hd]
    split
    · rename_i h0; rw [h0]; rfl
    · rfl
  refine ⟨da, db, da', db', hda, hdb, hda', hdb', ?_, ?_⟩
  · intro r
    rw [hget (hga r), hget (hgb r), hget (hga' r)]
    unfold Spec.sensesFor
    rw [hpa, List.filter_append, List.map_append]
  · intro r
    rw [hgb, hgb']
    unfold Spec.sensesFor
    rw [hpb]

/-- A non-trivial case of `C29_update`. -/
example :
    let a : Entry := ⟨u!"明日", [u!"あした"], [u!"a", u!"b"]⟩
    let b : Entry := ⟨u!"明日", [u!"あす", u!"あした"], [u!"c", u!"d"]⟩
    (a.update b).map (fun r => r.1.sensesByReading) =
      .ok (.ok [(u!"あした", [u!"a", u!"b", u!"d"]), (u!"あす", [u!"c"])]) := by decide +kernel

end Cjk
