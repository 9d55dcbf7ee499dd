import Verif.Model.Display
import Verif.Py.Num
/-!
# C112: what the texts that stand for objects tell
-/

namespace Cjk
open Py

theorem showNat_inj {m n : Nat} (h : showNat m = showNat n) : m = n := by
  have h1 := unsignedVal_showNat m
  rw [h, unsignedVal_showNat n] at h1
  exact (Option.some.inj h1).symm

theorem digits_head {x y : Chr} (hx : ¬ AsciiDigit x) (hy : ¬ AsciiDigit y) (a b : Str) :
    ∀ d e : Str, (∀ c ∈ d, AsciiDigit c) → (∀ c ∈ e, AsciiDigit c) → d ++ x :: a = e ++ y :: b → d = e ∧ x :: a = y :: b := by
  intro d
  induction d with
  | nil =>
    intro e _ he h
    cases e with
    | nil => exact ⟨rfl, h⟩
    | cons c e =>
      rw [List.nil_append, List.cons_append, List.cons.injEq] at h
      exact absurd (h.1 ▸ he c (List.mem_cons_self ..)) hx
  | cons c d ih =>
    intro e hd he h
    cases e with
    | nil =>
      rw [List.nil_append, List.cons_append, List.cons.injEq] at h
      exact absurd (h.1 ▸ hd c (List.mem_cons_self ..)) hy
    | cons c' e =>
      rw [List.cons_append, List.cons_append, List.cons.injEq] at h
      obtain ⟨rfl, h⟩ := h
      obtain ⟨rfl, h'⟩ := ih e (fun x hx => hd x (List.mem_cons_of_mem _ hx)) (fun x hx => he x (List.mem_cons_of_mem _ hx)) h
      exact ⟨rfl, h'⟩

/-- A number at the end of a text, behind a character that is no digit, can be told. -/
theorem number_end {a b : Str} {x : Chr} {m n : Nat} (hx : ¬ AsciiDigit x) (h : a ++ x :: showNat m = b ++ x :: showNat n) : a = b ∧ m = n := by
  have h' := congrArg List.reverse h
  simp only [List.reverse_append, List.reverse_cons, List.append_assoc, List.cons_append, List.nil_append] at h'
  obtain ⟨h1, h2⟩ := digits_head hx hx _ _ _ _ (fun c hc => showNat_digits m c (List.mem_reverse.1 hc))
    (fun c hc => showNat_digits n c (List.mem_reverse.1 hc)) h'
  rw [List.cons.injEq] at h2
  exact ⟨List.reverse_inj.1 h2.2, showNat_inj (List.reverse_inj.1 h1)⟩

theorem not_digit_space : ¬ AsciiDigit 0x20 := by unfold AsciiDigit; omega

theorem not_digit_paren : ¬ AsciiDigit 0x28 := by unfold AsciiDigit; omega

/-- C112: two dictionary entries are shown with the same text exactly if they have the same word, the same number of different readings
and the same number of senses.  The word may contain anything. -/
theorem C112_entry (e f : Entry) :
    e.show = f.show ↔ e.word = f.word ∧ (dedup e.readings).length = (dedup f.readings).length ∧ e.senses.length = f.senses.length := by
  constructor
  · intro h
    unfold Entry.show at h
    have h1 := List.append_cancel_right h
    have e1 : ∀ (w : Str) (m n : Nat), u!"<DictionaryEntry: " ++ w ++ u!" (" ++ showNat m ++ u!" readings, " ++ showNat n =
        (u!"<DictionaryEntry: " ++ w ++ u!" (" ++ showNat m ++ u!" readings,") ++ 0x20 :: showNat n := by
      intro w m n
      simp
    rw [e1, e1] at h1
    obtain ⟨h2, h3⟩ := number_end not_digit_space h1
    have h4 := List.append_cancel_right h2
    have e2 : ∀ (w : Str) (m : Nat), u!"<DictionaryEntry: " ++ w ++ u!" (" ++ showNat m = (u!"<DictionaryEntry: " ++ w ++ u!" ") ++ 0x28 :: showNat m := by
      intro w m
      simp
    rw [e2, e2] at h4
    obtain ⟨h5, h6⟩ := number_end not_digit_paren h4
    exact ⟨List.append_cancel_left (List.append_cancel_right h5), h6, h3⟩
  · rintro ⟨h1, h2, h3⟩
    unfold Entry.show
    rw [h1, h2, h3]

/-- C112: two tree nodes are shown with the same text exactly if they have the same label and the same number of children. -/
theorem C112_node (h g : Heap) (r q : Nat) :
    showNode h r = showNode g q ↔ (h.node r).label = (g.node q).label ∧ (h.node r).children.length = (g.node q).children.length := by
  constructor
  · intro hh
    unfold showNode at hh
    have h1 := List.append_cancel_right hh
    have e2 : ∀ (w : Str) (m : Nat), u!"<TreeNode: " ++ w ++ u!" (" ++ showNat m = (u!"<TreeNode: " ++ w ++ u!" ") ++ 0x28 :: showNat m := by
      intro w m
      simp
    rw [e2, e2] at h1
    obtain ⟨h5, h6⟩ := number_end not_digit_paren h1
    exact ⟨List.append_cancel_left (List.append_cancel_right h5), h6⟩
  · rintro ⟨h1, h2⟩
    unfold showNode
    rw [h1, h2]

/-- The text contains `/` behind a space. -/
def Spec.HasSlash (s : Str) : Prop := ∃ a b : Str, s = a ++ u!" /" ++ b

theorem first_slash : ∀ (l m r q : Str), ¬ Spec.HasSlash l → ¬ Spec.HasSlash m → l ++ u!" /" ++ r = m ++ u!" /" ++ q → l = m ∧ r = q := by
  intro l
  induction l with
  | nil =>
    intro m r q _ hm h
    cases m with
    | nil =>
      have h' := List.append_cancel_left h
      exact ⟨rfl, h'⟩
    | cons x m =>
      change 0x20 :: 0x2f :: r = x :: (m ++ u!" /" ++ q) at h
      rw [List.cons.injEq] at h
      obtain ⟨rfl, h⟩ := h
      cases m with
      | nil =>
        change 0x2f :: r = 0x20 :: _ at h
        rw [List.cons.injEq] at h
        exact absurd h.1 (by decide)
      | cons y m =>
        change 0x2f :: r = y :: _ at h
        rw [List.cons.injEq] at h
        obtain ⟨rfl, _⟩ := h
        exact absurd ⟨[], m, rfl⟩ hm
  | cons x l ih =>
    intro m r q hl hm h
    have hl' : ¬ Spec.HasSlash l := fun ⟨a, b, hab⟩ => hl ⟨x :: a, b, by rw [hab]; rfl⟩
    cases m with
    | nil =>
      change x :: (l ++ u!" /" ++ r) = 0x20 :: 0x2f :: q at h
      rw [List.cons.injEq] at h
      obtain ⟨rfl, h⟩ := h
      cases l with
      | nil =>
        change 0x20 :: _ = 0x2f :: q at h
        rw [List.cons.injEq] at h
        exact absurd h.1 (by decide)
      | cons y l =>
        change y :: _ = 0x2f :: q at h
        rw [List.cons.injEq] at h
        obtain ⟨rfl, _⟩ := h
        exact absurd ⟨[], l, rfl⟩ hl
    | cons y m =>
      have hm' : ¬ Spec.HasSlash m := fun ⟨a, b, hab⟩ => hm ⟨y :: a, b, by rw [hab]; rfl⟩
      change x :: (l ++ u!" /" ++ r) = y :: (m ++ u!" /" ++ q) at h
      rw [List.cons.injEq] at h
      obtain ⟨rfl, h⟩ := h
      obtain ⟨rfl, rfl⟩ := ih m r q hl' hm' h
      exact ⟨rfl, rfl⟩

/-- Readings that a user cannot tell apart: none and the empty one. -/
def Spec.SameReading (r q : Option Str) : Prop := r.getD [] = q.getD []

/-- C112: two places whose labels do not contain a slash behind a space are shown with the same text exactly if they have the same label, the same
reading and the same number of entries; an empty reading is shown like no reading. -/
theorem C112_place (p q : Place) (hp : ¬ Spec.HasSlash p.label) (hq : ¬ Spec.HasSlash q.label) :
    p.show = q.show ↔ p.label = q.label ∧ Spec.SameReading p.reading q.reading ∧ p.kids.items.length = q.kids.items.length := by
  have hsame : ∀ l m : Str, ∀ r s : Option Str, ¬ Spec.HasSlash l → ¬ Spec.HasSlash m → l ++ shownReading r = m ++ shownReading s →
      l = m ∧ Spec.SameReading r s := by
    intro l m r s hl hm h
    have hshow : ∀ r : Option Str, (shownReading r = [] ∧ r.getD [] = []) ∨ ∃ c t, r = some (c :: t) ∧ shownReading r = u!" /" ++ (c :: t) ++ u!"/" := by
      intro r
      rcases r with _ | (_ | ⟨c, t⟩)
      · exact Or.inl ⟨rfl, rfl⟩
      · exact Or.inl ⟨rfl, rfl⟩
      · exact Or.inr ⟨c, t, rfl, rfl⟩
    unfold Spec.SameReading
    rcases hshow r with ⟨e1, e2⟩ | ⟨c, t, rfl, e1⟩ <;> rcases hshow s with ⟨e3, e4⟩ | ⟨c', t', rfl, e3⟩
    · rw [e1, e3, List.append_nil, List.append_nil] at h
      exact ⟨h, by rw [e2, e4]⟩
    · rw [e1, e3, List.append_nil] at h
      exact absurd ⟨m, c' :: t' ++ u!"/", by rw [h]; simp⟩ hl
    · rw [e1, e3, List.append_nil] at h
      exact absurd ⟨l, c :: t ++ u!"/", by rw [← h]; simp⟩ hm
    · rw [e1, e3] at h
      have h' : l ++ u!" /" ++ (c :: t ++ u!"/") = m ++ u!" /" ++ (c' :: t' ++ u!"/") := by simpa using h
      obtain ⟨h1, h2⟩ := first_slash _ _ _ _ hl hm h'
      exact ⟨h1, List.append_cancel_right h2⟩
  constructor
  · intro h
    unfold Place.show at h
    have h1 := List.append_cancel_right h
    have e1 : ∀ (a : Str) (m : Nat), a ++ u!" " ++ showNat m = a ++ 0x20 :: showNat m := by
      intro a m
      simp
    rw [e1, e1] at h1
    obtain ⟨h2, h3⟩ := number_end not_digit_space h1
    rw [List.append_assoc, List.append_assoc] at h2
    obtain ⟨h4, h5⟩ := hsame _ _ _ _ hp hq (List.append_cancel_left h2)
    exact ⟨h4, h5, h3⟩
  · rintro ⟨h1, h2, h3⟩
    have hr : shownReading p.reading = shownReading q.reading := by
      unfold Spec.SameReading at h2
      revert h2
      generalize p.reading = r
      generalize q.reading = s
      intro h2
      rcases r with _ | (_ | ⟨c, t⟩) <;> rcases s with _ | (_ | ⟨c', t'⟩) <;>
        first
          | rfl
          | (cases h2; done)
          | (cases h2; rfl)
    unfold Place.show
    rw [h1, hr, h3]

/-- The condition on labels is needed: the place `a /b/` and the place `a` with reading `b`. -/
theorem C112_place_slash : ∃ p q : Place, p.label ≠ q.label ∧ p.show = q.show :=
  ⟨.node u!"a /b/" none none .nil, .node u!"a" (some u!"b") none .nil, by decide, rfl⟩

theorem repeatList_one {α : Type} (n : Nat) (x : α) : repeatList n [x] = List.replicate n x := by
  unfold repeatList
  induction n with
  | zero => rfl
  | succ n ih => rw [List.replicate_succ, List.flatten_cons, ih]; rfl

/-- Padding keeps the set of readings if there is a sense. -/
theorem mem_padded (e : Entry) (h : e.readings.length = 1 → e.senses ≠ []) (x : Str) : x ∈ e.padded ↔ x ∈ e.readings := by
  unfold Entry.padded
  split
  · rename_i h1
    match hr : e.readings, h1 with
    | [y], _ =>
      rw [repeatList_one, List.mem_replicate, List.mem_singleton]
      have : e.senses.length ≠ 0 := fun h0 => h (by rw [hr]; rfl) (List.length_eq_zero_iff.1 h0)
      exact ⟨fun hh => hh.2, fun hh => ⟨this, hh⟩⟩
  · rfl

theorem dedup_length_of_mem {a b : List Str} (h : ∀ x, x ∈ a ↔ x ∈ b) : (dedup a).length = (dedup b).length := by
  have hp : (dedup a).Perm (dedup b) :=
    (List.perm_ext_iff_of_nodup (nodup_dedup a) (nodup_dedup b)).2 (fun x => by rw [mem_dedup, mem_dedup, h])
  exact hp.length_eq

/-- C112: after `entry.update(other)` the text for the entry counts the different readings of both and all senses, and the text for the other
entry is as before, if both had senses. -/
theorem C112_update (e f : Entry) (he : e.senses ≠ []) (hf : f.senses ≠ []) (e' f' : Entry) (h : e.update f = .ok (e', f')) :
    e'.show = (⟨e.word, e.readings ++ f.readings, e.senses ++ f.senses⟩ : Entry).show ∧ f'.show = f.show := by
  unfold Entry.update at h
  split at h
  · cases h
    refine ⟨(C112_entry _ _).2 ⟨rfl, dedup_length_of_mem (fun x => ?_), rfl⟩, (C112_entry _ _).2 ⟨rfl, dedup_length_of_mem (fun x => ?_), rfl⟩⟩
    · rw [List.mem_append, List.mem_append, mem_padded e (fun _ => he), mem_padded f (fun _ => hf)]
    · exact mem_padded f (fun _ => hf) x
  · cases h

/-- The other entry is shown as before exactly if it has a sense or not exactly one reading: with one reading and no sense it loses the reading. -/
theorem C112_update_other (e f : Entry) (e' f' : Entry) (h : e.update f = .ok (e', f')) :
    f'.show = f.show ↔ (f.readings.length = 1 → f.senses ≠ []) := by
  unfold Entry.update at h
  split at h
  · cases h
    constructor
    · intro hs h1 h0
      obtain ⟨_, h2, _⟩ := (C112_entry _ _).1 hs
      change (dedup f.padded).length = (dedup f.readings).length at h2
      have h3 : f.padded = [] := by
        unfold Entry.padded
        rw [if_pos h1, h0]
        rfl
      rw [h3] at h2
      match hr : f.readings, h1 with
      | [y], _ =>
        rw [hr] at h2
        exact absurd h2 (by simp [dedup])
    · intro hc
      exact (C112_entry _ _).2 ⟨rfl, dedup_length_of_mem (mem_padded f hc), rfl⟩
  · cases h

theorem split_at {x : Chr} {a b : Str} : ∀ c d : Str, x ∉ c → x ∉ d → c ++ x :: a = d ++ x :: b → c = d ∧ a = b := by
  intro c
  induction c with
  | nil =>
    intro d _ hd h
    cases d with
    | nil => exact ⟨rfl, by simpa using h⟩
    | cons y d => simp only [List.nil_append, List.cons_append, List.cons.injEq] at h; exact absurd (by simp [h.1]) hd
  | cons y c ih =>
    intro d hc hd h
    cases d with
    | nil => simp only [List.nil_append, List.cons_append, List.cons.injEq] at h; exact absurd (by simp [h.1]) hc
    | cons z d =>
      simp only [List.cons_append, List.cons.injEq] at h
      obtain ⟨rfl, h⟩ := h
      obtain ⟨rfl, h'⟩ := ih d (fun m => hc (by simp [m])) (fun m => hd (by simp [m])) h
      exact ⟨rfl, h'⟩

/-- C112: two Tatoeba readers are shown with the same text exactly if they are readers of the same class and report the same source; a sentence reader and a
links reader never are, whatever the sources are called.  Names of classes contain no bracket. -/
theorem C112_reader (c d : Str) (hc : 0x28 ∉ c) (hd : 0x28 ∉ d) (s t : SrcObj) :
    (showSentReader c s = showSentReader d t ↔ c = d ∧ srcRepr s = srcRepr t) ∧
    (showLinkReader c s = showLinkReader d t ↔ c = d ∧ srcRepr s = srcRepr t) ∧
    showSentReader c s ≠ showLinkReader d t := by
  have e1 : ∀ (c : Str) s, showSentReader c s = c ++ 0x28 :: (u!"sentences='" ++ srcRepr s ++ u!"')") := by intro c s; simp [showSentReader]
  have e2 : ∀ (c : Str) s, showLinkReader c s = c ++ 0x28 :: (u!"links='" ++ srcRepr s ++ u!"')") := by intro c s; simp [showLinkReader]
  refine ⟨⟨fun h => ?_, ?_⟩, ⟨fun h => ?_, ?_⟩, fun h => ?_⟩
  · rw [e1, e1] at h
    obtain ⟨h1, h2⟩ := split_at c d hc hd h
    exact ⟨h1, List.append_cancel_left (List.append_cancel_right h2)⟩
  · rintro ⟨rfl, h⟩; rw [showSentReader, showSentReader, h]
  · rw [e2, e2] at h
    obtain ⟨h1, h2⟩ := split_at c d hc hd h
    exact ⟨h1, List.append_cancel_left (List.append_cancel_right h2)⟩
  · rintro ⟨rfl, h⟩; rw [showLinkReader, showLinkReader, h]
  · rw [e1, e2] at h
    obtain ⟨_, h2⟩ := split_at c d hc hd h
    simp at h2

theorem showNat_digit (n : Nat) (h : n < 10) : showNat n = [0x30 + n] := by
  unfold showNat revDigits
  rw [dif_pos h]
  rfl

/-- C112: the source that a reader reports is the file name, for an open file its attribute `filename`, and otherwise its `repr`: readers of a name and of a stream with this name, or of streams with the same name, show
alike, readers with different names differently. -/
theorem C112_sources (c d : Str) (hc : 0x28 ∉ c) (hd : 0x28 ∉ d) (f g r q : Str) :
    (showSentReader c (.name f) = showSentReader d (.name g) ↔ c = d ∧ f = g) ∧ (showSentReader c (.stream (some f) r) = showSentReader d (.name g) ↔ c = d ∧ f = g) ∧
    (showSentReader c (.stream (some f) r) = showSentReader d (.stream (some g) q) ↔ c = d ∧ f = g) ∧ (showSentReader c (.stream none r) = showSentReader d (.name g) ↔ c = d ∧ r = g) ∧
    (showLinkReader c (.name f) = showLinkReader d (.name g) ↔ c = d ∧ f = g) ∧ (showLinkReader c (.stream (some f) r) = showLinkReader d (.name g) ↔ c = d ∧ f = g) ∧
    (showLinkReader c (.stream (some f) r) = showLinkReader d (.stream (some g) q) ↔ c = d ∧ f = g) ∧ (showLinkReader c (.stream none r) = showLinkReader d (.name g) ↔ c = d ∧ r = g) :=
  ⟨(C112_reader c d hc hd _ _).1, (C112_reader c d hc hd _ _).1, (C112_reader c d hc hd _ _).1, (C112_reader c d hc hd _ _).1,
    (C112_reader c d hc hd _ _).2.1, (C112_reader c d hc hd _ _).2.1, (C112_reader c d hc hd _ _).2.1, (C112_reader c d hc hd _ _).2.1⟩

example : (⟨u!"行", [u!"こう", u!"ぎょう", u!"こう"], [u!"a", u!"b", u!"c"]⟩ : Entry).show = u!"<DictionaryEntry: 行 (2 readings, 3 senses)>" := by
  unfold Entry.show
  rw [showNat_digit _ (by decide), showNat_digit _ (by decide)]
  decide

example : (Place.node u!"Tokyo" (some u!"tokyo") none (.cons u!"Shibuya" (.node u!"Shibuya" none none .nil) .nil)).show = u!"<Place: Tokyo /tokyo/ 1 children>" := by
  unfold Place.show
  rw [showNat_digit _ (by decide)]
  decide

example : showNode [⟨u!"root", [(u!"a", 1), (u!"b", 2)], [], none⟩] 0 = u!"<TreeNode: root (2 children)>" := by
  unfold showNode
  rw [showNat_digit _ (by decide)]
  decide

example : (⟨u!"行", [u!"こう"], [u!"a", u!"b"]⟩ : Entry).update ⟨u!"行", [u!"ぎょう"], [u!"c"]⟩ =
    .ok (⟨u!"行", [u!"こう", u!"こう", u!"ぎょう"], [u!"a", u!"b", u!"c"]⟩, ⟨u!"行", [u!"ぎょう"], [u!"c"]⟩) := by rfl

example : 0x28 ∉ u!"TatoebaSentenceReader" ∧
    showSentReader u!"TatoebaSentenceReader" (.stream (some u!"a.csv") u!"<x>") = u!"TatoebaSentenceReader(sentences='a.csv')" := by decide

end Cjk
