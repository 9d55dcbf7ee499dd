import Verif.Model.Compare
/-!
# C131: comparing with other objects, and sets of objects
-/

namespace Cjk
open Py

/-- What is asked of the attributes of the other object, in this order. -/
def Spec.wordAsks (w : Tanaka) : List (Str × WordVal) :=
  [(u!"headword", .text w.headword), (u!"sense", (w.sense.map WordVal.num).getD .none), (u!"example", .bool w.isExample),
   (u!"reading", (w.reading.map WordVal.text).getD .none)]

/-- The object has this attribute with a value that is equal to the given one. -/
def Spec.HasEqual {F A : Type} (o : OtherObj F A) (name : Str) (f : F) : Prop := ∃ a, o.attr name = .ok a ∧ o.cmp f a = .ok true

/-- The object has this attribute with a value that is not equal to the given one. -/
def Spec.HasOther {F A : Type} (o : OtherObj F A) (name : Str) (f : F) : Prop := ∃ a, o.attr name = .ok a ∧ o.cmp f a = .ok false

/-- It looks like the word in every way the comparison looks. -/
def Spec.LikeWord {A : Type} (w : Tanaka) (o : OtherObj WordVal A) : Prop :=
  (∀ x ∈ Spec.wordAsks w, Spec.HasEqual o x.1 x.2) ∧
  ∃ m a, o.attr u!"resolve_display" = .ok m ∧ o.call m = .ok a ∧ o.cmp (.text (w.display.getD w.headword)) a = .ok true

/-- Nothing that Python does with the object raises anything but AttributeError. -/
def Spec.Tame {F A : Type} (o : OtherObj F A) : Prop :=
  (∀ n e, o.attr n = .error e → e = .attributeError) ∧ (∀ a e, o.call a = .error e → e = .attributeError) ∧
  (∀ f a e, o.cmp f a = .error e → e = .attributeError) ∧ ∀ e, o.reply ≠ .error e

theorem andAttr_true {F A : Type} (o : OtherObj F A) (n : Str) (f : F) (rest : Except PyErr Bool) :
    andAttr o n f rest = .ok true ↔ Spec.HasEqual o n f ∧ rest = .ok true := by
  unfold andAttr Spec.HasEqual
  cases o.attr n with
  | error e => simp
  | ok a =>
    simp only [Except.ok.injEq, exists_eq_left']
    cases o.cmp f a with
    | error e => simp
    | ok b => cases b <;> simp

theorem andAttr_tame {F A : Type} {o : OtherObj F A} (ht : Spec.Tame o) (n : Str) (f : F) (rest : Except PyErr Bool)
    (hr : ∀ e, rest = .error e → e = .attributeError) : ∀ e, andAttr o n f rest = .error e → e = .attributeError := by
  intro e
  unfold andAttr
  cases ha : o.attr n with
  | error e' => simp only [Except.error.injEq]; rintro rfl; exact ht.1 n _ ha
  | ok a =>
    simp only
    cases hc : o.cmp f a with
    | error e' => simp only [Except.error.injEq]; rintro rfl; exact ht.2.2.1 f a _ hc
    | ok b => cases b <;> simp; exact hr e

theorem resolveDisplay_eq (w : Tanaka) : w.resolveDisplay = w.display.getD w.headword := by
  unfold Tanaka.resolveDisplay
  cases w.display <;> rfl

theorem sameDisplay_true {A : Type} (w : Tanaka) (o : OtherObj WordVal A) : sameDisplay w o = .ok true ↔
    ∃ m a, o.attr u!"resolve_display" = .ok m ∧ o.call m = .ok a ∧ o.cmp (.text (w.display.getD w.headword)) a = .ok true := by
  unfold sameDisplay
  rw [resolveDisplay_eq]
  cases o.attr u!"resolve_display" with
  | error e => simp
  | ok m =>
    simp only [Except.ok.injEq, exists_and_left, exists_eq_left']
    cases o.call m with
    | error e => simp
    | ok a => simp

theorem wordReply_true {A : Type} (w : Tanaka) (o : OtherObj WordVal A) : wordReply w o = .ok (some true) ↔ Spec.LikeWord w o := by
  have hs : WordVal.ofSense w.sense = (w.sense.map WordVal.num).getD .none := by cases w.sense <;> rfl
  have hr : WordVal.ofReading w.reading = (w.reading.map WordVal.text).getD .none := by cases w.reading <;> rfl
  unfold wordReply
  simp only
  rw [hs, hr]
  have : ∀ body : Except PyErr Bool, (match body with
      | .error .attributeError => Except.ok none
      | .error e => .error e
      | .ok b => .ok (some b)) = Except.ok (some true) ↔ body = .ok true := by
    intro body
    cases body with
    | ok b => simp
    | error e => cases e <;> simp
  refine (this _).trans ?_
  rw [andAttr_true, andAttr_true, andAttr_true, andAttr_true, sameDisplay_true]
  simp [Spec.LikeWord, Spec.wordAsks, and_assoc]

theorem wordReply_tame {A : Type} (w : Tanaka) (o : OtherObj WordVal A) (ht : Spec.Tame o) : ∃ r, wordReply w o = .ok r := by
  unfold wordReply
  simp only
  generalize hb : andAttr o u!"headword" _ _ = body
  cases body with
  | ok b => exact ⟨_, rfl⟩
  | error e =>
    have : e = .attributeError := by
      refine andAttr_tame ht _ _ _ (andAttr_tame ht _ _ _ (andAttr_tame ht _ _ _ (andAttr_tame ht _ _ _ ?_))) e hb
      intro e'
      unfold sameDisplay
      cases ha : o.attr u!"resolve_display" with
      | error e => simp only [Except.error.injEq]; rintro rfl; exact ht.1 _ _ ha
      | ok m =>
        simp only
        cases hc : o.call m with
        | error e => simp only [Except.error.injEq]; rintro rfl; exact ht.2.1 _ _ hc
        | ok a => exact ht.2.2.1 _ _ _
    subst this
    exact ⟨none, rfl⟩

/-- C131: comparing a word with an object that raises nothing but AttributeError returns, from both sides and with both signs; `!=` is the contrary of `==`.
-/
theorem C131_word_returns {A : Type} (w : Tanaka) (o : OtherObj WordVal A) (ht : Spec.Tame o) :
    ∃ b c, wordEqOther w o = .ok b ∧ wordNeOther w o = .ok (!b) ∧ otherEqWord w o = .ok c ∧ otherNeWord w o = .ok (!c) := by
  obtain ⟨r, hr⟩ := wordReply_tame w o ht
  cases hq : o.reply with
  | error e => exact absurd hq (ht.2.2.2 e)
  | ok q =>
    simp only [wordEqOther, wordNeOther, otherEqWord, otherNeWord, hr, hq, richEq]
    cases r <;> cases q <;> simp [Except.map]

/-- C131: an object whose class says nothing about equality is equal to a word exactly if it looks like the word, from both sides; so an object that lacks
one of the attributes is unequal to every word. -/
theorem C131_word_iff {A : Type} (w : Tanaka) (o : OtherObj WordVal A) (hp : o.reply = .ok none) :
    (wordEqOther w o = .ok true ↔ Spec.LikeWord w o) ∧ (otherEqWord w o = .ok true ↔ Spec.LikeWord w o) ∧
    (Spec.Tame o → (wordEqOther w o = .ok false ↔ ¬ Spec.LikeWord w o) ∧ (otherEqWord w o = .ok false ↔ ¬ Spec.LikeWord w o)) := by
  have key : ∀ x, richEq (wordReply w o) (.ok none) = .ok x ↔ richEq (.ok none) (wordReply w o) = .ok x := by
    intro x
    unfold richEq
    cases wordReply w o with
    | error e => simp
    | ok r => cases r <;> simp
  have h1 : richEq (wordReply w o) (.ok none) = .ok true ↔ Spec.LikeWord w o := by
    rw [← wordReply_true]
    unfold richEq
    cases wordReply w o with
    | error e => simp
    | ok r => cases r <;> simp
  have h2 : Spec.Tame o → (richEq (wordReply w o) (.ok none) = .ok false ↔ ¬ Spec.LikeWord w o) := by
    intro ht
    obtain ⟨r, hr⟩ := wordReply_tame w o ht
    rw [← h1, hr]
    cases r with
    | none => simp [richEq]
    | some b => cases b <;> simp [richEq]
  unfold wordEqOther otherEqWord
  rw [hp]
  exact ⟨h1, (key true).symm.trans h1, fun ht => ⟨h2 ht, (key false).symm.trans (h2 ht)⟩⟩

/-- C131, the exact condition for nodes: comparing a node with an object raises AttributeError if the object lacks an attribute that is looked at: `label`,
then `attrib` if the labels are equal, then `children` if the attributes are equal too. -/
theorem C131_node_iff {A : Type} (n : TNode) (o : OtherObj NodeVal A) (ht : Spec.Tame o) (hc : ∀ f a, ∃ b, o.cmp f a = .ok b) (hp : o.reply = .ok none) :
    (nodeEqOther n o = .error .attributeError ↔
      (∀ a, o.attr u!"label" ≠ .ok a) ∨
      Spec.HasEqual o u!"label" (.label n.label) ∧
        ((∀ a, o.attr u!"attrib" ≠ .ok a) ∨ Spec.HasEqual o u!"attrib" (.attrib n.attrib) ∧ ∀ a, o.attr u!"children" ≠ .ok a)) ∧
    (nodeEqOther n o = .ok true ↔ Spec.HasEqual o u!"label" (.label n.label) ∧ Spec.HasEqual o u!"attrib" (.attrib n.attrib) ∧
      Spec.HasEqual o u!"children" (.children n.children)) ∧
    otherEqNode n o = nodeEqOther n o := by
  have herr : ∀ (name : Str) (f : NodeVal) (rest : Except PyErr Bool), andAttr o name f rest = .error .attributeError ↔
      (∀ a, o.attr name ≠ .ok a) ∨ Spec.HasEqual o name f ∧ rest = .error .attributeError := by
    intro name f rest
    unfold andAttr Spec.HasEqual
    cases ha : o.attr name with
    | error e => obtain rfl := ht.1 _ _ ha; simp
    | ok a =>
      obtain ⟨b, hb⟩ := hc f a
      simp only [hb, Except.ok.injEq, exists_eq_left']
      cases b <;> simp
  have hlast : ∀ x : Except PyErr Bool, sameChildren n o = x ↔
      match x with
      | .error e => (∀ a, o.attr u!"children" ≠ .ok a) ∧ e = .attributeError
      | .ok true => Spec.HasEqual o u!"children" (.children n.children)
      | .ok false => Spec.HasOther o u!"children" (.children n.children) := by
    intro x
    unfold sameChildren Spec.HasEqual Spec.HasOther
    cases ha : o.attr u!"children" with
    | error e =>
      obtain rfl := ht.1 _ _ ha
      cases x with
      | error e' => simp [eq_comm]
      | ok b => cases b <;> simp
    | ok a =>
      obtain ⟨b, hb⟩ := hc (.children n.children) a
      cases x with
      | error e' => simp [hb]
      | ok b' => cases b <;> cases b' <;> simp [hb]
  have hrich : ∀ x : Except PyErr Bool, richEq (x.map some) (.ok none) = x ∧ richEq (.ok none) (x.map some) = x := by
    intro x; cases x <;> simp [richEq, Except.map]
  unfold nodeEqOther otherEqNode nodeReply
  rw [hp, (hrich _).1, (hrich _).2]
  refine ⟨?_, ?_, rfl⟩
  · rw [herr, herr, hlast]; simp
  · rw [andAttr_true, andAttr_true, hlast]

/-- C131, refuted: comparing a node with an object that has no label raises AttributeError, from both sides; so does looking for a node in a list in which such
an object comes before it. -/
theorem C131_node_refuted {A : Type} (n : TNode) (o : OtherObj NodeVal A) (hl : o.attr u!"label" = .error .attributeError) (hp : o.reply = .ok none)
    (before rest : List (Bool × Except PyErr Bool)) (hb : ∀ x ∈ before, x = (false, .ok false)) :
    nodeEqOther n o = .error .attributeError ∧ otherEqNode n o = .error .attributeError ∧
    inList (before ++ (false, otherEqNode n o) :: rest) = .error .attributeError := by
  have h1 : nodeReply n o = .error .attributeError := by simp [nodeReply, andAttr, hl, Except.map]
  have h2 : otherEqNode n o = .error .attributeError := by simp [otherEqNode, h1, hp, richEq]
  refine ⟨by simp [nodeEqOther, h1, richEq], h2, ?_⟩
  induction before with
  | nil => simp [inList, h2]
  | cons x before ih =>
    obtain rfl := hb x (by simp)
    simp only [List.cons_append, inList, Bool.false_eq_true, if_false]
    exact ih (fun y hy => hb y (by simp [hy]))

/-- C131: looking for a word in a list returns whether one of the items is it or is equal to it, if no comparison raises. -/
theorem C131_search (items : List (Bool × Bool)) :
    inList (items.map (fun x => (x.1, .ok x.2))) = .ok (decide (∃ x ∈ items, x.1 = true ∨ x.2 = true)) := by
  induction items with
  | nil => simp [inList]
  | cons x items ih =>
    obtain ⟨a, b⟩ := x
    cases a
    · cases b
      · simp [inList, ih]
      · simp [inList]
    · simp [inList]

/-- C131, refuted: no word, node or dictionary entry has a hash, so none of them can be in a set or be a key; for a subclass of `DictionaryEntry` it makes no
difference whether it has a `name`. -/
theorem C131_hash_refuted (identity : Int) {A : Type} (name : A) :
    wordHash identity = .error .typeError ∧ nodeHash identity = .error .typeError ∧
    entryHash (A := A) (.error .attributeError) identity = .error .attributeError ∧ entryHash (.ok name) identity = .error .typeError := ⟨rfl, rfl, rfl, rfl⟩

/-! `None`, and an object with all attributes of a word. -/

def noneObj (F : Type) : OtherObj F Unit := ⟨fun _ => .error .attributeError, fun _ => .error .typeError, fun _ _ => .ok false, .ok none⟩

def wordLike : OtherObj WordVal WordVal :=
  ⟨fun n => if n = u!"headword" then .ok (.text u!"彼") else if n = u!"resolve_display" then .ok .none else if n = u!"example" then .ok (.bool false)
    else if n = u!"sense" ∨ n = u!"reading" then .ok .none else .error .attributeError,
   fun _ => .ok (.text u!"彼"), fun f a => .ok (decide (f = a)), .ok none⟩

example : wordEqOther ⟨u!"彼", none, none, none, false⟩ wordLike = .ok true ∧ wordEqOther ⟨u!"彼", none, some 1, none, false⟩ wordLike = .ok false ∧
    otherEqWord ⟨u!"彼", none, none, none, false⟩ (noneObj WordVal) = .ok false := by decide +kernel

example : Spec.Tame wordLike := by
  refine ⟨fun n e h => ?_, fun a e h => by simp [wordLike] at h, fun f a e h => by simp [wordLike] at h, fun e h => by simp [wordLike] at h⟩
  simp only [wordLike] at h
  repeat' split at h
  all_goals first | cases h; rfl | cases h

example (n : TNode) : nodeEqOther n (noneObj NodeVal) = .error .attributeError := (C131_node_refuted n _ rfl rfl [] [] (by simp)).1

end Cjk
