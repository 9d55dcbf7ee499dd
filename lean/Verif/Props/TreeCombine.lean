import Verif.Model.TreeCombine
/-!
# C126: `combine`, `union` and `diff` of distributions

They never return, whatever attributes a program gives to the objects.  `diff` works for a subclass that replaces `union` by a method that takes
`f` and `label`.
-/

namespace Cjk
open Py

theorem newDist_text {R : Type} (w : DWorld) (rest : DVal → Except PyErr R) (s : Str) : newDist w rest (.text s) = .error .attributeError := rfl

theorem distBind_ok {α β : Type} {x : Except PyErr α} {f : α → Except PyErr β} {b : β} (h : x >>= f = .ok b) : ∃ a, x = .ok a ∧ f a = .ok b := by
  cases x with
  | error e => cases h
  | ok a => exact ⟨a, rfl, h⟩

/-- C126, refuted: `combine` never returns.  Without an attribute `tree`, which the constructor does not set, it raises AttributeError; with all the
attributes it asks for it raises AttributeError as well, unless the labels differ. -/
theorem C126_combine_refuted {R : Type} (w : DWorld) (rest : DVal → Except PyErr R) (self rhs : DistObj) (label : Str) :
    (∀ d, distCombine w rest self rhs label ≠ .ok d) ∧
    (Dict.get? self u!"tree" = none → distCombine w rest self rhs label = .error .attributeError) ∧
    (∀ t t' l l' a b sa sb same, Dict.get? self u!"tree" = some t → Dict.get? rhs u!"tree" = some t' → w.getattr t u!"label" = .ok l →
      w.getattr t' u!"label" = .ok l' → w.eq l l' = .ok same → Dict.get? self u!"label" = some a → Dict.get? rhs u!"label" = some b →
      w.show_ a = .ok sa → w.show_ b = .ok sb →
      distCombine w rest self rhs label = .error (if same then .attributeError else .assertionError)) := by
  refine ⟨fun d h => ?_, fun h => ?_, ?_⟩
  · simp only [distCombine, newDist_text] at h
    obtain ⟨t, -, h⟩ := distBind_ok h
    obtain ⟨l, -, h⟩ := distBind_ok h
    obtain ⟨t', -, h⟩ := distBind_ok h
    obtain ⟨l', -, h⟩ := distBind_ok h
    obtain ⟨same, -, h⟩ := distBind_ok h
    cases same with
    | false => cases h
    | true =>
      obtain ⟨a, -, h⟩ := distBind_ok h
      obtain ⟨b, -, h⟩ := distBind_ok h
      obtain ⟨sa, -, h⟩ := distBind_ok h
      obtain ⟨sb, -, h⟩ := distBind_ok h
      cases h
  · simp [distCombine, DistObj.getattr, h, bind, Except.bind]
  · intro t t' l l' a b sa sb same h1 h2 h3 h4 h5 h6 h7 h8 h9
    cases same <;>
      simp [distCombine, DistObj.getattr, h1, h2, h3, h4, h5, h6, h7, h8, h9, bind, Except.bind, newDist_text]

/-- C126, refuted: `union` of a `TreeDist` raises TypeError, and so does `diff`. -/
theorem C126_union_refuted {V R : Type} (f label rhs : V) :
    callUnion (R := R) .own f label [rhs] [] = .error .typeError ∧ callDiff (R := R) .own f label rhs = .error .typeError := by
  constructor <;> rfl

/-- C126: no call of `union` or `diff` of a `TreeDist` returns, however it is called. -/
theorem C126_union_always {V R : Type} (f label : V) (pos : List V) (kw : Dict Str V) :
    callUnion (R := R) .own f label pos kw = .error .typeError := by
  have hb : ∀ (x : Option V), bindCall ownUnionParams x.toList [(u!"f", f), (u!"label", label)] = .error .typeError := by
    intro x
    cases x <;> rfl
  unfold callUnion
  simp only [hb]
  unfold bindCall
  split
  · rename_i e heq
    split at heq
    · simpa using heq.symm
    · split at heq
      · unfold ownUnionParams at heq
        cases pos with
        | nil =>
          simp only [List.length_nil, List.drop_zero, bindRest] at heq
          cases hk : Dict.get? kw u!"rhs" with
          | none => simp [hk] at heq; simpa using heq.symm
          | some v => simp [hk] at heq
        | cons p ps => simp [bindRest] at heq
      · simpa using heq.symm
  · rfl

/-- The parameters behind the first one accept the keyword arguments `f` and `label` and nothing else: these two are among them and the others have
defaults. -/
def Spec.TakesFLabel {V : Type} (rest : List (Str × Option V)) : Prop :=
  (∃ d, (u!"f", d) ∈ rest) ∧ (∃ d, (u!"label", d) ∈ rest) ∧ ∀ p ∈ rest, p.1 ≠ u!"f" → p.1 ≠ u!"label" → p.2.isSome

/-- Their values: the two that are given, defaults for the others. -/
def Spec.fLabelArgs {V : Type} (f label : V) (rest : List (Str × Option V)) : Dict Str V :=
  rest.filterMap (fun p => (if p.1 = u!"f" then some f else if p.1 = u!"label" then some label else p.2).map (fun v => (p.1, v)))

theorem kw_value {V : Type} (f label : V) (name : Str) (d : Option V) :
    (Dict.get? [(u!"f", f), (u!"label", label)] name).or d = if name = u!"f" then some f else if name = u!"label" then some label else d := by
  by_cases h1 : name = u!"f"
  · subst h1; rfl
  · by_cases h2 : name = u!"label"
    · subst h2; rfl
    · have : Dict.get? [(u!"f", f), (u!"label", label)] name = none := by
        simp only [Dict.get?]
        rw [if_neg (fun e => h1 e.symm), if_neg (fun e => h2 e.symm)]
      rw [this, if_neg h1, if_neg h2]; rfl

theorem bindRest_fLabel {V : Type} (f label : V) (rest : List (Str × Option V)) :
    bindRest [(u!"f", f), (u!"label", label)] rest =
      if ∀ p ∈ rest, p.1 ≠ u!"f" → p.1 ≠ u!"label" → p.2.isSome then .ok (Spec.fLabelArgs f label rest) else .error .typeError := by
  induction rest with
  | nil => rfl
  | cons p rest ih =>
    obtain ⟨name, d⟩ := p
    rw [bindRest, kw_value, ih]
    simp only [List.forall_mem_cons, Spec.fLabelArgs, List.filterMap_cons]
    by_cases h1 : name = u!"f"
    · simp only [h1, if_true, ne_eq, not_true_eq_false, false_imp_iff, true_and, Option.map_some]
      by_cases hc : ∀ p ∈ rest, ¬ p.1 = u!"f" → ¬ p.1 = u!"label" → p.2.isSome = true
      · rw [if_pos hc, if_pos hc]
      · rw [if_neg hc, if_neg hc]
    · by_cases h2 : name = u!"label"
      · simp only [h2, if_true, ne_eq, not_true_eq_false, false_imp_iff, implies_true, true_and, Option.map_some,
          show ¬ (u!"label" = u!"f") by decide, if_false]
        by_cases hc : ∀ p ∈ rest, ¬ p.1 = u!"f" → ¬ p.1 = u!"label" → p.2.isSome = true
        · rw [if_pos hc, if_pos hc]
        · rw [if_neg hc, if_neg hc]
      · cases d with
        | none => simp [h1, h2]
        | some v =>
          simp only [h1, h2, if_false, ne_eq, not_false_eq_true, Option.isSome_some, implies_true, true_and, Option.map_some]
          by_cases hc : ∀ p ∈ rest, ¬ p.1 = u!"f" → ¬ p.1 = u!"label" → p.2.isSome = true
          · rw [if_pos hc, if_pos hc]
          · rw [if_neg hc, if_neg hc]

theorem bindCall_fLabel {V : Type} (f label rhs : V) (first : Str × Option V) (rest : List (Str × Option V)) :
    (Spec.TakesFLabel rest → bindCall (first :: rest) [rhs] [(u!"f", f), (u!"label", label)] = .ok ((first.1, rhs) :: Spec.fLabelArgs f label rest)) ∧
    (¬ Spec.TakesFLabel rest → bindCall (first :: rest) [rhs] [(u!"f", f), (u!"label", label)] = .error .typeError) := by
  have hmem : ∀ n : Str, ((rest.map Prod.fst).contains n = true) ↔ ∃ d, (n, d) ∈ rest := by
    intro n
    rw [List.contains_iff_mem, List.mem_map]
    exact ⟨fun ⟨p, hp, e⟩ => ⟨p.2, by rw [← e]; exact hp⟩, fun ⟨d, hd⟩ => ⟨_, hd, rfl⟩⟩
  have hall : (([(u!"f", f), (u!"label", label)] : Dict Str V).all
        (fun k => (((first :: rest).drop [rhs].length).map Prod.fst).contains k.1) = true) ↔ (∃ d, (u!"f", d) ∈ rest) ∧ ∃ d, (u!"label", d) ∈ rest := by
    rw [← hmem, ← hmem, List.all_cons, List.all_cons, List.all_nil, Bool.and_true, Bool.and_eq_true]
    exact Iff.rfl
  unfold bindCall
  rw [if_neg (by simp)]
  refine ⟨fun h => ?_, fun h => ?_⟩
  · rw [if_pos (hall.2 ⟨h.1, h.2.1⟩)]
    show (match bindRest _ rest with | .error e => Except.error e | .ok vs => .ok _) = _
    rw [bindRest_fLabel, if_pos h.2.2]
    rfl
  · by_cases h1 : (∃ d, (u!"f", d) ∈ rest) ∧ ∃ d, (u!"label", d) ∈ rest
    · rw [if_pos (hall.2 h1)]
      show (match bindRest _ rest with | .error e => Except.error e | .ok vs => .ok _) = _
      rw [bindRest_fLabel, if_neg (fun h2 => h ⟨h1.1, h1.2, h2⟩)]
    · rw [if_neg (fun h2 => h1 (hall.1 h2))]

/-- C126: `diff` returns for the objects of a subclass exactly if the `union` it puts in place accepts the call: it has a first parameter, behind it `f` and
`label`, and defaults for all others.  Then `diff` is what that method gives for these arguments; else it raises TypeError. -/
theorem C126_diff_iff {V R : Type} (m : UnionMethod V R) (f label rhs : V) :
    (∀ first rest body, m = .replaced (first :: rest) body → Spec.TakesFLabel rest →
      callDiff m f label rhs = body ((first.1, rhs) :: Spec.fLabelArgs f label rest)) ∧
    ((¬ ∃ first rest body, m = .replaced (first :: rest) body ∧ Spec.TakesFLabel rest) → callDiff m f label rhs = .error .typeError) := by
  refine ⟨fun first rest body hm h => ?_, fun h => ?_⟩
  · rw [hm, callDiff, callUnion, (bindCall_fLabel f label rhs first rest).1 h]
  · cases m with
    | own => exact C126_union_always f label _ _
    | replaced params body =>
      rw [callDiff, callUnion]
      cases params with
      | nil => rfl
      | cons first rest => rw [(bindCall_fLabel f label rhs first rest).2 (fun h' => h ⟨first, rest, body, rfl, h'⟩)]

/-! A distribution as the constructor makes it, one that a program gave both attributes, and a subclass with a working `union`. -/

example (w : DWorld) (rest : DVal → Except PyErr Unit) :
    distCombine w rest [(u!"root", .obj 0)] [(u!"root", .obj 1)] u!"union" = .error .attributeError :=
  (C126_combine_refuted w rest _ _ _).2.1 rfl

example (rest : DVal → Except PyErr Unit) :
    distCombine ⟨fun _ _ => .ok (.text u!"a"), fun x y => .ok (decide (x = y)), fun _ => .ok u!"x"⟩ rest
      [(u!"root", .obj 0), (u!"tree", .obj 0), (u!"label", .text u!"x")] [(u!"root", .obj 1), (u!"tree", .obj 1), (u!"label", .text u!"x")] u!"union" =
      .error .attributeError :=
  (C126_combine_refuted _ rest _ _ _).2.2 _ _ _ _ _ _ _ _ true rfl rfl rfl rfl rfl rfl rfl rfl rfl

example : callDiff (.replaced [(u!"rhs", none), (u!"f", some 1), (u!"label", none), (u!"deep", some 3)] (fun args => .ok (Dict.values args))) 7 8 9 =
    .ok [9, 7, 8, 3] :=
  (C126_diff_iff _ _ _ _).1 _ _ _ rfl ⟨⟨some 1, by simp⟩, ⟨none, by simp⟩, by decide⟩

/-- A `union` whose first parameter is called `f`. -/
example : callDiff (R := List Nat) (.replaced [(u!"f", none), (u!"label", none)] (fun args => .ok (Dict.values args))) 7 8 9 = .error .typeError :=
  (C126_diff_iff _ _ _ _).2 (by
    rintro ⟨first, rest, body, h, ⟨d, hd⟩, _⟩
    cases h
    simp at hd)

end Cjk
