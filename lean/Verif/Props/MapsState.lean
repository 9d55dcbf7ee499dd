import Verif.Model.MapsState

/-!
# C145: when and how often the methods given to the functions on mappings are called
-/

namespace Cjk
open Py

namespace Spec
variable {A B K V W S : Type} [DecidableEq K]

/-- `Judged truth f as rs s s'`: from the first item to the last, the method is called and then the truth of its result taken; nothing raises; `rs` are the results and
their truth values. -/
inductive Judged (truth : B → S → Except PyErr Bool × S) (f : A → S → Except PyErr B × S) : List A → List (B × Bool) → S → S → Prop
  | nil (s) : Judged truth f [] [] s s
  | snoc {as rs s s1 a b s2 t s3} : Judged truth f as rs s s1 → f a s1 = (.ok b, s2) → truth b s2 = (.ok t, s3) → Judged truth f (as ++ [a]) (rs ++ [(b, t)]) s s3

/-- The results that are true. -/
def trueOnes (rs : List (B × Bool)) : List B := (rs.filter (fun r => r.2)).map Prod.fst

/-- The items whose results are not. -/
def falseItems (as : List A) (rs : List (B × Bool)) : List A := ((as.zip rs).filter (fun p => !p.2.2)).map Prod.fst

/-- `Stored f ks w w'`: for one key after the other, the method is called with the value that the key has then, and the result put in its place. -/
inductive Stored (f : V → Dict K V × S → Except PyErr V × (Dict K V × S)) : List K → Dict K V × S → Dict K V × S → Prop
  | nil (w) : Stored f [] w w
  | snoc {ks w w1 k v x w2} : Stored f ks w w1 → Dict.get? w1.1 k = some v → f v w1 = (.ok x, w2) → Stored f (ks ++ [k]) w (Dict.set w2.1 k x, w2.2)

/-- `Gathered f ks items w w'`: for one key after the other, the method is called with the value that the key has then; `items` are the keys with the results. -/
inductive Gathered (f : V → Dict K V × S → Except PyErr W × (Dict K V × S)) : List K → List (K × W) → Dict K V × S → Dict K V × S → Prop
  | nil (w) : Gathered f [] [] w w
  | snoc {ks items w w1 k v x w2} : Gathered f ks items w w1 → Dict.get? w1.1 k = some v → f v w1 = (.ok x, w2) → Gathered f (ks ++ [k]) (items ++ [(k, x)]) w w2

/-- The method deletes no entries of the dictionary. -/
def DeletesNothing (f : V → Dict K V × S → Except PyErr W × (Dict K V × S)) : Prop := ∀ v w, Dict.keys w.1 <+: Dict.keys (f v w).2.1

end Spec
open Spec (Judged trueOnes falseItems Stored Gathered DeletesNothing)

/-! ### `partial_map` and `filtered_map` -/

section
variable {A B S : Type} {truth : B → S → Except PyErr Bool × S} {f : A → S → Except PyErr B × S}

theorem Spec.Judged.cons {a : A} {b : B} {t : Bool} {as : List A} {rs : List (B × Bool)} {s s1 s2 s3 : S} (h1 : f a s = (.ok b, s1)) (h2 : truth b s1 = (.ok t, s2))
    (h : Judged truth f as rs s2 s3) : Judged truth f (a :: as) ((b, t) :: rs) s s3 := by
  induction h with
  | nil => exact Judged.snoc (as := []) (rs := []) (Judged.nil _) h1 h2
  | snoc _ e1 e2 ih => exact Judged.snoc (ih h2) e1 e2

theorem judged_nil {rs : List (B × Bool)} {s s' : S} : Judged truth f [] rs s s' ↔ rs = [] ∧ s' = s := by
  constructor
  · intro h
    generalize hl : ([] : List A) = l at h
    cases h with
    | nil => exact ⟨rfl, rfl⟩
    | snoc => simp at hl
  · rintro ⟨rfl, rfl⟩; exact Judged.nil _

theorem judged_cons {a : A} {as : List A} {rs : List (B × Bool)} {s s' : S} :
    Judged truth f (a :: as) rs s s' ↔ ∃ b t rs' s1 s2, rs = (b, t) :: rs' ∧ f a s = (.ok b, s1) ∧ truth b s1 = (.ok t, s2) ∧ Judged truth f as rs' s2 s' := by
  constructor
  · intro h
    generalize hl : a :: as = l at h
    induction h generalizing as with
    | nil => cases hl
    | snoc h e1 e2 ih =>
      rename_i as0 rs0 s0 s1 a0 b0 s2 t0 s3
      cases as0 with
      | nil =>
        simp only [List.nil_append, List.cons.injEq] at hl
        obtain ⟨rfl, rfl⟩ := hl
        obtain ⟨rfl, rfl⟩ := judged_nil.1 h
        exact ⟨_, _, [], _, _, rfl, e1, e2, Judged.nil _⟩
      | cons a1 as1 =>
        simp only [List.cons_append, List.cons.injEq] at hl
        obtain ⟨rfl, rfl⟩ := hl
        obtain ⟨b, t, rs', s1', s2', rfl, h1, h2, h3⟩ := ih rfl
        exact ⟨b, t, rs' ++ [(b0, t0)], s1', s2', rfl, h1, h2, Judged.snoc h3 e1 e2⟩
  · rintro ⟨b, t, rs', s1, s2, rfl, h1, h2, h3⟩
    exact Judged.cons h1 h2 h3

theorem partialMapIn_ok (as : List A) (m : List B) (r : List A) (s : S) (m' : List B) (r' : List A) (s' : S) :
    partialMapIn truth f as m r s = (.ok (m', r'), s') ↔ ∃ rs, Judged truth f as rs s s' ∧ m' = m ++ trueOnes rs ∧ r' = r ++ falseItems as rs := by
  induction as generalizing m r s with
  | nil =>
    simp only [partialMapIn, judged_nil]
    constructor
    · intro h
      simp only [Prod.mk.injEq, Except.ok.injEq] at h
      obtain ⟨⟨rfl, rfl⟩, rfl⟩ := h
      exact ⟨[], ⟨rfl, rfl⟩, by simp [trueOnes], by simp [falseItems]⟩
    · rintro ⟨_, ⟨rfl, rfl⟩, rfl, rfl⟩
      simp [trueOnes, falseItems]
  | cons a as ih =>
    simp only [partialMapIn, judged_cons]
    rcases e1 : f a s with ⟨_ | b, s1⟩
    · simp
    · rcases e2 : truth b s1 with ⟨_ | t, s2⟩
      · simp only [e2, Prod.mk.injEq, reduceCtorEq, false_and, false_iff]
        rintro ⟨rs, ⟨b', t, rs', s1', s2', rfl, h1, h2, _⟩, _⟩
        simp only [Except.ok.injEq] at h1
        obtain ⟨rfl, rfl⟩ := h1
        rw [e2] at h2
        simp at h2
      · have key : ∀ m1 r1, m1 = (if t then m ++ [b] else m) → r1 = (if t then r else r ++ [a]) →
            (partialMapIn truth f as m1 r1 s2 = (.ok (m', r'), s') ↔
              ∃ rs, (∃ b' t' rs' s1' s2', rs = (b', t') :: rs' ∧ (Except.ok b, s1) = (Except.ok (ε := PyErr) b', s1') ∧ truth b' s1' = (.ok t', s2') ∧ Judged truth f as rs' s2' s') ∧
                m' = m ++ trueOnes rs ∧ r' = r ++ falseItems (a :: as) rs) := by
          intro m1 r1 hm hr
          rw [ih]
          constructor
          · rintro ⟨rs, h1, rfl, rfl⟩
            refine ⟨(b, t) :: rs, ⟨b, t, rs, s1, s2, rfl, rfl, e2, h1⟩, ?_, ?_⟩ <;> subst hm hr <;> cases t <;> simp [trueOnes, falseItems]
          · rintro ⟨_, ⟨b', t', rs', s1', s2', rfl, h1, h2, h3⟩, rfl, rfl⟩
            simp only [Prod.mk.injEq, Except.ok.injEq] at h1
            obtain ⟨rfl, rfl⟩ := h1
            rw [e2] at h2
            simp only [Prod.mk.injEq, Except.ok.injEq] at h2
            obtain ⟨rfl, rfl⟩ := h2
            refine ⟨rs', h3, ?_, ?_⟩ <;> subst hm hr <;> cases t <;> simp [trueOnes, falseItems]
        simp only [e2]
        cases t
        · exact key _ _ rfl rfl
        · exact key _ _ rfl rfl

/-- Where a method or a truth test raises. -/
def Spec.JudgedRaises (truth : B → S → Except PyErr Bool × S) (f : A → S → Except PyErr B × S) (as : List A) (e : PyErr) (s s' : S) : Prop :=
  ∃ as1 a as2 rs s1, as = as1 ++ a :: as2 ∧ Judged truth f as1 rs s s1 ∧ (f a s1 = (.error e, s') ∨ ∃ b s2, f a s1 = (.ok b, s2) ∧ truth b s2 = (.error e, s'))
open Spec (JudgedRaises)

theorem judgedRaises_nil {e : PyErr} {s s' : S} : ¬ JudgedRaises truth f [] e s s' := by
  rintro ⟨as1, a, as2, rs, s1, h, _⟩
  simp at h

theorem judgedRaises_cons {a : A} {as : List A} {e : PyErr} {s s' : S} :
    JudgedRaises truth f (a :: as) e s s' ↔
      f a s = (.error e, s') ∨ ∃ b s1, f a s = (.ok b, s1) ∧ (truth b s1 = (.error e, s') ∨ ∃ t s2, truth b s1 = (.ok t, s2) ∧ JudgedRaises truth f as e s2 s') := by
  constructor
  · rintro ⟨as1, a', as2, rs, s1, h, h1, h2⟩
    cases as1 with
    | nil =>
      simp only [List.nil_append, List.cons.injEq] at h
      obtain ⟨rfl, rfl⟩ := h
      obtain ⟨rfl, rfl⟩ := judged_nil.1 h1
      rcases h2 with h2 | ⟨b, s2, h2, h3⟩
      · exact Or.inl h2
      · exact Or.inr ⟨b, s2, h2, Or.inl h3⟩
    | cons a1 as1 =>
      simp only [List.cons_append, List.cons.injEq] at h
      obtain ⟨rfl, rfl⟩ := h
      obtain ⟨b, t, rs', s3, s4, rfl, h3, h4, h5⟩ := judged_cons.1 h1
      exact Or.inr ⟨b, s3, h3, Or.inr ⟨t, s4, h4, as1, a', as2, rs', s1, rfl, h5, h2⟩⟩
  · rintro (h | ⟨b, s1, h1, h | ⟨t, s2, h2, as1, a', as2, rs, s3, rfl, h3, h4⟩⟩)
    · exact ⟨[], a, as, [], s, rfl, Judged.nil _, Or.inl h⟩
    · exact ⟨[], a, as, [], s, rfl, Judged.nil _, Or.inr ⟨b, s1, h1, h⟩⟩
    · exact ⟨a :: as1, a', as2, (b, t) :: rs, s3, rfl, Judged.cons h1 h2 h3, h4⟩

theorem partialMapIn_error (as : List A) (m : List B) (r : List A) (s s' : S) (e : PyErr) :
    partialMapIn truth f as m r s = (.error e, s') ↔ JudgedRaises truth f as e s s' := by
  induction as generalizing m r s with
  | nil => simp [partialMapIn, judgedRaises_nil]
  | cons a as ih =>
    rw [judgedRaises_cons]
    simp only [partialMapIn]
    rcases e1 : f a s with ⟨e0 | b, s1⟩
    · simp
    · rcases e2 : truth b s1 with ⟨e0 | t, s2⟩
      · simp only [e2, Prod.mk.injEq, reduceCtorEq, false_and, false_or, Except.ok.injEq, Except.error.injEq]
        constructor
        · rintro ⟨rfl, rfl⟩; exact ⟨b, s1, ⟨rfl, rfl⟩, Or.inl e2⟩
        · rintro ⟨_, _, ⟨rfl, rfl⟩, h | ⟨t, s2, h, _⟩⟩
          · rw [e2] at h; simpa using h
          · rw [e2] at h; simp at h
      · have : (∃ b' s1', (Except.ok b, s1) = (Except.ok (ε := PyErr) b', s1') ∧
            (truth b' s1' = (.error e, s') ∨ ∃ t s2, truth b' s1' = (.ok t, s2) ∧ JudgedRaises truth f as e s2 s')) ↔ JudgedRaises truth f as e s2 s' := by
          constructor
          · rintro ⟨b', s1', h1, h2⟩
            simp only [Prod.mk.injEq, Except.ok.injEq] at h1
            obtain ⟨rfl, rfl⟩ := h1
            rcases h2 with h2 | ⟨t', s2', h2, h3⟩
            · rw [e2] at h2; simp at h2
            · rw [e2] at h2
              simp only [Prod.mk.injEq, Except.ok.injEq] at h2
              obtain ⟨rfl, rfl⟩ := h2
              exact h3
          · intro h; exact ⟨b, s1, rfl, Or.inr ⟨t, s2, e2, h⟩⟩
        rw [this]
        simp only [e2]
        cases t
        · simp [ih]
        · simp [ih]

/-- `filtered_map` does what `partial_map` does, and returns its first list. -/
theorem filteredMapIn_eq (as : List A) (m : List B) (r : List A) (s : S) :
    filteredMapIn truth f as m s = ((match (partialMapIn truth f as m r s).1 with | .ok p => .ok p.1 | .error e => .error e), (partialMapIn truth f as m r s).2) := by
  induction as generalizing m r s with
  | nil => rfl
  | cons a as ih =>
    simp only [filteredMapIn, partialMapIn]
    rcases f a s with ⟨e0 | b, s1⟩
    · rfl
    · rcases e2 : truth b s1 with ⟨e0 | _ | _, s2⟩
      · simp only [e2]
      · simp only [e2]; exact ih m (r ++ [a]) s2
      · simp only [e2]; exact ih (m ++ [b]) r s2

/-- C145: `partial_map` returns exactly when the method, called for one item after the other, and the truth tests of the results raise nothing; each item has been
asked once, in order, and the state is the one after the last. -/
theorem C145_partial_returns (as : List A) (s s' : S) (mapped : List B) (rejected : List A) :
    partialMapIn truth f as [] [] s = (.ok (mapped, rejected), s') ↔ ∃ rs, Judged truth f as rs s s' ∧ mapped = trueOnes rs ∧ rejected = falseItems as rs := by
  simpa using partialMapIn_ok (truth := truth) (f := f) as [] [] s mapped rejected s'

/-- C145: and it raises exactly when one of them raises, with the same exception, and nothing is called after that. -/
theorem C145_partial_raises (as : List A) (s s' : S) (e : PyErr) : partialMapIn truth f as [] [] s = (.error e, s') ↔ JudgedRaises truth f as e s s' :=
  partialMapIn_error as [] [] s s' e

/-- C145: `filtered_map` returns under the same conditions, -/
theorem C145_filtered_returns (as : List A) (s s' : S) (kept : List B) :
    filteredMapIn truth f as [] s = (.ok kept, s') ↔ ∃ rs, Judged truth f as rs s s' ∧ kept = trueOnes rs := by
  rw [filteredMapIn_eq as [] [] s]
  constructor
  · intro h
    rcases e : partialMapIn truth f as [] [] s with ⟨e0 | ⟨m, r⟩, s1⟩
    · rw [e] at h; simp at h
    · rw [e] at h
      simp only [Prod.mk.injEq, Except.ok.injEq] at h
      obtain ⟨rfl, rfl⟩ := h
      obtain ⟨rs, h1, h2, _⟩ := (C145_partial_returns as s s1 m r).1 e
      exact ⟨rs, h1, h2⟩
  · rintro ⟨rs, h1, rfl⟩
    rw [(C145_partial_returns as s s' _ _).2 ⟨rs, h1, rfl, rfl⟩]

/-- C145: and raises under the same. -/
theorem C145_filtered_raises (as : List A) (s s' : S) (e : PyErr) : filteredMapIn truth f as [] s = (.error e, s') ↔ JudgedRaises truth f as e s s' := by
  rw [filteredMapIn_eq as [] [] s, ← C145_partial_raises]
  rcases partialMapIn truth f as [] [] s with ⟨e0 | ⟨m, r⟩, s1⟩ <;> simp

end

/-! ### `map_dict` -/

section
variable {K V W S T : Type} [DecidableEq K]

/-- Passes through the body of a loop. -/
inductive Turns (dic : T → Dict K V) (body : K → V → T → Except PyErr Unit × T) : List K → T → T → Prop
  | nil (t) : Turns dic body [] t t
  | cons {k v ks t t1 t2} : Dict.get? (dic t) k = some v → body k v t = (.ok (), t1) → Turns dic body ks t1 t2 → Turns dic body (k :: ks) t t2

section
variable {dic : T → Dict K V} {body : K → V → T → Except PyErr Unit × T}

theorem Turns.snoc {k : K} {v : V} {ks : List K} {t t1 t2 : T} (h : Turns dic body ks t t1) (h1 : Dict.get? (dic t1) k = some v) (h2 : body k v t1 = (.ok (), t2)) :
    Turns dic body (ks ++ [k]) t t2 := by
  induction h with
  | nil => exact Turns.cons h1 h2 (Turns.nil _)
  | cons e1 e2 _ ih => exact Turns.cons e1 e2 (ih h1 h2)

theorem Turns.append {ks ks' : List K} {t t1 t2 : T} (h : Turns dic body ks t t1) (h' : Turns dic body ks' t1 t2) : Turns dic body (ks ++ ks') t t2 := by
  induction h with
  | nil => exact h'
  | cons e1 e2 _ ih => exact Turns.cons e1 e2 (ih h')

theorem Turns.split {ks ks' : List K} {t t2 : T} (h : Turns dic body (ks ++ ks') t t2) : ∃ t1, Turns dic body ks t t1 ∧ Turns dic body ks' t1 t2 := by
  induction ks generalizing t with
  | nil => exact ⟨t, Turns.nil _, h⟩
  | cons k ks ih =>
    cases h with
    | cons e1 e2 h =>
      obtain ⟨t1, h1, h2⟩ := ih h
      exact ⟨t1, Turns.cons e1 e2 h1, h2⟩

theorem Turns.keys (hk : ∀ k v t, Dict.keys (dic t) <+: Dict.keys (dic (body k v t).2)) {ks : List K} {t t' : T} (h : Turns dic body ks t t') :
    Dict.keys (dic t) <+: Dict.keys (dic t') := by
  induction h with
  | nil => exact List.prefix_rfl
  | cons e1 e2 _ ih =>
    rename_i k v ks t t1 t2 _
    have := hk k v t
    rw [e2] at this
    exact this.trans ih

theorem length_keys_maps (d : Dict K V) : (Dict.keys d).length = d.length := by simp [Dict.keys]

theorem forItems_resized {n left : Nat} {t : T} (h : (dic t).length ≠ n) : forItems dic body n left t = (.resized, t) := by
  cases left <;> simp [forItems, h]

/-- What one turn of the loop does. -/
theorem forItems_turn {ks0 ks : List K} {k : K} {t : T} (hn : ks0.Nodup) (h0 : ∃ ks1, ks0 = ks1 ++ k :: ks) (ht : Dict.keys (dic t) = ks0) :
    ∃ v, Dict.get? (dic t) k = some v ∧ forItems dic body ks0.length (ks.length + 1) t =
      match body k v t with
      | (.error e, t1) => (.raised e, t1)
      | (.ok (), t1) => forItems dic body ks0.length ks.length t1 := by
  obtain ⟨ks1, rfl⟩ := h0
  have hl : (dic t).length = (ks1 ++ k :: ks).length := by rw [← ht, length_keys_maps]
  have hi : (ks1 ++ k :: ks).length - (ks.length + 1) = ks1.length := by simp
  have hlt : ks1.length < (dic t).length := by rw [hl]; simp
  have hkey : ((dic t)[ks1.length]'hlt).1 = k := by
    have : (Dict.keys (dic t))[ks1.length]? = some k := by rw [ht]; simp
    simp only [Dict.keys, List.getElem?_map, List.getElem?_eq_getElem hlt, Option.map_some, Option.some.injEq] at this
    exact this
  refine ⟨((dic t)[ks1.length]'hlt).2, ?_, ?_⟩
  · rw [Dict.get?_eq_some_iff (by unfold Dict.WF; rw [ht]; exact hn)]
    rw [← hkey]
    exact List.getElem_mem hlt
  · simp only [forItems, hl, if_true, hi, List.getElem?_eq_getElem hlt, hkey]
    rcases body k _ t with ⟨_ | ⟨⟨⟩⟩, t1⟩ <;> rfl

theorem forItems_done (hk : ∀ k v t, Dict.keys (dic t) <+: Dict.keys (dic (body k v t).2)) {ks0 : List K} (hn : ks0.Nodup) (ks : List K) (h0 : ∃ ks1, ks0 = ks1 ++ ks)
    (t t' : T) (ht : Dict.keys (dic t) = ks0) :
    forItems dic body ks0.length ks.length t = (.done, t') ↔ Turns dic body ks t t' ∧ Dict.keys (dic t') = ks0 := by
  induction ks generalizing t with
  | nil =>
    have hl : (dic t).length = ks0.length := by rw [← ht, length_keys_maps]
    simp only [List.length_nil, forItems, hl, if_true, Prod.mk.injEq, true_and]
    constructor
    · rintro rfl; exact ⟨Turns.nil _, ht⟩
    · rintro ⟨h, _⟩; cases h; rfl
  | cons k ks ih =>
    obtain ⟨v, hv, e⟩ := forItems_turn (body := body) hn h0 ht
    rw [List.length_cons, e]
    have hpre := hk k v t
    rcases eb : body k v t with ⟨e0 | ⟨⟨⟩⟩, t1⟩
    · simp only [Prod.mk.injEq, reduceCtorEq, false_and, false_iff]
      rintro ⟨h, _⟩
      cases h with
      | cons e1 e2 _ => rw [hv] at e1; cases e1; rw [eb] at e2; simp at e2
    · rw [eb, ht] at hpre
      simp only at hpre ⊢
      by_cases hsame : Dict.keys (dic t1) = ks0
      · rw [ih (by obtain ⟨ks1, rfl⟩ := h0; exact ⟨ks1 ++ [k], by simp⟩) t1 hsame]
        constructor
        · rintro ⟨h1, h2⟩; exact ⟨Turns.cons hv eb h1, h2⟩
        · rintro ⟨h1, h2⟩
          cases h1 with
          | cons e1 e2 h =>
            rw [hv] at e1; cases e1; rw [eb] at e2
            simp only [Prod.mk.injEq, true_and] at e2
            subst e2
            exact ⟨h, h2⟩
      · rw [forItems_resized (by
          intro hl
          rw [← length_keys_maps] at hl
          exact hsame (hpre.eq_of_length hl.symm).symm)]
        simp only [Prod.mk.injEq, reduceCtorEq, false_and, false_iff]
        rintro ⟨h1, h2⟩
        cases h1 with
        | cons e1 e2 h =>
          rw [hv] at e1; cases e1; rw [eb] at e2
          simp only [Prod.mk.injEq, true_and] at e2
          subst e2
          have h3 := Turns.keys hk h
          rw [h2] at h3
          exact hsame (h3.eq_of_length_le hpre.length_le)

theorem forItems_raised (hk : ∀ k v t, Dict.keys (dic t) <+: Dict.keys (dic (body k v t).2)) {ks0 : List K} (hn : ks0.Nodup) (ks : List K) (h0 : ∃ ks1, ks0 = ks1 ++ ks)
    (t t' : T) (ht : Dict.keys (dic t) = ks0) (e : PyErr) :
    forItems dic body ks0.length ks.length t = (.raised e, t') ↔
      ∃ ks1 k ks2 t1 v, ks = ks1 ++ k :: ks2 ∧ Turns dic body ks1 t t1 ∧ Dict.keys (dic t1) = ks0 ∧ Dict.get? (dic t1) k = some v ∧ body k v t1 = (.error e, t') := by
  induction ks generalizing t with
  | nil =>
    have hl : (dic t).length = ks0.length := by rw [← ht, length_keys_maps]
    simp only [List.length_nil, forItems, hl, if_true, Prod.mk.injEq, reduceCtorEq, false_and, false_iff]
    rintro ⟨ks1, k, ks2, t1, v, h, _⟩
    simp at h
  | cons k ks ih =>
    obtain ⟨v, hv, eq⟩ := forItems_turn (body := body) hn h0 ht
    rw [List.length_cons, eq]
    have hpre := hk k v t
    rcases eb : body k v t with ⟨e0 | ⟨⟨⟩⟩, t1⟩
    · simp only [Prod.mk.injEq, ForEnd.raised.injEq]
      constructor
      · rintro ⟨rfl, rfl⟩; exact ⟨[], k, ks, t, v, rfl, Turns.nil _, ht, hv, eb⟩
      · rintro ⟨ks1, k', ks2, t2, v', h, h1, h2, h3, h4⟩
        cases ks1 with
        | nil =>
          simp only [List.nil_append, List.cons.injEq] at h
          obtain ⟨rfl, rfl⟩ := h
          cases h1
          rw [hv] at h3; cases h3; rw [eb] at h4
          simpa using h4
        | cons k1 ks1 =>
          simp only [List.cons_append, List.cons.injEq] at h
          obtain ⟨rfl, rfl⟩ := h
          cases h1 with
          | cons e1 e2 _ => rw [hv] at e1; cases e1; rw [eb] at e2; simp at e2
    · rw [eb, ht] at hpre
      simp only at hpre ⊢
      have hrest : (∃ ks1 k' ks2 t2 v', k :: ks = ks1 ++ k' :: ks2 ∧ Turns dic body ks1 t t2 ∧ Dict.keys (dic t2) = ks0 ∧ Dict.get? (dic t2) k' = some v' ∧ body k' v' t2 = (.error e, t')) ↔
          ∃ ks1 k' ks2 t2 v', ks = ks1 ++ k' :: ks2 ∧ Turns dic body ks1 t1 t2 ∧ Dict.keys (dic t2) = ks0 ∧ Dict.get? (dic t2) k' = some v' ∧ body k' v' t2 = (.error e, t') := by
        constructor
        · rintro ⟨ks1, k', ks2, t2, v', h, h1, h2, h3, h4⟩
          cases ks1 with
          | nil =>
            simp only [List.nil_append, List.cons.injEq] at h
            obtain ⟨rfl, rfl⟩ := h
            cases h1
            rw [hv] at h3; cases h3; rw [eb] at h4
            simp at h4
          | cons k1 ks1 =>
            simp only [List.cons_append, List.cons.injEq] at h
            obtain ⟨rfl, rfl⟩ := h
            cases h1 with
            | cons e1 e2 h1 =>
              rw [hv] at e1; cases e1; rw [eb] at e2
              simp only [Prod.mk.injEq, true_and] at e2
              subst e2
              exact ⟨ks1, k', ks2, t2, v', rfl, h1, h2, h3, h4⟩
        · rintro ⟨ks1, k', ks2, t2, v', rfl, h1, h2, h3, h4⟩
          exact ⟨k :: ks1, k', ks2, t2, v', rfl, Turns.cons hv eb h1, h2, h3, h4⟩
      rw [hrest]
      by_cases hsame : Dict.keys (dic t1) = ks0
      · exact ih (by obtain ⟨ks1, rfl⟩ := h0; exact ⟨ks1 ++ [k], by simp⟩) t1 hsame
      · rw [forItems_resized (by
          intro hl
          rw [← length_keys_maps] at hl
          exact hsame (hpre.eq_of_length hl.symm).symm)]
        simp only [Prod.mk.injEq, reduceCtorEq, false_and, false_iff]
        rintro ⟨ks1, k', ks2, t2, v', _, h1, h2, _⟩
        have h3 := Turns.keys hk h1
        rw [h2] at h3
        exact hsame (h3.eq_of_length_le hpre.length_le)

theorem forItems_resized_iff (hk : ∀ k v t, Dict.keys (dic t) <+: Dict.keys (dic (body k v t).2)) {ks0 : List K} (hn : ks0.Nodup) (ks : List K) (h0 : ∃ ks1, ks0 = ks1 ++ ks)
    (t t' : T) (ht : Dict.keys (dic t) = ks0) :
    forItems dic body ks0.length ks.length t = (.resized, t') ↔
      ∃ ks1 k ks2 t1 v, ks = ks1 ++ k :: ks2 ∧ Turns dic body ks1 t t1 ∧ Dict.keys (dic t1) = ks0 ∧ Dict.get? (dic t1) k = some v ∧ body k v t1 = (.ok (), t') ∧
        Dict.keys (dic t') ≠ ks0 := by
  induction ks generalizing t with
  | nil =>
    have hl : (dic t).length = ks0.length := by rw [← ht, length_keys_maps]
    simp only [List.length_nil, forItems, hl, if_true, Prod.mk.injEq, reduceCtorEq, false_and, false_iff]
    rintro ⟨ks1, k, ks2, t1, v, h, _⟩
    simp at h
  | cons k ks ih =>
    obtain ⟨v, hv, eq⟩ := forItems_turn (body := body) hn h0 ht
    rw [List.length_cons, eq]
    have hpre := hk k v t
    rcases eb : body k v t with ⟨e0 | ⟨⟨⟩⟩, t1⟩
    · simp only [Prod.mk.injEq, reduceCtorEq, false_and, false_iff]
      rintro ⟨ks1, k', ks2, t2, v', h, h1, h2, h3, h4, _⟩
      cases ks1 with
      | nil =>
        simp only [List.nil_append, List.cons.injEq] at h
        obtain ⟨rfl, rfl⟩ := h
        cases h1
        rw [hv] at h3; cases h3; rw [eb] at h4
        simp at h4
      | cons k1 ks1 =>
        simp only [List.cons_append, List.cons.injEq] at h
        obtain ⟨rfl, rfl⟩ := h
        cases h1 with
        | cons e1 e2 _ => rw [hv] at e1; cases e1; rw [eb] at e2; simp at e2
    · rw [eb, ht] at hpre
      simp only at hpre ⊢
      by_cases hsame : Dict.keys (dic t1) = ks0
      · rw [ih (by obtain ⟨ks1, rfl⟩ := h0; exact ⟨ks1 ++ [k], by simp⟩) t1 hsame]
        constructor
        · rintro ⟨ks1, k', ks2, t2, v', rfl, h1, h2, h3, h4, h5⟩
          exact ⟨k :: ks1, k', ks2, t2, v', rfl, Turns.cons hv eb h1, h2, h3, h4, h5⟩
        · rintro ⟨ks1, k', ks2, t2, v', h, h1, h2, h3, h4, h5⟩
          cases ks1 with
          | nil =>
            simp only [List.nil_append, List.cons.injEq] at h
            obtain ⟨rfl, rfl⟩ := h
            cases h1
            rw [hv] at h3; cases h3; rw [eb] at h4
            simp only [Prod.mk.injEq, true_and] at h4
            subst h4
            exact absurd hsame h5
          | cons k1 ks1 =>
            simp only [List.cons_append, List.cons.injEq] at h
            obtain ⟨rfl, rfl⟩ := h
            cases h1 with
            | cons e1 e2 h1 =>
              rw [hv] at e1; cases e1; rw [eb] at e2
              simp only [Prod.mk.injEq, true_and] at e2
              subst e2
              exact ⟨ks1, k', ks2, t2, v', rfl, h1, h2, h3, h4, h5⟩
      · rw [forItems_resized (by
          intro hl
          rw [← length_keys_maps] at hl
          exact hsame (hpre.eq_of_length hl.symm).symm)]
        simp only [Prod.mk.injEq, true_and]
        constructor
        · rintro rfl; exact ⟨[], k, ks, t, v, rfl, Turns.nil _, ht, hv, eb, hsame⟩
        · rintro ⟨ks1, k', ks2, t2, v', h, h1, h2, h3, h4, h5⟩
          cases ks1 with
          | nil =>
            simp only [List.nil_append, List.cons.injEq] at h
            obtain ⟨rfl, rfl⟩ := h
            cases h1
            rw [hv] at h3; cases h3; rw [eb] at h4
            simpa using h4
          | cons k1 ks1 =>
            simp only [List.cons_append, List.cons.injEq] at h
            obtain ⟨rfl, rfl⟩ := h
            cases h1 with
            | cons e1 e2 h1 =>
              rw [hv] at e1; cases e1; rw [eb] at e2
              simp only [Prod.mk.injEq, true_and] at e2
              subst e2
              have h6 := Turns.keys hk h1
              rw [h2] at h6
              exact absurd (h6.eq_of_length_le hpre.length_le) hsame

end

theorem prefix_keys_set (d : Dict K V) (k : K) (v : V) : Dict.keys d <+: Dict.keys (Dict.set d k v) := by
  rw [Dict.keys_set]
  split
  · exact List.prefix_rfl
  · exact List.prefix_append _ _

theorem mapLiveBody_keys {f : V → Dict K V × S → Except PyErr V × (Dict K V × S)} (hf : DeletesNothing f) (k : K) (v : V) (w : Dict K V × S) :
    Dict.keys w.1 <+: Dict.keys (mapLiveBody f k v w).2.1 := by
  have := hf v w
  unfold mapLiveBody
  generalize f v w = r at this
  obtain ⟨e0 | x, w1⟩ := r
  · exact this
  · exact this.trans (prefix_keys_set _ _ _)

theorem mapLiveBody_ok {f : V → Dict K V × S → Except PyErr V × (Dict K V × S)} {k : K} {v : V} {w w' : Dict K V × S} :
    mapLiveBody f k v w = (.ok (), w') ↔ ∃ x w1, f v w = (.ok x, w1) ∧ w' = (Dict.set w1.1 k x, w1.2) := by
  unfold mapLiveBody
  rcases f v w with ⟨e0 | x, w1⟩
  · simp
  · simp only [Prod.mk.injEq, true_and, Except.ok.injEq]
    constructor
    · rintro rfl; exact ⟨x, w1, ⟨rfl, rfl⟩, rfl⟩
    · rintro ⟨_, _, ⟨rfl, rfl⟩, rfl⟩; rfl

theorem mapLiveBody_error {f : V → Dict K V × S → Except PyErr V × (Dict K V × S)} {k : K} {v : V} {w w' : Dict K V × S} {e : PyErr} :
    mapLiveBody f k v w = (.error e, w') ↔ f v w = (.error e, w') := by
  unfold mapLiveBody
  rcases f v w with ⟨e0 | x, w1⟩ <;> simp

theorem turns_iff_stored {f : V → Dict K V × S → Except PyErr V × (Dict K V × S)} {ks : List K} {w w' : Dict K V × S} :
    Turns (fun w => w.1) (mapLiveBody f) ks w w' ↔ Stored f ks w w' := by
  constructor
  · suffices h : ∀ (ks' : List K) (w0 : Dict K V × S), Stored f ks' w0 w → Turns (fun w => w.1) (mapLiveBody f) ks w w' → Stored f (ks' ++ ks) w0 w' from
      fun h1 => h [] w (Stored.nil _) h1
    intro ks' w0 h0 h
    induction h generalizing ks' with
    | nil => simpa using h0
    | cons e1 e2 _ ih =>
      obtain ⟨x, w1, h1, rfl⟩ := mapLiveBody_ok.1 e2
      have := ih _ (Stored.snoc h0 e1 h1)
      simpa using this
  · intro h
    induction h with
    | nil => exact Turns.nil _
    | snoc _ e1 e2 ih => exact Turns.snoc ih e1 (mapLiveBody_ok.2 ⟨_, _, e2, rfl⟩)

/-- C145: `map_dict(method, dictionary, in_place=True)` returns exactly when the method can be called for one key after the other, each with the value the key has then,
raising nothing and adding no key; each result takes the place of the value at once. -/
theorem C145_in_place_returns (f : V → Dict K V × S → Except PyErr V × (Dict K V × S)) (hf : DeletesNothing f) (w w' : Dict K V × S) (hw : w.1.WF) :
    mapLive f w = (.done, w') ↔ Stored f (Dict.keys w.1) w w' ∧ Dict.keys w'.1 = Dict.keys w.1 := by
  have := forItems_done (dic := fun w : Dict K V × S => w.1) (mapLiveBody_keys hf) hw (Dict.keys w.1) ⟨[], rfl⟩ w w' rfl
  rw [length_keys_maps] at this
  rw [mapLive, this, turns_iff_stored]

/-- C145: it raises what the method raises, exactly then; the results until then stay in the dictionary, and the method is not called again. -/
theorem C145_in_place_raises (f : V → Dict K V × S → Except PyErr V × (Dict K V × S)) (hf : DeletesNothing f) (w w' : Dict K V × S) (hw : w.1.WF) (e : PyErr) :
    mapLive f w = (.raised e, w') ↔ ∃ ks1 k ks2 w1 v, Dict.keys w.1 = ks1 ++ k :: ks2 ∧ Stored f ks1 w w1 ∧ Dict.keys w1.1 = Dict.keys w.1 ∧
      Dict.get? w1.1 k = some v ∧ f v w1 = (.error e, w') := by
  have := forItems_raised (dic := fun w : Dict K V × S => w.1) (mapLiveBody_keys hf) hw (Dict.keys w.1) ⟨[], rfl⟩ w w' rfl e
  rw [length_keys_maps] at this
  rw [mapLive, this]
  simp only [turns_iff_stored, mapLiveBody_error]

/-- C145: and it raises `RuntimeError` exactly when a call has added a key, right after that call and the storing of its result. -/
theorem C145_in_place_resized (f : V → Dict K V × S → Except PyErr V × (Dict K V × S)) (hf : DeletesNothing f) (w w' : Dict K V × S) (hw : w.1.WF) :
    mapLive f w = (.resized, w') ↔ ∃ ks1 k ks2 w1 v x w2, Dict.keys w.1 = ks1 ++ k :: ks2 ∧ Stored f ks1 w w1 ∧ Dict.keys w1.1 = Dict.keys w.1 ∧
      Dict.get? w1.1 k = some v ∧ f v w1 = (.ok x, w2) ∧ Dict.keys w2.1 ≠ Dict.keys w.1 ∧ w' = (Dict.set w2.1 k x, w2.2) := by
  have := forItems_resized_iff (dic := fun w : Dict K V × S => w.1) (mapLiveBody_keys hf) hw (Dict.keys w.1) ⟨[], rfl⟩ w w' rfl
  rw [length_keys_maps] at this
  rw [mapLive, this]
  simp only [turns_iff_stored, mapLiveBody_ok]
  have hset : ∀ (k : K) (ks1 ks2 : List K) (v : V) (x : V) (w1 w2 : Dict K V × S), Dict.keys w.1 = ks1 ++ k :: ks2 → Dict.keys w1.1 = Dict.keys w.1 →
      f v w1 = (.ok x, w2) → Dict.keys (Dict.set w2.1 k x) = Dict.keys w2.1 := by
    intro k ks1 ks2 v x w1 w2 h1 h2 h3
    rw [Dict.keys_set, if_pos]
    have := hf v w1
    rw [h3, h2, h1] at this
    exact this.subset (by simp)
  constructor
  · rintro ⟨ks1, k, ks2, w1, v, h1, h2, h3, h4, ⟨x, w2, h5, rfl⟩, h6⟩
    refine ⟨ks1, k, ks2, w1, v, x, w2, h1, h2, h3, h4, h5, ?_, rfl⟩
    rw [hset k ks1 ks2 v x w1 w2 h1 h3 h5] at h6
    exact h6
  · rintro ⟨ks1, k, ks2, w1, v, x, w2, h1, h2, h3, h4, h5, h6, rfl⟩
    refine ⟨ks1, k, ks2, w1, v, h1, h2, h3, h4, ⟨x, w2, h5, rfl⟩, ?_⟩
    rw [hset k ks1 ks2 v x w1 w2 h1 h3 h5]
    exact h6

/-! The new dictionary. -/

theorem mapNewBody_keys {f : V → Dict K V × S → Except PyErr W × (Dict K V × S)} (hf : DeletesNothing f) (k : K) (v : V) (t : List (K × W) × (Dict K V × S)) :
    Dict.keys t.2.1 <+: Dict.keys (mapNewBody f k v t).2.2.1 := by
  have := hf v t.2
  unfold mapNewBody
  generalize f v t.2 = r at this
  obtain ⟨e0 | x, w1⟩ := r <;> exact this

theorem mapNewBody_ok {f : V → Dict K V × S → Except PyErr W × (Dict K V × S)} {k : K} {v : V} {t t' : List (K × W) × (Dict K V × S)} :
    mapNewBody f k v t = (.ok (), t') ↔ ∃ x w1, f v t.2 = (.ok x, w1) ∧ t' = (t.1 ++ [(k, x)], w1) := by
  unfold mapNewBody
  rcases f v t.2 with ⟨e0 | x, w1⟩
  · simp
  · simp only [Prod.mk.injEq, true_and, Except.ok.injEq]
    constructor
    · rintro rfl; exact ⟨x, w1, ⟨rfl, rfl⟩, rfl⟩
    · rintro ⟨_, _, ⟨rfl, rfl⟩, rfl⟩; rfl

theorem mapNewBody_error {f : V → Dict K V × S → Except PyErr W × (Dict K V × S)} {k : K} {v : V} {t t' : List (K × W) × (Dict K V × S)} {e : PyErr} :
    mapNewBody f k v t = (.error e, t') ↔ f v t.2 = (.error e, t'.2) ∧ t'.1 = t.1 := by
  unfold mapNewBody
  rcases f v t.2 with ⟨e0 | x, w1⟩
  · obtain ⟨a, b⟩ := t'
    simp only [Prod.mk.injEq, Except.error.injEq]
    constructor
    · rintro ⟨rfl, rfl, rfl⟩; exact ⟨⟨rfl, rfl⟩, rfl⟩
    · rintro ⟨⟨rfl, rfl⟩, rfl⟩; exact ⟨rfl, rfl, rfl⟩
  · simp

theorem turns_iff_gathered {f : V → Dict K V × S → Except PyErr W × (Dict K V × S)} {ks : List K} {w : Dict K V × S} {t' : List (K × W) × (Dict K V × S)} :
    Turns (fun t => t.2.1) (mapNewBody f) ks ([], w) t' ↔ Gathered f ks t'.1 w t'.2 := by
  constructor
  · suffices h : ∀ (ks' : List K) (t : List (K × W) × (Dict K V × S)) (w0 : Dict K V × S), Gathered f ks' t.1 w0 t.2 →
        Turns (fun t => t.2.1) (mapNewBody f) ks t t' → Gathered f (ks' ++ ks) t'.1 w0 t'.2 from fun h1 => h [] ([], w) w (Gathered.nil _) h1
    intro ks' t w0 h0 h
    induction h generalizing ks' with
    | nil => simpa using h0
    | cons e1 e2 _ ih =>
      obtain ⟨x, w1, h1, rfl⟩ := mapNewBody_ok.1 e2
      have := ih _ (Gathered.snoc h0 e1 h1)
      simpa using this
  · intro h
    obtain ⟨items, w'⟩ := t'
    simp only at h
    induction h with
    | nil => exact Turns.nil _
    | snoc _ e1 e2 ih => exact Turns.snoc ih e1 (mapNewBody_ok.2 ⟨_, _, e2, rfl⟩)

theorem gathered_keys {f : V → Dict K V × S → Except PyErr W × (Dict K V × S)} {ks : List K} {items : List (K × W)} {w w' : Dict K V × S} (h : Gathered f ks items w w') :
    items.map Prod.fst = ks := by
  induction h with
  | nil => rfl
  | snoc _ _ _ ih => simp [ih]

/-- C145: `map_dict(method, dictionary)` returns exactly when the method can be called for one key after the other, raising nothing and adding no key; the new
dictionary has the keys in their order, with the results. -/
theorem C145_new_returns (f : V → Dict K V × S → Except PyErr W × (Dict K V × S)) (hf : DeletesNothing f) (w w' : Dict K V × S) (hw : w.1.WF) (d : Dict K W) :
    mapNew f w = (.done, d, w') ↔ Gathered f (Dict.keys w.1) d w w' ∧ Dict.keys w'.1 = Dict.keys w.1 := by
  have hd := fun t' => forItems_done (dic := fun t : List (K × W) × (Dict K V × S) => t.2.1) (mapNewBody_keys hf) hw (Dict.keys w.1) ⟨[], rfl⟩ ([], w) t' rfl
  simp only [length_keys_maps, turns_iff_gathered] at hd
  unfold mapNew
  generalize forItems (fun t : List (K × W) × (Dict K V × S) => t.2.1) (mapNewBody f) w.1.length w.1.length ([], w) = r at hd
  obtain ⟨e, items, w1⟩ := r
  constructor
  · intro h
    simp only [Prod.mk.injEq] at h
    obtain ⟨rfl, h2, rfl⟩ := h
    have h3 := (hd (items, w1)).1 rfl
    rw [Dict.ofList_of_nodup items (by rw [gathered_keys h3.1]; exact hw)] at h2
    subst h2
    exact h3
  · intro h
    have h3 := (hd (d, w')).2 h
    simp only [Prod.mk.injEq] at h3 ⊢
    obtain ⟨rfl, rfl, rfl⟩ := h3
    exact ⟨rfl, Dict.ofList_of_nodup _ (by rw [gathered_keys h.1]; exact hw), rfl⟩

/-- C145: it raises what the method raises, exactly then. -/
theorem C145_new_raises (f : V → Dict K V × S → Except PyErr W × (Dict K V × S)) (hf : DeletesNothing f) (w w' : Dict K V × S) (hw : w.1.WF) (e : PyErr) :
    (∃ d, mapNew f w = (.raised e, d, w')) ↔ ∃ ks1 k ks2 items w1 v, Dict.keys w.1 = ks1 ++ k :: ks2 ∧ Gathered f ks1 items w w1 ∧ Dict.keys w1.1 = Dict.keys w.1 ∧
      Dict.get? w1.1 k = some v ∧ f v w1 = (.error e, w') := by
  have hd := fun t' => forItems_raised (dic := fun t : List (K × W) × (Dict K V × S) => t.2.1) (mapNewBody_keys hf) hw (Dict.keys w.1) ⟨[], rfl⟩ ([], w) t' rfl e
  simp only [length_keys_maps, turns_iff_gathered, mapNewBody_error] at hd
  unfold mapNew
  generalize forItems (fun t : List (K × W) × (Dict K V × S) => t.2.1) (mapNewBody f) w.1.length w.1.length ([], w) = r at hd
  obtain ⟨e', items, w1⟩ := r
  constructor
  · rintro ⟨d, h⟩
    simp only [Prod.mk.injEq] at h
    obtain ⟨rfl, _, rfl⟩ := h
    obtain ⟨ks1, k, ks2, t1, v, h1, h2, h3, h4, h5, _⟩ := (hd (items, w1)).1 rfl
    exact ⟨ks1, k, ks2, t1.1, t1.2, v, h1, h2, h3, h4, h5⟩
  · rintro ⟨ks1, k, ks2, items1, w2, v, h1, h2, h3, h4, h5⟩
    have := (hd (items1, w')).2 ⟨ks1, k, ks2, (items1, w2), v, h1, h2, h3, h4, h5, rfl⟩
    simp only [Prod.mk.injEq] at this
    obtain ⟨rfl, rfl, rfl⟩ := this
    exact ⟨_, rfl⟩

/-- C145: and it raises `RuntimeError` exactly when a call has added a key, right after that call. -/
theorem C145_new_resized (f : V → Dict K V × S → Except PyErr W × (Dict K V × S)) (hf : DeletesNothing f) (w w' : Dict K V × S) (hw : w.1.WF) :
    (∃ d, mapNew f w = (.resized, d, w')) ↔ ∃ ks1 k ks2 items w1 v x, Dict.keys w.1 = ks1 ++ k :: ks2 ∧ Gathered f ks1 items w w1 ∧ Dict.keys w1.1 = Dict.keys w.1 ∧
      Dict.get? w1.1 k = some v ∧ f v w1 = (.ok x, w') ∧ Dict.keys w'.1 ≠ Dict.keys w.1 := by
  have hd := fun t' => forItems_resized_iff (dic := fun t : List (K × W) × (Dict K V × S) => t.2.1) (mapNewBody_keys hf) hw (Dict.keys w.1) ⟨[], rfl⟩ ([], w) t' rfl
  simp only [length_keys_maps, turns_iff_gathered, mapNewBody_ok] at hd
  unfold mapNew
  generalize forItems (fun t : List (K × W) × (Dict K V × S) => t.2.1) (mapNewBody f) w.1.length w.1.length ([], w) = r at hd
  obtain ⟨e', items, w1⟩ := r
  constructor
  · rintro ⟨d, h⟩
    simp only [Prod.mk.injEq] at h
    obtain ⟨rfl, _, rfl⟩ := h
    obtain ⟨ks1, k, ks2, t1, v, h1, h2, h3, h4, ⟨x, w2, h5, h6⟩, h7⟩ := (hd (items, w1)).1 rfl
    simp only [Prod.mk.injEq] at h6
    obtain ⟨_, rfl⟩ := h6
    exact ⟨ks1, k, ks2, t1.1, t1.2, v, x, h1, h2, h3, h4, h5, h7⟩
  · rintro ⟨ks1, k, ks2, items1, w2, v, x, h1, h2, h3, h4, h5, h6⟩
    have := (hd (items1 ++ [(k, x)], w')).2 ⟨ks1, k, ks2, (items1, w2), v, h1, h2, h3, h4, ⟨x, w', h5, rfl⟩, h6⟩
    simp only [Prod.mk.injEq] at this
    obtain ⟨rfl, rfl, rfl⟩ := this
    exact ⟨_, rfl⟩

theorem maps_set_mid {pre post : List (K × V)} {k : K} (v x : V) (h : k ∉ pre.map Prod.fst) : Dict.set (pre ++ (k, v) :: post) k x = pre ++ (k, x) :: post := by
  induction pre with
  | nil => simp [Dict.set]
  | cons kv pre ih =>
    obtain ⟨k', v'⟩ := kv
    simp only [List.map_cons, List.mem_cons, not_or] at h
    simp only [List.cons_append, Dict.set, if_neg (Ne.symm h.1)]
    rw [ih h.2]

/-- C145: a method that does not use the dictionary is called in both ways with the same values in the same states, and the outcome is the same; in place, the old
dictionary then has the items which otherwise the new one has. -/
theorem C145_agree (g : V → S → Except PyErr V × S) (d : Dict K V) (hd : d.WF) (s : S) :
    (mapLive (fun v w => ((g v w.2).1, (w.1, (g v w.2).2))) (d, s)).1 = (mapNew (fun v w => ((g v w.2).1, (w.1, (g v w.2).2))) (d, s)).1 ∧
    (mapLive (fun v w => ((g v w.2).1, (w.1, (g v w.2).2))) (d, s)).2.2 = (mapNew (fun v w => ((g v w.2).1, (w.1, (g v w.2).2))) (d, s)).2.2.2 ∧
    (mapNew (fun v w => ((g v w.2).1, (w.1, (g v w.2).2))) (d, s)).2.2.1 = d ∧
    ((mapLive (fun v w => ((g v w.2).1, (w.1, (g v w.2).2))) (d, s)).1 = .done →
      (mapLive (fun v w => ((g v w.2).1, (w.1, (g v w.2).2))) (d, s)).2.1 = (mapNew (fun v w => ((g v w.2).1, (w.1, (g v w.2).2))) (d, s)).2.1) := by
  have key : ∀ (rest pre items : List (K × V)) (s : S), d = pre ++ rest → items.map Prod.fst = pre.map Prod.fst →
      (forItems (fun w : Dict K V × S => w.1) (mapLiveBody (fun v w => ((g v w.2).1, (w.1, (g v w.2).2)))) d.length rest.length (items ++ rest, s)).1 =
        (forItems (fun t : List (K × V) × (Dict K V × S) => t.2.1) (mapNewBody (fun v w => ((g v w.2).1, (w.1, (g v w.2).2)))) d.length rest.length (items, (d, s))).1 ∧
      (forItems (fun w : Dict K V × S => w.1) (mapLiveBody (fun v w => ((g v w.2).1, (w.1, (g v w.2).2)))) d.length rest.length (items ++ rest, s)).2.2 =
        (forItems (fun t : List (K × V) × (Dict K V × S) => t.2.1) (mapNewBody (fun v w => ((g v w.2).1, (w.1, (g v w.2).2)))) d.length rest.length (items, (d, s))).2.2.2 ∧
      (forItems (fun t : List (K × V) × (Dict K V × S) => t.2.1) (mapNewBody (fun v w => ((g v w.2).1, (w.1, (g v w.2).2)))) d.length rest.length (items, (d, s))).2.2.1 = d ∧
      ((forItems (fun w : Dict K V × S => w.1) (mapLiveBody (fun v w => ((g v w.2).1, (w.1, (g v w.2).2)))) d.length rest.length (items ++ rest, s)).1 = .done →
        (forItems (fun w : Dict K V × S => w.1) (mapLiveBody (fun v w => ((g v w.2).1, (w.1, (g v w.2).2)))) d.length rest.length (items ++ rest, s)).2.1 =
        Dict.ofList (forItems (fun t : List (K × V) × (Dict K V × S) => t.2.1) (mapNewBody (fun v w => ((g v w.2).1, (w.1, (g v w.2).2)))) d.length rest.length (items, (d, s))).2.1) := by
    intro rest
    induction rest with
    | nil =>
      intro pre items s h1 h2
      have hlen : items.length = pre.length := by simpa using congrArg List.length h2
      have h3 : items.length = d.length := by rw [h1]; simpa using hlen
      simp only [List.length_nil, forItems, h3, if_true, List.append_nil, forall_const, true_and]
      refine (Dict.ofList_of_nodup items ?_).symm
      rw [h2]
      have : d.map Prod.fst = pre.map Prod.fst := by rw [h1]; simp
      rw [← this]; exact hd
    | cons kv rest ih =>
      intro pre items s h1 h2
      obtain ⟨k, v⟩ := kv
      have hlen : items.length = pre.length := by simpa using congrArg List.length h2
      have h3 : (items ++ (k, v) :: rest).length = d.length := by rw [h1]; simp [hlen]
      have h4 : d.length - (rest.length + 1) = pre.length := by rw [h1]; simp
      have h5 : (items ++ (k, v) :: rest)[pre.length]? = some (k, v) := by rw [← hlen]; simp
      have h6 : d[pre.length]? = some (k, v) := by rw [h1]; simp
      simp only [List.length_cons, forItems, h3, if_true, h4, h5, h6, mapLiveBody, mapNewBody]
      rcases eg : g v s with ⟨e0 | x, s1⟩
      · simp only [true_and, reduceCtorEq, false_implies]
      · simp only
        have hk : k ∉ items.map Prod.fst := by
          rw [h2]
          have := hd
          unfold Dict.WF Dict.keys at this
          rw [h1, List.map_append, List.map_cons] at this
          intro hmem
          exact (List.nodup_append.1 this).2.2 k hmem k (by simp) rfl
        rw [maps_set_mid v x hk]
        have := ih (pre ++ [(k, v)]) (items ++ [(k, x)]) s1 (by rw [h1]; simp) (by simp [h2])
        simpa using this
  have := key d [] [] s rfl rfl
  simpa [mapLive, mapNew] using this

end

/-! ### Examples -/

/-- A method that counts its calls in the state and fails at the value 3. -/
def halveCounting (a : Nat) (n : Nat) : Except PyErr Nat × Nat := if a = 3 then (.error .valueError, n + 1) else (.ok (a / 2), n + 1)

/-- The truth of a number. -/
def numTruth (b : Nat) (n : Nat) : Except PyErr Bool × Nat := (.ok (b != 0), n)

example : partialMapIn numTruth halveCounting [4, 1, 6] [] [] 0 = (.ok ([2, 3], [1]), 3) := by decide
example : partialMapIn numTruth halveCounting [4, 3, 6] [] [] 0 = (.error .valueError, 2) := by decide
example : filteredMapIn numTruth halveCounting [4, 1, 6] [] 0 = (.ok [2, 3], 3) := by decide

/-- A method that adds a key to the dictionary at the value 7, and otherwise counts. -/
def addingAt7 (v : Nat) (w : Dict Nat Nat × Nat) : Except PyErr Nat × (Dict Nat Nat × Nat) :=
  if v = 7 then (.ok 0, (Dict.set w.1 100 1, w.2)) else (.ok (v + w.2), (w.1, w.2 + 1))

example : Spec.DeletesNothing addingAt7 := by
  intro v w
  unfold addingAt7
  split
  · exact prefix_keys_set _ _ _
  · exact List.prefix_rfl
example : mapLive addingAt7 ([(1, 5), (2, 6)], 10) = (.done, ([(1, 15), (2, 17)], 12)) := by decide
example : mapLive addingAt7 ([(1, 5), (2, 7)], 10) = (.resized, ([(1, 15), (2, 0), (100, 1)], 11)) := by decide
example : mapNew addingAt7 ([(1, 5), (2, 6)], 10) = (.done, [(1, 15), (2, 17)], ([(1, 5), (2, 6)], 12)) := by decide
example : (mapNew addingAt7 ([(1, 7), (2, 6)], 10)).1 = .resized := by decide

end Cjk
