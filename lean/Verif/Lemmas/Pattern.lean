import Verif.Py.Pattern
/-!
# Pattern texts and expressions

`Pat.toRe` turns the syntax tree of a pattern into an expression of `Py.Re`; both have the same matches in the same order.
Group numbers become names by a map `nm`; groups without a name are forgotten.
-/

namespace Py

/-- The captures of the named groups. -/
def named (nm : Nat → Option Str) (c : GCaps) : Caps := c.filterMap (fun kv => (nm kv.1).map (fun n => (n, kv.2)))

/-- No two groups have the same name. -/
def NmInj (nm : Nat → Option Str) : Prop := ∀ i j n, nm i = some n → nm j = some n → i = j

theorem named_set_some {nm : Nat → Option Str} (hnm : NmInj nm) (c : GCaps) (i : Nat) (n v : Str) (h : nm i = some n) :
    named nm (Dict.set c i v) = Dict.set (named nm c) n v := by
  induction c with
  | nil => simp [named, Dict.set, h]
  | cons kv c ih =>
    obtain ⟨k, w⟩ := kv
    simp only [named, Dict.set] at *
    by_cases hk : k = i
    · subst hk; simp [h, Dict.set]
    · have : ∀ m, nm k = some m → m ≠ n := by
        intro m hm hmn; subst hmn; exact hk (hnm _ _ _ hm h)
      cases hm : nm k with
      | none => simp [hk, hm, ih]
      | some m => simp [hk, hm, ih, this m hm, Dict.set]

theorem named_set_none {nm : Nat → Option Str} (c : GCaps) (i : Nat) (v : Str) (h : nm i = none) :
    named nm (Dict.set c i v) = named nm c := by
  induction c with
  | nil => simp [named, Dict.set, h]
  | cons kv c ih =>
    obtain ⟨k, w⟩ := kv
    simp only [named, Dict.set] at *
    by_cases hk : k = i
    · subst hk; simp [h]
    · cases hm : nm k <;> simp [hk, hm, ih]

theorem get?_named {nm : Nat → Option Str} (hnm : NmInj nm) (c : GCaps) (i : Nat) (n : Str) (h : nm i = some n) :
    Dict.get? (named nm c) n = Dict.get? c i := by
  induction c with
  | nil => rfl
  | cons kv c ih =>
    obtain ⟨k, w⟩ := kv
    simp only [named] at *
    by_cases hk : k = i
    · subst hk; simp [h, Dict.get?]
    · have : ∀ m, nm k = some m → m ≠ n := by
        intro m hm hmn; subst hmn; exact hk (hnm _ _ _ hm h)
      cases hm : nm k with
      | none => simpa [hm, Dict.get?, hk] using ih
      | some m => simpa [hm, Dict.get?, hk, this m hm] using ih

/-- The expression of a syntax tree; none if it uses something that `Re` does not have. -/
def Pat.toRe (nm : Nat → Option Str) : Pat → Option Re
  | .eps => some .eps
  | .chr k => some (.chr k.has)
  | .cat a b => match a.toRe nm, b.toRe nm with
    | some x, some y => some (.seq x y)
    | _, _ => none
  | .alt a b => match a.toRe nm, b.toRe nm with
    | some x, some y => some (.alt x y)
    | _, _ => none
  | .star true (.chr k) => some (.many k.has)
  | .star false (.chr k) => some (.few k.has)
  | .plus true (.chr k) => some (Re.plus k.has)
  | .opt true a => (a.toRe nm).map (fun x => .alt x .eps)
  | .group i a => match nm i with
    | some n => (a.toRe nm).map (.group n)
    | none => a.toRe nm
  | .eol => some .eol
  | _ => none

/-- What `Re.run` shows of a state. -/
def MState.view (nm : Nat → Option Str) (m : MState) : Str × Caps := (m.rest, named nm m.caps)

theorem run_pat_chr_cons (k : Cls) (p : Option Nat) (x : Nat) (s : Str) (c : GCaps) :
    Pat.run (.chr k) ⟨p, x :: s, c⟩ = if k.has x then [⟨some x, s, c⟩] else [] := rfl

theorem reps_chr_greedy (nm : Nat → Option Str) (k : Cls) (n : Nat) (m : MState) (h : m.rest.length ≤ n) :
    (repsOf (Pat.run (.chr k)) true n m).map (MState.view nm) = (manySplits k.has m.rest).map (fun t => (t, named nm m.caps)) := by
  induction n generalizing m with
  | zero =>
    obtain ⟨p, s, c⟩ := m
    have : s = [] := List.length_eq_zero_iff.1 (Nat.le_zero.1 h)
    subst this
    rfl
  | succ n ih =>
    obtain ⟨p, s, c⟩ := m
    cases s with
    | nil => rfl
    | cons x s =>
      simp only [repsOf, run_pat_chr_cons, manySplits, if_true, List.map_append]
      cases hx : k.has x with
      | false => simp [MState.view]
      | true =>
        simp only [if_true, List.flatMap_cons, List.flatMap_nil, List.append_nil, List.length_cons, Nat.lt_succ_self]
        rw [ih ⟨some x, s, c⟩ (by simpa using h)]
        simp [MState.view]

theorem reps_chr_lazy (nm : Nat → Option Str) (k : Cls) (n : Nat) (m : MState) (h : m.rest.length ≤ n) :
    (repsOf (Pat.run (.chr k)) false n m).map (MState.view nm) = (fewSplits k.has m.rest).map (fun t => (t, named nm m.caps)) := by
  induction n generalizing m with
  | zero =>
    obtain ⟨p, s, c⟩ := m
    have : s = [] := List.length_eq_zero_iff.1 (Nat.le_zero.1 h)
    subst this
    rfl
  | succ n ih =>
    obtain ⟨p, s, c⟩ := m
    cases s with
    | nil => rfl
    | cons x s =>
      simp only [repsOf, run_pat_chr_cons, fewSplits, Bool.false_eq_true, if_false, List.map_cons]
      cases hx : k.has x with
      | false => simp [MState.view]
      | true =>
        simp only [if_true, List.flatMap_cons, List.flatMap_nil, List.append_nil, List.length_cons, Nat.lt_succ_self]
        rw [ih ⟨some x, s, c⟩ (by simpa using h)]
        simp [MState.view]

theorem flatMap_view {nm : Nat → Option Str} {b : Pat} {y : Re}
    (hb : ∀ m, (b.run m).map (MState.view nm) = y.run m.rest (named nm m.caps)) (l : List MState) :
    (l.flatMap b.run).map (MState.view nm) = (l.map (MState.view nm)).flatMap (fun r => y.run r.1 r.2) := by
  induction l with
  | nil => rfl
  | cons m l ih => simp [hb m, ih, MState.view]

/-- The tree and its expression have the same matches, in the same order. -/
theorem toRe_run {nm : Nat → Option Str} (hnm : NmInj nm) (p : Pat) (r : Re) (h : p.toRe nm = some r) (m : MState) :
    (p.run m).map (MState.view nm) = r.run m.rest (named nm m.caps) := by
  induction p generalizing r m with
  | eps => simp only [Pat.toRe, Option.some.injEq] at h; subst h; rfl
  | chr k =>
    simp only [Pat.toRe, Option.some.injEq] at h; subst h
    obtain ⟨q, s, c⟩ := m
    cases s with
    | nil => rfl
    | cons x s => simp only [Pat.run, Re.run]; cases k.has x <;> simp [MState.view]
  | cat a b iha ihb =>
    simp only [Pat.toRe] at h
    cases ha : a.toRe nm with
    | none => rw [ha] at h; simp at h
    | some x =>
      cases hb : b.toRe nm with
      | none => rw [ha, hb] at h; simp at h
      | some y =>
        rw [ha, hb] at h
        simp only [Option.some.injEq] at h; subst h
        simp only [Pat.run, Re.run]
        rw [flatMap_view (fun m => ihb y hb m), iha x ha m]
  | alt a b iha ihb =>
    simp only [Pat.toRe] at h
    cases ha : a.toRe nm with
    | none => rw [ha] at h; simp at h
    | some x =>
      cases hb : b.toRe nm with
      | none => rw [ha, hb] at h; simp at h
      | some y =>
        rw [ha, hb] at h
        simp only [Option.some.injEq] at h; subst h
        simp only [Pat.run, Re.run, List.map_append, iha x ha m, ihb y hb m]
  | star g a _ =>
    cases a with
    | chr k =>
      cases g with
      | true => simp only [Pat.toRe, Option.some.injEq] at h; subst h; exact reps_chr_greedy nm k _ m (Nat.le_refl _)
      | false => simp only [Pat.toRe, Option.some.injEq] at h; subst h; exact reps_chr_lazy nm k _ m (Nat.le_refl _)
    | _ => cases g <;> simp [Pat.toRe] at h
  | plus g a _ =>
    cases a with
    | chr k =>
      cases g with
      | true =>
        simp only [Pat.toRe, Option.some.injEq] at h; subst h
        obtain ⟨q, s, c⟩ := m
        cases s with
        | nil => rfl
        | cons x s =>
          simp only [Pat.run, Re.plus, Re.run]
          cases hx : k.has x with
          | false => simp
          | true =>
            simp only [if_true, List.flatMap_cons, List.flatMap_nil, List.append_nil]
            exact reps_chr_greedy nm k _ ⟨some x, s, c⟩ (Nat.le_refl _)
      | false => simp [Pat.toRe] at h
    | _ => cases g <;> simp [Pat.toRe] at h
  | opt g a ih =>
    cases g with
    | false => simp [Pat.toRe] at h
    | true =>
      simp only [Pat.toRe, Option.map_eq_some_iff] at h
      obtain ⟨x, hx, rfl⟩ := h
      simp only [Pat.run, Re.run, if_true, List.map_append, ih x hx m]
      simp [MState.view]
  | group i a ih =>
    simp only [Pat.toRe] at h
    cases hn : nm i with
    | none =>
      rw [hn] at h
      rw [← ih r h m]
      simp only [Pat.run, List.map_map]
      apply List.map_congr_left
      intro m' _
      simp [MState.view, named_set_none _ _ _ hn]
    | some n =>
      rw [hn] at h
      simp only [Option.map_eq_some_iff] at h
      obtain ⟨x, hx, rfl⟩ := h
      simp only [Pat.run, Re.run, List.map_map, ← ih x hx m]
      apply List.map_congr_left
      intro m' _
      simp [MState.view, named_set_some hnm _ _ _ _ hn]
  | bol => simp [Pat.toRe] at h
  | eol =>
    simp only [Pat.toRe, Option.some.injEq] at h; subst h
    simp only [Pat.run, Re.run]
    split <;> simp [MState.view]
  | behind k => simp [Pat.toRe] at h

/-- Two expressions with the same matches. -/
def Re.Same (a b : Re) : Prop := ∀ s c, a.run s c = b.run s c

theorem Re.Same.first {a b : Re} (h : Re.Same a b) : a.first = b.first := by
  funext s c; simp [Re.first, h s c]

theorem Re.Same.pyMatch {a b : Re} (h : Re.Same a b) (s : Str) : a.pyMatch s = b.pyMatch s := by
  simp [Re.pyMatch, h.first]

theorem Re.Same.finditer {a b : Re} (h : Re.Same a b) (s : Str) : a.finditer s = b.finditer s := by
  have : ∀ n s, a.finditerAux n s = b.finditerAux n s := by
    intro n
    induction n with
    | zero => intro s; rfl
    | succ n ih =>
      intro s
      have hm : a.firstMore s = b.firstMore s := by unfold Re.firstMore; rw [h s []]
      simp only [Re.finditerAux, h.first, hm, ih]
  exact this _ _

theorem Re.Same.symm {a b : Re} (h : Re.Same a b) : Re.Same b a := fun s c => (h s c).symm

theorem Re.Same.trans {a b c : Re} (h : Re.Same a b) (h2 : Re.Same b c) : Re.Same a c := fun s k => (h s k).trans (h2 s k)

/-- Sequences bracketed to the right, without empty parts, in front of `k`. -/
def Re.norm : Re → Re → Re
  | .eps, k => k
  | .seq a b, k => a.norm (b.norm k)
  | .alt a b, k => .seq (.alt (a.norm .eps) (b.norm .eps)) k
  | .group n a, k => .seq (.group n (a.norm .eps)) k
  | .chr p, k => .seq (.chr p) k
  | .many p, k => .seq (.many p) k
  | .few p, k => .seq (.few p) k
  | .eol, k => .seq .eol k

theorem Re.norm_run (r k : Re) : Re.Same (r.norm k) (.seq r k) := by
  induction r generalizing k with
  | eps => intro s c; simp [Re.norm, Re.run]
  | seq a b iha ihb =>
    intro s c
    rw [Re.norm, iha]
    simp only [Re.run, List.flatMap_assoc]
    congr 1; funext r
    exact ihb k r.1 r.2
  | alt a b iha ihb =>
    intro s c
    have ha := iha .eps s c
    have hb := ihb .eps s c
    simp only [Re.run, List.flatMap_singleton'] at ha hb
    simp only [Re.norm, Re.run, ha, hb]
  | group n a ih =>
    intro s c
    have ha := ih .eps s c
    simp only [Re.run, List.flatMap_singleton'] at ha
    simp only [Re.norm, Re.run, ha]
  | chr p => intro s c; rfl
  | many p => intro s c; rfl
  | few p => intro s c; rfl
  | eol => intro s c; rfl

/-- Expressions with the same normal form have the same matches. -/
theorem Re.same_of_norm {a b : Re} (h : a.norm .eps = b.norm .eps) : Re.Same a b := by
  intro s c
  have ha := Re.norm_run a .eps s c
  have hb := Re.norm_run b .eps s c
  rw [h, hb] at ha
  simpa [Re.run] using ha.symm

/-! ### Matching and searching -/

/-- `pattern.match` of a tree is that of its expression. -/
theorem compiled_pyMatch {nm : Nat → Option Str} (hnm : NmInj nm) (p : Pat) (names : Dict Str Nat) (r : Re)
    (h : p.toRe nm = some r) (s : Str) :
    ((⟨p, names⟩ : Compiled).pyMatch s).map (fun m => named nm m.caps) = r.pyMatch s := by
  have := congrArg List.head? (toRe_run hnm p r h ⟨none, s, []⟩)
  simp only [List.head?_map] at this
  simp only [Compiled.pyMatch, Compiled.matchAt, Re.pyMatch, Re.first, Option.map_map]
  change _ = ((r.run s (named nm [])).head?).map Prod.snd
  rw [← this, Option.map_map]
  rfl

/-- The same for a pattern that begins with `^`. -/
theorem compiled_pyMatch_bol {nm : Nat → Option Str} (hnm : NmInj nm) (p : Pat) (names : Dict Str Nat) (r : Re)
    (h : p.toRe nm = some r) (s : Str) :
    ((⟨.cat .bol p, names⟩ : Compiled).pyMatch s).map (fun m => named nm m.caps) = r.pyMatch s := by
  rw [← compiled_pyMatch hnm p names r h s]
  simp [Compiled.pyMatch, Compiled.matchAt, Pat.run]

/-- `pattern.finditer` of a tree is that of its expression. -/
theorem compiled_finditer {nm : Nat → Option Str} (hnm : NmInj nm) (p : Pat) (names : Dict Str Nat) (r : Re)
    (h : p.toRe nm = some r) (s : Str) :
    ((⟨p, names⟩ : Compiled).finditer s).map (fun m => (m.text, named nm m.caps)) = r.finditer s := by
  have key : ∀ n i prev s, ((⟨p, names⟩ : Compiled).finditerAux n i prev s).map (fun m => (m.text, named nm m.caps)) =
      r.finditerAux n s := by
    intro n
    induction n with
    | zero => intro i prev s; rfl
    | succ n ih =>
      intro i prev s
      have hm := congrArg List.head? (toRe_run hnm p r h ⟨prev, s, []⟩)
      simp only [List.head?_map] at hm
      have hf : r.first s [] = (p.run ⟨prev, s, []⟩).head?.map (MState.view nm) := by rw [hm]; rfl
      simp only [Compiled.finditerAux, Re.finditerAux, Compiled.matchAt, hf]
      cases hr : (p.run ⟨prev, s, []⟩).head? with
      | none =>
        simp only [Option.map_none]
        cases s with
        | nil => rfl
        | cons x s => exact ih _ _ _
      | some st =>
        simp only [Option.map_some, MState.view]
        split
        · simp only [List.map_cons, ih]
        · have hlen : s.length - st.rest.length = 0 := by omega
          have hmore : r.firstMore s = ((p.run ⟨prev, s, []⟩).find? (fun m => m.rest.length < s.length)).map (MState.view nm) := by
            unfold Re.firstMore
            have := toRe_run hnm p r h ⟨prev, s, []⟩
            change _ = r.run s [] at this
            rw [← this, List.find?_map]
            rfl
          simp only [Compiled.matchMore, hmore, hlen, List.take_zero]
          cases (p.run ⟨prev, s, []⟩).find? (fun m => m.rest.length < s.length) with
          | some st' => simp only [Option.map_some, MState.view, List.map_cons, ih]
          | none =>
            cases s with
            | nil => simp
            | cons x s => simp only [Option.map_none, List.map_cons, ih]
  exact key _ _ _ _

end Py
