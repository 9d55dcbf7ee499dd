import Verif.Py.Dict
/-!
# Regular expressions

A backtracking matcher for the fragment of Python's `re` that cjktools uses.  `Re.run` lists *all*
ways to match, in the order in which the backtracking engine tries them; the match that Python
reports is the first one.  Repetition is needed for single-character classes only (`[..]*`, `[..]*?`),
so every run ends.
-/

namespace Py

/-- A regular expression. -/
inductive Re where
  /-- the empty expression -/
  | eps
  /-- one character of a class -/
  | chr (p : Nat → Bool)
  /-- concatenation -/
  | seq (a b : Re)
  /-- `a|b` -/
  | alt (a b : Re)
  /-- greedy repetition of a class, `[..]*` -/
  | many (p : Nat → Bool)
  /-- lazy repetition of a class, `[..]*?` -/
  | few (p : Nat → Bool)
  /-- `(?P<name>a)`; unnamed groups get a name too -/
  | group (name : Str) (a : Re)
  /-- `$` (without MULTILINE): at the end or before a final newline -/
  | eol

/-- Captured groups. -/
abbrev Caps := Dict Str Str

/-- What can remain after greedily repeating a class: longest repetition first. -/
def manySplits (p : Nat → Bool) : Str → List Str
  | [] => [[]]
  | c :: s => if p c then manySplits p s ++ [c :: s] else [c :: s]

/-- What can remain after lazily repeating a class: shortest repetition first. -/
def fewSplits (p : Nat → Bool) : Str → List Str
  | [] => [[]]
  | c :: s => (c :: s) :: (if p c then fewSplits p s else [])

/-- All matches at the beginning of `s`, in the order of the backtracking engine: remaining input and
captures. -/
def Re.run : Re → Str → Caps → List (Str × Caps)
  | .eps, s, c => [(s, c)]
  | .chr p, s, c =>
    match s with
    | [] => []
    | x :: t => if p x then [(t, c)] else []
  | .seq a b, s, c => (a.run s c).flatMap (fun r => b.run r.1 r.2)
  | .alt a b, s, c => a.run s c ++ b.run s c
  | .many p, s, c => (manySplits p s).map (fun t => (t, c))
  | .few p, s, c => (fewSplits p s).map (fun t => (t, c))
  | .group n a, s, c => (a.run s c).map (fun r => (r.1, r.2.set n (s.take (s.length - r.1.length))))
  | .eol, s, c => if s = [] ∨ s = [0x0a] then [(s, c)] else []

/-- A literal string. -/
def Re.lit : Str → Re
  | [] => .eps
  | c :: s => .seq (.chr (fun x => x == c)) (Re.lit s)

/-- `[..]+` -/
def Re.plus (p : Nat → Bool) : Re := .seq (.chr p) (.many p)

/-- `a?` (greedy) -/
def Re.opt (a : Re) : Re := .alt a .eps

/-- `.` -/
def Re.dot : Nat → Bool := fun c => c != 0x0a

/-- Concatenation of several expressions. -/
def Re.cat : List Re → Re
  | [] => .eps
  | [a] => a
  | a :: as => .seq a (Re.cat as)

/-- The match Python finds at the beginning of `s` (`re.match`), with the remaining input. -/
def Re.first (r : Re) (s : Str) (c : Caps) : Option (Str × Caps) := (r.run s c).head?

/-- `pattern.match(s)` -/
def Re.pyMatch (r : Re) (s : Str) : Option Caps := (r.first s []).map Prod.snd

/-- The first match that is not empty. -/
def Re.firstMore (r : Re) (s : Str) : Option (Str × Caps) := (r.run s []).find? (fun x => x.1.length < s.length)

/-- Worker of `finditer`; the first argument bounds the number of steps. -/
def Re.finditerAux (r : Re) : Nat → Str → List (Str × Caps)
  | 0, _ => []
  | fuel + 1, s =>
    match r.first s [] with
    | some (t, c) =>
      if t.length < s.length then (s.take (s.length - t.length), c) :: r.finditerAux fuel t
      else
        -- an empty match: reported, then one that is not empty is looked for, first at the same place
        ([], c) :: (match r.firstMore s with
          | some (t', c') => (s.take (s.length - t'.length), c') :: r.finditerAux fuel t'
          | none =>
            match s with
            | [] => []
            | _ :: s' => r.finditerAux fuel s')
    | none =>
      match s with
      | [] => []
      | _ :: s' => r.finditerAux fuel s'

/-- `pattern.finditer(s)`: the matched texts with their captures, leftmost first, not overlapping.  After an empty match the next
match may begin at the same place if it is not empty (since Python 3.7). -/
def Re.finditer (r : Re) (s : Str) : List (Str × Caps) := r.finditerAux (s.length + 1) s

/-! ### Facts -/

namespace Re

@[simp] theorem run_eps (s : Str) (c : Caps) : run .eps s c = [(s, c)] := rfl

theorem first_eps (s : Str) (c : Caps) : first .eps s c = some (s, c) := rfl

theorem first_eq_none {r : Re} {s : Str} {c : Caps} : r.first s c = none ↔ r.run s c = [] := by
  unfold first; rw [List.head?_eq_none_iff]

theorem first_seq {a b : Re} {s : Str} {c : Caps} {s1 : Str} {c1 : Caps} {x : Str × Caps}
    (ha : a.first s c = some (s1, c1)) (hb : b.first s1 c1 = some x) : (Re.seq a b).first s c = some x := by
  unfold first at *
  simp only [run]
  cases h : a.run s c with
  | nil => rw [h] at ha; cases ha
  | cons y ys =>
    rw [h] at ha
    simp only [List.head?_cons, Option.some.injEq] at ha
    subst ha
    simp only [List.flatMap_cons]
    cases h2 : b.run s1 c1 with
    | nil => rw [h2] at hb; cases hb
    | cons z zs => rw [h2] at hb; simpa using hb

theorem run_seq_nil_left {a b : Re} {s : Str} {c : Caps} (h : a.run s c = []) : (Re.seq a b).run s c = [] := by
  simp [run, h]

theorem first_alt_left {a b : Re} {s : Str} {c : Caps} {x : Str × Caps} (h : a.first s c = some x) :
    (Re.alt a b).first s c = some x := by
  unfold first at *
  simp only [run]
  cases h2 : a.run s c with
  | nil => rw [h2] at h; cases h
  | cons y ys => rw [h2] at h; simpa using h

theorem first_alt_right {a b : Re} {s : Str} {c : Caps} (h : a.run s c = []) :
    (Re.alt a b).first s c = b.first s c := by
  unfold first; simp [run, h]

theorem first_group {n : Str} {a : Re} {s t : Str} {c c' : Caps} (h : a.first s c = some (t, c')) :
    (Re.group n a).first s c = some (t, c'.set n (s.take (s.length - t.length))) := by
  unfold first at *
  simp only [run, List.head?_map, h, Option.map_some]

theorem first_group' {n : Str} {a : Re} {u t : Str} {c c' : Caps} (h : a.first (u ++ t) c = some (t, c')) :
    (Re.group n a).first (u ++ t) c = some (t, c'.set n u) := by
  rw [first_group h]; simp

theorem first_chr {p : Nat → Bool} {x : Nat} {t : Str} {c : Caps} (h : p x = true) :
    (Re.chr p).first (x :: t) c = some (t, c) := by
  simp [first, run, h]

theorem run_chr_false {p : Nat → Bool} {x : Nat} {t : Str} {c : Caps} (h : p x = false) :
    (Re.chr p).run (x :: t) c = [] := by
  simp [run, h]

@[simp] theorem run_chr_nil {p : Nat → Bool} {c : Caps} : (Re.chr p).run [] c = [] := rfl

theorem manySplits_head {p : Nat → Bool} (u t : Str) (hu : ∀ x ∈ u, p x = true) (ht : ∀ x, t.head? = some x → p x = false) :
    (manySplits p (u ++ t)).head? = some t := by
  induction u with
  | nil =>
    cases t with
    | nil => rfl
    | cons x t => simp [manySplits, ht x rfl]
  | cons x u ih =>
    have := ih (fun y hy => hu y (by simp [hy]))
    simp only [List.cons_append, manySplits, hu x (by simp), if_true, List.head?_append, this, Option.some_or]

theorem first_many {p : Nat → Bool} (u t : Str) (c : Caps) (hu : ∀ x ∈ u, p x = true)
    (ht : ∀ x, t.head? = some x → p x = false) : (Re.many p).first (u ++ t) c = some (t, c) := by
  unfold first
  simp only [run, List.head?_map, manySplits_head u t hu ht, Option.map_some]

theorem first_plus {p : Nat → Bool} (u t : Str) (c : Caps) (hne : u ≠ []) (hu : ∀ x ∈ u, p x = true)
    (ht : ∀ x, t.head? = some x → p x = false) : (Re.plus p).first (u ++ t) c = some (t, c) := by
  cases u with
  | nil => exact absurd rfl hne
  | cons x u =>
    exact first_seq (first_chr (hu x (by simp))) (first_many u t c (fun y hy => hu y (by simp [hy])) ht)

theorem fewSplits_mem {p : Nat → Bool} (s t : Str) :
    t ∈ fewSplits p s ↔ ∃ u, s = u ++ t ∧ ∀ x ∈ u, p x = true := by
  induction s with
  | nil =>
    simp only [fewSplits, List.mem_singleton]
    constructor
    · rintro rfl; exact ⟨[], rfl, by simp⟩
    · rintro ⟨u, h, _⟩; exact (List.append_eq_nil_iff.1 h.symm).2
  | cons c s ih =>
    simp only [fewSplits, List.mem_cons]
    constructor
    · rintro (rfl | h)
      · exact ⟨[], rfl, by simp⟩
      · cases hc : p c with
        | false => rw [hc] at h; simp at h
        | true =>
          rw [hc] at h
          simp only [if_true] at h
          obtain ⟨u, rfl, hu⟩ := ih.1 h
          refine ⟨c :: u, rfl, ?_⟩
          intro x hx
          rcases List.mem_cons.1 hx with rfl | hx
          · exact hc
          · exact hu x hx
    · rintro ⟨u, h, hu⟩
      cases u with
      | nil => exact Or.inl h.symm
      | cons x u =>
        simp only [List.cons_append, List.cons.injEq] at h
        obtain ⟨rfl, rfl⟩ := h
        right
        rw [hu c (by simp)]
        simp only [if_true]
        exact ih.2 ⟨u, rfl, fun y hy => hu y (by simp [hy])⟩

theorem manySplits_mem {p : Nat → Bool} (s t : Str) :
    t ∈ manySplits p s ↔ ∃ u, s = u ++ t ∧ ∀ x ∈ u, p x = true := by
  rw [← fewSplits_mem]
  induction s with
  | nil => simp [manySplits, fewSplits]
  | cons c s ih =>
    simp only [manySplits, fewSplits]
    cases p c <;> simp [ih, or_comm]

/-- Lazy repetition up to the first character `d` accepted by what follows. -/
theorem first_few_seq {p : Nat → Bool} {b : Re} (u t : Str) (c : Caps) {x : Str × Caps}
    (hu : ∀ y ∈ u, p y = true) (hb : b.first t c = some x)
    (hno : ∀ v w, u = v ++ w → w ≠ [] → b.run (w ++ t) c = []) :
    (Re.seq (.few p) b).first (u ++ t) c = some x := by
  induction u with
  | nil =>
    refine first_seq (s1 := t) (c1 := c) ?_ hb
    cases t <;> simp [first, run, fewSplits]
  | cons y u ih =>
    have hrun := hno [] (y :: u) rfl (by simp)
    have ih' := ih (fun z hz => hu z (by simp [hz]))
      (fun v w h hw => hno (y :: v) w (by rw [h]; rfl) hw)
    unfold first at *
    simp only [run, List.cons_append, fewSplits, hu y (by simp), if_true, List.map_cons, List.flatMap_cons] at *
    rw [hrun, List.nil_append]
    exact ih'

theorem run_lit (l s : Str) (c : Caps) :
    (Re.lit l).run s c = if l.isPrefixOf s then [(s.drop l.length, c)] else [] := by
  induction l generalizing s with
  | nil => simp [lit]
  | cons x l ih =>
    cases s with
    | nil => simp [lit, run]
    | cons y s =>
      simp only [lit, run, List.isPrefixOf, List.length_cons, List.drop_succ_cons]
      by_cases h : y = x
      · subst h; simp [ih]
      · have h1 : (y == x) = false := by simpa using h
        have h2 : (x == y) = false := by simpa using Ne.symm h
        simp [h1, h2]

theorem first_lit (l t : Str) (c : Caps) : (Re.lit l).first (l ++ t) c = some (t, c) := by
  unfold first
  rw [run_lit]
  have : l.isPrefixOf (l ++ t) = true := by rw [List.isPrefixOf_iff_prefix]; exact List.prefix_append _ _
  simp [this]

theorem run_lit_ne (l s : Str) (c : Caps) (h : ¬ l <+: s) : (Re.lit l).run s c = [] := by
  rw [run_lit, if_neg]
  rwa [List.isPrefixOf_iff_prefix]

theorem first_eol_nil (c : Caps) : Re.eol.first [] c = some ([], c) := rfl
theorem first_eol_nl (c : Caps) : Re.eol.first [0x0a] c = some ([0x0a], c) := rfl

/-! ### Where matches end -/

/-- A match ends in a suffix of the input. -/
theorem run_suffix (r : Re) (s : Str) (c : Caps) (t : Str) (c' : Caps) (h : (t, c') ∈ r.run s c) : t <:+ s := by
  induction r generalizing s c t c' with
  | eps => simp only [run, List.mem_singleton, Prod.mk.injEq] at h; rw [h.1]; exact List.suffix_refl _
  | chr p =>
    cases s with
    | nil => simp [run] at h
    | cons x s =>
      simp only [run] at h
      split at h
      · simp only [List.mem_singleton, Prod.mk.injEq] at h; rw [h.1]; exact List.suffix_cons _ _
      · simp at h
  | seq a b iha ihb =>
    simp only [run, List.mem_flatMap] at h
    obtain ⟨r1, h1, h2⟩ := h
    exact (ihb _ _ _ _ h2).trans (iha _ _ _ _ h1)
  | alt a b iha ihb =>
    simp only [run, List.mem_append] at h
    rcases h with h | h
    · exact iha _ _ _ _ h
    · exact ihb _ _ _ _ h
  | many p =>
    simp only [run, List.mem_map, Prod.mk.injEq] at h
    obtain ⟨u, h1, rfl, _⟩ := h
    obtain ⟨v, rfl, _⟩ := (manySplits_mem s u).1 h1
    exact List.suffix_append _ _
  | few p =>
    simp only [run, List.mem_map, Prod.mk.injEq] at h
    obtain ⟨u, h1, rfl, _⟩ := h
    obtain ⟨v, rfl, _⟩ := (fewSplits_mem s u).1 h1
    exact List.suffix_append _ _
  | group n a ih =>
    simp only [run, List.mem_map, Prod.mk.injEq] at h
    obtain ⟨r, h1, rfl, _⟩ := h
    exact ih _ _ _ _ h1
  | eol =>
    simp only [run] at h
    split at h
    · simp only [List.mem_singleton, Prod.mk.injEq] at h; rw [h.1]; exact List.suffix_refl _
    · simp at h

theorem first_mem {r : Re} {s : Str} {c : Caps} {x : Str × Caps} (h : r.first s c = some x) : x ∈ r.run s c :=
  List.mem_of_head? h

/-- More steps than characters make no difference. -/
theorem finditerAux_fuel (r : Re) (n m : Nat) (s : Str) (hn : s.length < n) (hm : s.length < m) :
    r.finditerAux n s = r.finditerAux m s := by
  induction n generalizing m s with
  | zero => omega
  | succ n ih =>
    obtain ⟨m, rfl⟩ : ∃ k, m = k + 1 := ⟨m - 1, by omega⟩
    simp only [finditerAux]
    cases hf : r.first s [] with
    | none =>
      cases s with
      | nil => rfl
      | cons x s => exact ih m s (by simp at hn; omega) (by simp at hm; omega)
    | some x =>
      obtain ⟨t, c⟩ := x
      simp only
      split
      · rename_i hlt
        rw [ih m t (by omega) (by omega)]
      · cases hm' : r.firstMore s with
        | some x =>
          obtain ⟨t', c'⟩ := x
          have hlt : t'.length < s.length := by simpa using List.find?_some hm'
          simp only [ih m t' (by omega) (by omega)]
        | none =>
          cases s with
          | nil => rfl
          | cons x s => simp only [ih m s (by simp at hn; omega) (by simp at hm; omega)]

theorem finditer_nil (r : Re) (h : r.first [] [] = none) : r.finditer [] = [] := by
  simp [finditer, finditerAux, h]

/-- A match of `u` at the front is reported and the scan goes on behind it. -/
theorem finditer_match (r : Re) (u t : Str) (c : Caps) (hne : u ≠ []) (h : r.first (u ++ t) [] = some (t, c)) :
    r.finditer (u ++ t) = (u, c) :: r.finditer t := by
  have hl : 0 < u.length := List.length_pos_iff.2 hne
  unfold finditer
  simp only [finditerAux, h]
  rw [if_pos (by simp; omega)]
  congr 1
  · congr 1
    simp
  · exact finditerAux_fuel r (u ++ t).length (t.length + 1) t (by simp; omega) (by omega)

/-- Without a match at the front the scan skips one character. -/
theorem finditer_skip (r : Re) (x : Nat) (s : Str) (h : r.first (x :: s) [] = none) :
    r.finditer (x :: s) = r.finditer s := by
  unfold finditer
  simp only [finditerAux, h]
  exact finditerAux_fuel r (x :: s).length (s.length + 1) s (by simp) (by omega)

/-! ### Groups that always take part -/

/-- Every match of the expression captures group `n`. -/
def Binds (n : Str) : Re → Prop
  | .eps => False
  | .chr _ => False
  | .seq a b => Binds n a ∨ Binds n b
  | .alt a b => Binds n a ∧ Binds n b
  | .many _ => False
  | .few _ => False
  | .group m a => m = n ∨ Binds n a
  | .eol => False

theorem run_keeps (n : Str) (r : Re) (s : Str) (c : Caps) (x : Str × Caps) (h : x ∈ r.run s c)
    (hc : (Dict.get? c n).isSome) : (Dict.get? x.2 n).isSome := by
  induction r generalizing s c x with
  | eps => simp only [run, List.mem_singleton] at h; subst h; exact hc
  | chr p =>
    cases s with
    | nil => simp [run] at h
    | cons y s =>
      simp only [run] at h
      split at h
      · simp only [List.mem_singleton] at h; subst h; exact hc
      · simp at h
  | seq a b iha ihb =>
    simp only [run, List.mem_flatMap] at h
    obtain ⟨r1, h1, h2⟩ := h
    exact ihb _ _ _ h2 (iha _ _ _ h1 hc)
  | alt a b iha ihb =>
    simp only [run, List.mem_append] at h
    rcases h with h | h
    · exact iha _ _ _ h hc
    · exact ihb _ _ _ h hc
  | many p =>
    simp only [run, List.mem_map] at h
    obtain ⟨u, _, rfl⟩ := h; exact hc
  | few p =>
    simp only [run, List.mem_map] at h
    obtain ⟨u, _, rfl⟩ := h; exact hc
  | group m a ih =>
    simp only [run, List.mem_map] at h
    obtain ⟨r, h1, rfl⟩ := h
    simp only [Dict.get?_set]
    split
    · rfl
    · exact ih _ _ _ h1 hc
  | eol =>
    simp only [run] at h
    split at h
    · simp only [List.mem_singleton] at h; subst h; exact hc
    · simp at h

theorem run_binds (n : Str) (r : Re) (hr : Binds n r) (s : Str) (c : Caps) (x : Str × Caps) (h : x ∈ r.run s c) :
    (Dict.get? x.2 n).isSome := by
  induction r generalizing s c x with
  | eps => exact absurd hr id
  | chr p => exact absurd hr id
  | many p => exact absurd hr id
  | few p => exact absurd hr id
  | eol => exact absurd hr id
  | seq a b iha ihb =>
    simp only [run, List.mem_flatMap] at h
    obtain ⟨r1, h1, h2⟩ := h
    rcases hr with hr | hr
    · exact run_keeps n b _ _ _ h2 (iha hr _ _ _ h1)
    · exact ihb hr _ _ _ h2
  | alt a b iha ihb =>
    simp only [run, List.mem_append] at h
    rcases h with h | h
    · exact iha hr.1 _ _ _ h
    · exact ihb hr.2 _ _ _ h
  | group m a ih =>
    simp only [run, List.mem_map] at h
    obtain ⟨r, h1, rfl⟩ := h
    simp only [Dict.get?_set]
    rcases hr with rfl | hr
    · simp
    · split
      · rfl
      · exact ih hr _ _ _ h1

end Re
end Py
