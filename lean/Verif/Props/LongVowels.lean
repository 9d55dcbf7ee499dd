import Verif.Props.Alternations
/-!
# Iteration marks and long vowels in `cjktools/alternations.py` (C20, C21)
-/

namespace Cjk
open Py

/-! ## C20: insert_duplicate_kanji -/

/-- Closed form: the last character other than 々 is carried along. -/
def fill : Chr → Str → Str
  | _, [] => []
  | p, c :: s => if c = Spec.iterationMark then p :: fill p s else c :: fill c s

theorem findChr_none {c : Chr} {s : Str} : findChr c s = none ↔ c ∉ s := by
  induction s with
  | nil => simp [findChr]
  | cons x s ih =>
    simp only [findChr, List.mem_cons, not_or]
    by_cases h : x = c
    · simp [h]
    · simp [h, ih, Ne.symm h]

theorem findChr_some {c : Chr} {s : Str} {i : Nat} (h : findChr c s = some i) :
    ∃ pre post, s = pre ++ c :: post ∧ pre.length = i ∧ c ∉ pre := by
  induction s generalizing i with
  | nil => simp [findChr] at h
  | cons x s ih =>
    simp only [findChr] at h
    by_cases hx : x = c
    · simp only [hx, if_true, Option.some.injEq] at h
      exact ⟨[], s, by simp [hx], by simpa using h, by simp⟩
    · simp only [hx, if_false, Option.map_eq_some_iff] at h
      obtain ⟨j, hj, rfl⟩ := h
      obtain ⟨pre, post, rfl, h1, h2⟩ := ih hj
      exact ⟨x :: pre, post, rfl, by simp [h1], by simp [h2, Ne.symm hx]⟩

theorem fill_of_not_mem (p : Chr) (s : Str) (h : Spec.iterationMark ∉ s) : fill p s = s := by
  induction s generalizing p with
  | nil => rfl
  | cons c s ih =>
    simp only [List.mem_cons, not_or] at h
    simp only [fill, if_neg (Ne.symm h.1), ih c h.2]

theorem fill_append (p : Chr) (a : Str) (h : Spec.iterationMark ∉ a) (s : Str) :
    fill p (a ++ s) = a ++ fill (a.getLastD p) s := by
  induction a generalizing p with
  | nil => rfl
  | cons c a ih =>
    simp only [List.mem_cons, not_or] at h
    simp only [List.cons_append, fill, if_neg (Ne.symm h.1), ih c h.2, List.getLastD_cons]

theorem loop_closed (n : Nat) : ∀ (c : Chr) (s : Str), c ≠ Spec.iterationMark →
    s.count Spec.iterationMark ≤ n →
    ∀ fuel, n < fuel → insertDuplicateLoop fuel (c :: s) = some (c :: fill c s) := by
  induction n with
  | zero =>
    intro c s hc hn fuel hf
    have hm : Spec.iterationMark ∉ s := List.count_eq_zero.1 (by omega)
    obtain ⟨fuel, rfl⟩ : ∃ f, fuel = f + 1 := ⟨fuel - 1, by omega⟩
    have : findChr c!"々" (c :: s) = none := findChr_none.2 (by
      simp only [List.mem_cons, not_or]; exact ⟨Ne.symm hc, hm⟩)
    simp only [insertDuplicateLoop, this, fill_of_not_mem c s hm]
  | succ n ih =>
    intro c s hc hn fuel hf
    obtain ⟨fuel, rfl⟩ : ∃ f, fuel = f + 1 := ⟨fuel - 1, by omega⟩
    cases hfind : findChr c!"々" (c :: s) with
    | none =>
      have hm : Spec.iterationMark ∉ c :: s := findChr_none.1 hfind
      simp only [List.mem_cons, not_or] at hm
      simp only [insertDuplicateLoop, hfind, fill_of_not_mem c s hm.2]
    | some i =>
      obtain ⟨pre, post, e, hl, hm⟩ := findChr_some hfind
      cases pre with
      | nil => simp only [List.nil_append, List.cons.injEq] at e; exact absurd e.1 hc
      | cons c' pre =>
        simp only [List.cons_append, List.cons.injEq] at e
        obtain ⟨rfl, rfl⟩ := e
        simp only [List.length_cons] at hl
        subst hl
        have hm' : Spec.iterationMark ∉ pre := fun h => hm (List.mem_cons_of_mem _ h)
        simp only [insertDuplicateLoop, hfind]
        have hlast : pre.getLastD c ≠ Spec.iterationMark := by
          cases hp : pre.getLast? with
          | none => rw [List.getLast?_eq_none_iff] at hp; subst hp; exact hc
          | some x =>
            rw [List.getLastD_eq_getLast?, hp]
            rintro rfl
            exact hm' (List.mem_of_getLast? hp)
        have e1 : (c :: (pre ++ c!"々" :: post)).take (pre.length + 1) = c :: pre := by simp
        have e2 : (c :: (pre ++ c!"々" :: post)).drop (pre.length + 2) = post := by
          rw [List.drop_succ_cons, ← List.drop_drop, List.drop_left]; rfl
        have e3 : (c :: (pre ++ c!"々" :: post)).getD pre.length 0 = pre.getLastD c := by
          rw [show c :: (pre ++ c!"々" :: post) = (c :: pre) ++ c!"々" :: post by simp, List.getD_eq_getElem?_getD,
            List.getElem?_append_left (by simp), List.getLastD_eq_getLast?]
          cases pre with
          | nil => simp
          | cons a as => simp [List.getLast?_eq_getElem?]
        rw [e1, e2, e3]
        have e4 : c :: pre ++ [pre.getLastD c] ++ post = c :: (pre ++ pre.getLastD c :: post) := by simp
        rw [e4, ih c (pre ++ pre.getLastD c :: post) hc ?_ fuel (by omega)]
        · rw [fill_append c pre hm', fill_append c pre hm']
          simp only [fill, if_neg hlast]
          rw [if_pos (show c!"々" = Spec.iterationMark from rfl)]
        · rw [List.count_append, List.count_cons_of_ne (by simpa using hlast)]
          have : (c!"々" :: post).count Spec.iterationMark = post.count Spec.iterationMark + 1 :=
            List.count_cons_self
          rw [List.count_append, this] at hn
          omega

theorem fill_length (p : Chr) (s : Str) : (fill p s).length = s.length := by
  induction s generalizing p with
  | nil => rfl
  | cons c s ih => simp only [fill]; split <;> simp [ih]

theorem fill_get (p : Chr) (s : Str) (i : Nat) (hi : i < s.length) :
    (∃ j : Nat, j ≤ i ∧ ∃ c, c ≠ Spec.iterationMark ∧ s[j]? = some c ∧ (fill p s)[i]? = some c ∧
      ∀ k : Nat, j < k → k ≤ i → s[k]? = some Spec.iterationMark) ∨
    ((∀ k : Nat, k ≤ i → s[k]? = some Spec.iterationMark) ∧ (fill p s)[i]? = some p) := by
  induction s generalizing p i with
  | nil => simp at hi
  | cons c s ih =>
    by_cases hc : c = Spec.iterationMark
    · simp only [fill, if_pos hc]
      cases i with
      | zero => right; refine ⟨fun k hk => ?_, by simp⟩; obtain rfl : k = 0 := by omega
                simp [hc]
      | succ i =>
        rcases ih p i (by simpa using hi) with ⟨j, h1, c', h2, h3, h4, h5⟩ | ⟨h1, h2⟩
        · left
          refine ⟨j + 1, by omega, c', h2, by simpa using h3, by simpa using h4, ?_⟩
          intro k hk hk'
          obtain ⟨k, rfl⟩ : ∃ k', k = k' + 1 := ⟨k - 1, by omega⟩
          simpa using h5 k (by omega) (by omega)
        · right
          refine ⟨?_, by simpa using h2⟩
          intro k hk
          cases k with
          | zero => simp [hc]
          | succ k => simpa using h1 k (by omega)
    · simp only [fill, if_neg hc]
      left
      cases i with
      | zero => exact ⟨0, by omega, c, hc, rfl, rfl, fun k h1 h2 => by omega⟩
      | succ i =>
        rcases ih c i (by simpa using hi) with ⟨j, h1, c', h2, h3, h4, h5⟩ | ⟨h1, h2⟩
        · refine ⟨j + 1, by omega, c', h2, by simpa using h3, by simpa using h4, ?_⟩
          intro k hk hk'
          obtain ⟨k, rfl⟩ : ∃ k', k = k' + 1 := ⟨k - 1, by omega⟩
          simpa using h5 k (by omega) (by omega)
        · refine ⟨0, by omega, c, hc, rfl, by simpa using h2, ?_⟩
          intro k hk hk'
          obtain ⟨k, rfl⟩ : ∃ k', k = k' + 1 := ⟨k - 1, by omega⟩
          simpa using h1 k (by omega)

/-- C20: the loop stops (after at most one round per 々, and more fuel changes nothing); when the
string does not start with 々, every position gets the nearest character at or before it that is not
々, so the length and all other characters are kept. -/
theorem C20_terminates_and_fills (s : Str) (h : s.head? ≠ some Spec.iterationMark) :
    ∃ t, (∀ fuel, s.count Spec.iterationMark < fuel → insertDuplicateLoop fuel s = some t) ∧
      t.length = s.length ∧ Spec.iterationMark ∉ t ∧
      ∀ i : Nat, i < s.length → ∃ j : Nat, j ≤ i ∧ ∃ c, c ≠ Spec.iterationMark ∧ s[j]? = some c ∧
        t[i]? = some c ∧ ∀ k : Nat, j < k → k ≤ i → s[k]? = some Spec.iterationMark := by
  cases s with
  | nil =>
    refine ⟨[], ?_, rfl, by simp, by simp⟩
    intro fuel hf
    obtain ⟨fuel, rfl⟩ : ∃ f, fuel = f + 1 := ⟨fuel - 1, by omega⟩
    rfl
  | cons c s =>
    have hc : c ≠ Spec.iterationMark := by simpa using h
    have hget : ∀ i : Nat, i < (c :: s).length → ∃ j : Nat, j ≤ i ∧ ∃ c', c' ≠ Spec.iterationMark ∧
        (c :: s)[j]? = some c' ∧ (c :: fill c s)[i]? = some c' ∧
        ∀ k : Nat, j < k → k ≤ i → (c :: s)[k]? = some Spec.iterationMark := by
      intro i hi
      have := fill_get c (c :: s) i hi
      simp only [fill, if_neg hc] at this
      rcases this with h | ⟨h, _⟩
      · exact h
      · have := h 0 (by omega); simp at this; exact absurd this hc
    refine ⟨c :: fill c s, ?_, by simp [fill_length], ?_, hget⟩
    · intro fuel hf
      refine loop_closed _ c s hc (Nat.le_refl _) fuel ?_
      rwa [List.count_cons_of_ne (by simpa using hc)] at hf
    · intro hm
      obtain ⟨i, hi, he⟩ := List.getElem_of_mem hm
      obtain ⟨j, _, c', h1, _, h2, _⟩ := hget i (by simpa [fill_length] using hi)
      rw [List.getElem?_eq_getElem hi, he] at h2
      cases h2
      exact h1 rfl

/-- C20: a string that starts with 々 is returned unchanged. -/
theorem C20_leading_mark (s : Str) (fuel : Nat) :
    insertDuplicateLoop (fuel + 1) (Spec.iterationMark :: s) = some (Spec.iterationMark :: s) := by
  have : findChr c!"々" (Spec.iterationMark :: s) = some 0 := by
    simp only [findChr]; rw [if_pos (show Spec.iterationMark = c!"々" from rfl)]
  simp only [insertDuplicateLoop, this]

example : (u!"時々様々々").head? ≠ some Spec.iterationMark ∧
    insertDuplicateLoop 6 u!"時々様々々" = some u!"時時様様様" := by decide +kernel

/-! ## C21: expand_long_vowels -/

theorem vowel_iff (p v : Chr) : kanaTable.toVowelLine [p] = some [v] ↔ Spec.VowelOf p v := by
  constructor
  · intro h
    by_cases hp : ∃ i j, Spec.At i j p
    · obtain ⟨i, j, hp⟩ := hp
      rw [(C08_lines_exact i j p hp).2.1] at h
      simp only [Option.some.injEq, List.cons.injEq, and_true] at h
      subst h
      exact Spec.VowelOf.grid hp
    · have := (C08_outside_table [p] (fun i j k hk he => by
        simp only [List.cons.injEq, and_true] at he
        subst he; exact hp ⟨i, j, hk⟩)).2.1
      rw [this] at h
      by_cases hw : [p] = u!"わ"
      · rw [if_pos hw] at h
        simp only [Option.some.injEq] at h
        simp only [List.cons.injEq, and_true] at hw h
        subst hw; subst h
        exact Spec.VowelOf.wa
      · rw [if_neg hw] at h; cases h
  · intro h
    cases h with
    | grid h => exact (C08_lines_exact _ _ _ h).2.1
    | wa => decide +kernel

theorem vowel_cases (p : Chr) :
    (∃ v, kanaTable.toVowelLine [p] = some [v]) ∨ kanaTable.toVowelLine [p] = none := by
  by_cases hp : ∃ i j, Spec.At i j p
  · obtain ⟨i, j, hp⟩ := hp
    exact Or.inl ⟨_, (C08_lines_exact i j p hp).2.1⟩
  · have := (C08_outside_table [p] (fun i j k hk he => by
      simp only [List.cons.injEq, and_true] at he
      subst he; exact hp ⟨i, j, hk⟩)).2.1
    rw [this]
    by_cases hw : [p] = u!"わ"
    · rw [if_pos hw]; exact Or.inl ⟨_, rfl⟩
    · rw [if_neg hw]; exact Or.inr rfl

/-- One character of the hiragana loop. -/
def hstep (prev : Option Chr) (c : Chr) : Except PyErr Chr :=
  match prev with
  | none => .ok c
  | some p =>
    if c = c!"ー" ∧ 0x3041 ≤ p ∧ p ≤ 0x3096 then
      match kanaTable.toVowelLine [p] with
      | some (v :: _) => .ok v
      | _ => .error .typeError
    else .ok c

/-- Left-to-right walk remembering the previous (original) character. -/
def walk (step : Option Chr → Chr → Except PyErr Chr) : Option Chr → Str → Except PyErr Str
  | _, [] => .ok []
  | prev, c :: s => do
    let d ← step prev c
    let t ← walk step (some c) s
    .ok (d :: t)

theorem expandMatches_walk (dn s : Str) (prev : Option Chr)
    (h : ∀ p, prev = some p → 0x3041 ≤ p ∧ p ≤ 0x3096 → dn.getLast? = some p) :
    expandMatches (longPositions dn.length prev s) (dn ++ s) = (walk hstep prev s).map (dn ++ ·) := by
  induction s generalizing dn prev with
  | nil => simp [longPositions, expandMatches, walk, Except.map]
  | cons c s ih =>
    have keep : expandMatches (longPositions (dn.length + 1) (some c) s) (dn ++ c :: s) =
        (walk hstep (some c) s).map (fun t => dn ++ c :: t) := by
      have := ih (dn ++ [c]) (some c) (by intro p hp _; cases hp; simp)
      simp only [List.length_append, List.length_singleton, List.append_assoc, List.singleton_append] at this
      exact this
    have keep' : hstep prev c = .ok c → (walk hstep prev (c :: s)).map (dn ++ ·) =
        (walk hstep (some c) s).map (fun t => dn ++ c :: t) := by
      intro h1
      simp only [walk, h1]
      cases walk hstep (some c) s <;> rfl
    cases prev with
    | none =>
      rw [keep' rfl, ← keep]; rfl
    | some p =>
      by_cases hcond : c = c!"ー" ∧ 0x3041 ≤ p ∧ p ≤ 0x3096
      · simp only [longPositions, if_pos hcond, expandMatches]
        have hlast := h p rfl hcond.2
        obtain ⟨dn', rfl⟩ : ∃ d, dn = d ++ [p] := by
          have := List.getLast?_eq_some_iff.1 hlast
          exact this
        have hg : getItemI (dn' ++ [p] ++ c :: s) (((dn' ++ [p]).length : Int) - 1) = .ok p := by
          unfold getItemI
          rw [if_pos (by simp)]
          have : (((dn' ++ [p]).length : Int) - 1).toNat = dn'.length := by simp
          rw [this]
          simp [getItem]
        rw [hg]
        show (match kanaTable.toVowelLine [p] with | none => _ | some v => _) = _
        rcases vowel_cases p with ⟨v, hv⟩ | hv
        · simp only [hv]
          have hs : hstep (some p) c = .ok v := by simp only [hstep, if_pos hcond, hv]
          simp only [walk, hs]
          have e1 : (dn' ++ [p] ++ c :: s).take (dn' ++ [p]).length = dn' ++ [p] := List.take_left
          have e2 : (dn' ++ [p] ++ c :: s).drop ((dn' ++ [p]).length + 1) = s := by
            rw [← List.drop_drop, List.drop_left]; rfl
          rw [e1, e2]
          have := ih (dn' ++ [p] ++ [v]) (some c) (by
            intro p' hp' hr; cases hp'; exfalso; rw [hcond.1] at hr; revert hr; decide)
          have e3 : (dn' ++ [p] ++ [v]).length = (dn' ++ [p]).length + 1 := by simp
          rw [e3] at this
          rw [this]
          cases walk hstep (some c) s with
          | error e => rfl
          | ok t => simp [Except.map, Bind.bind, Except.bind]
        · simp only [hv]
          have hs : hstep (some p) c = .error .typeError := by simp only [hstep, if_pos hcond, hv]
          simp only [walk, hs]; rfl
      · simp only [longPositions, if_neg hcond]
        rw [keep, keep' (by simp only [hstep, if_neg hcond])]

/-- One character of the whole computation. -/
def gstep (prev : Option Chr) (c : Chr) : Except PyErr Chr :=
  match prev with
  | none => .ok c
  | some p =>
    if c = c!"ー" ∧ 0x30a1 ≤ p ∧ p ≤ 0x30f6 then
      match kanaTable.toVowelLine [p - 96] with
      | some (v :: _) => .ok (if 0x3041 ≤ v ∧ v ≤ 0x3096 then v + 96 else v)
      | _ => .error .typeError
    else hstep prev c

theorem walk_congr {f g : Option Chr → Chr → Except PyErr Chr} (P : Chr → Prop) (prev : Option Chr) (s : Str)
    (hp : ∀ p, prev = some p → P p) (hs : ∀ c ∈ s, P c)
    (h : ∀ prev c, (∀ p, prev = some p → P p) → P c → f prev c = g prev c) :
    walk f prev s = walk g prev s := by
  induction s generalizing prev with
  | nil => rfl
  | cons c s ih =>
    have hc : P c := hs c (by simp)
    simp only [walk, h prev c hp hc]
    rw [ih (some c) (by rintro p hp; cases hp; exact hc) (fun x hx => hs x (by simp [hx]))]

theorem walk_append (f : Option Chr → Chr → Except PyErr Chr) (prev : Option Chr) (a b : Str) :
    walk f prev (a ++ b) = (do
      let x ← walk f prev a
      let y ← walk f (a.getLast?.or prev) b
      .ok (x ++ y)) := by
  induction a generalizing prev with
  | nil =>
    simp only [List.nil_append, walk, List.getLast?_nil, Option.none_or]
    cases walk f prev b <;> rfl
  | cons c a ih =>
    simp only [List.cons_append, walk, ih]
    have : (c :: a).getLast?.or prev = a.getLast?.or (some c) := by
      cases a with
      | nil => simp
      | cons d a =>
        rw [List.getLast?_cons_cons]
        cases h : (d :: a).getLast? with
        | none => rw [List.getLast?_eq_none_iff] at h; cases h
        | some x => rfl
    rw [this]
    cases f prev c with
    | error e => rfl
    | ok d =>
      cases walk f (some c) a with
      | error e => rfl
      | ok x =>
        cases walk f (a.getLast?.or (some c)) b <;> rfl

/-- Characters of a block headed by hiragana. -/
def HiraOrLong (c : Chr) : Prop := (0x3041 ≤ c ∧ c ≤ 0x3096) ∨ c = c!"ー"
/-- Characters of a block headed by katakana. -/
def KataOrLong (c : Chr) : Prop := (0x30a1 ≤ c ∧ c ≤ 0x30f6) ∨ c = c!"ー"

theorem longMark_val : c!"ー" = 0x30fc := by decide

theorem walk_hira (prev : Option Chr) (s : Str) (hp : ∀ p, prev = some p → HiraOrLong p) (hs : ∀ c ∈ s, HiraOrLong c) :
    walk hstep prev s = walk gstep prev s := by
  refine walk_congr HiraOrLong prev s hp hs ?_
  intro prev c hp hc
  cases prev with
  | none => rfl
  | some p =>
    have := hp p rfl
    simp only [gstep]
    rw [if_neg]
    rintro ⟨_, h1⟩
    rcases this with h | h
    · omega
    · rw [longMark_val] at h; omega

theorem walk_kata (prev : Option Chr) (s : Str) (hp : ∀ p, prev = some p → KataOrLong p) (hs : ∀ c ∈ s, KataOrLong c) :
    (walk hstep (prev.map (fun c => (if 0x30a1 ≤ c ∧ c ≤ 0x30f6 then c - 96 else c))) (toHiragana s)).map toKatakana
      = walk gstep prev s := by
  induction s generalizing prev with
  | nil => rfl
  | cons c s ih =>
    have hc : KataOrLong c := hs c (by simp)
    have hrec := ih (some c) (by rintro p hp; cases hp; exact hc) (fun x hx => hs x (by simp [hx]))
    have hstep_eq : (hstep (prev.map (fun c => (if 0x30a1 ≤ c ∧ c ≤ 0x30f6 then c - 96 else c)))
        (if 0x30a1 ≤ c ∧ c ≤ 0x30f6 then c - 96 else c)).map
          (fun c => if 0x3041 ≤ c ∧ c ≤ 0x3096 then c + 96 else c) = gstep prev c := by
      cases prev with
      | none =>
        simp only [Option.map_none, hstep, gstep, Except.map]
        rcases hc with h | h
        · rw [if_pos h, if_pos (by omega)]; congr 1; omega
        · rw [longMark_val] at h; subst h; rfl
      | some p =>
        have hpp := hp p rfl
        simp only [Option.map_some, hstep, gstep]
        rcases hc with h | h
        · rw [if_pos h]
          rw [if_neg (by rw [longMark_val]; omega), if_neg (by rw [longMark_val]; omega),
            if_neg (by rw [longMark_val]; omega)]
          simp only [Except.map]
          rw [if_pos (by omega)]; congr 1; omega
        · have hc' : (if 0x30a1 ≤ c ∧ c ≤ 0x30f6 then c - 96 else c) = c :=
            if_neg (by rw [h, longMark_val]; omega)
          rw [hc']
          rcases hpp with hpp | hpp
          · have hp' : (if 0x30a1 ≤ p ∧ p ≤ 0x30f6 then p - 96 else p) = p - 96 := if_pos hpp
            rw [hp', if_pos ⟨h, by omega⟩, if_pos ⟨h, hpp⟩]
            rcases vowel_cases (p - 96) with ⟨v, hv⟩ | hv <;> simp only [hv] <;> rfl
          · rw [longMark_val] at hpp h; subst hpp; subst h; rfl
    simp only [toHiragana, List.map_cons, walk, Option.map_some] at hrec ⊢
    rw [← hstep_eq, ← hrec]
    cases hstep (prev.map (fun c => (if 0x30a1 ≤ c ∧ c ≤ 0x30f6 then c - 96 else c)))
        (if 0x30a1 ≤ c ∧ c ≤ 0x30f6 then c - 96 else c) with
    | error e => rfl
    | ok d =>
      cases walk hstep (some (if 0x30a1 ≤ c ∧ c ≤ 0x30f6 then c - 96 else c))
        (s.map (fun c => if 0x30a1 ≤ c ∧ c ≤ 0x30f6 then c - 96 else c)) <;> rfl

theorem walk_other (prev : Option Chr) (s : Str)
    (hp : ∀ p, prev = some p → ¬ Spec.IsKana p) (hs : ∀ c ∈ s, ¬ Spec.IsKana c) :
    walk gstep prev s = .ok s := by
  induction s generalizing prev with
  | nil => rfl
  | cons c s ih =>
    have : gstep prev c = .ok c := by
      cases prev with
      | none => rfl
      | some p =>
        have := hp p rfl
        unfold Spec.IsKana Spec.InScript at this
        simp only [gstep, hstep]
        rw [if_neg (fun h => this (Or.inr h.2)), if_neg (fun h => this (Or.inl h.2))]
    simp only [walk, this, ih (some c) (by rintro p hp; cases hp; exact hs c (by simp)) (fun x hx => hs x (by simp [hx]))]
    rfl

/-- The first character of a block is not `ー` after a kana, so the previous one does not matter. -/
theorem walk_prev (prev : Option Chr) (c : Chr) (s : Str) (h : prev = none ∨ c ≠ c!"ー") :
    walk gstep prev (c :: s) = walk gstep none (c :: s) := by
  have : gstep prev c = .ok c := by
    rcases h with rfl | h
    · rfl
    · cases prev with
      | none => rfl
      | some p => simp only [gstep, hstep]; rw [if_neg (fun h' => h h'.1), if_neg (fun h' => h h'.1)]
  simp only [walk, this]; rfl

theorem expandSegment_block (seg : Str) (h : Spec.Block seg) : expandSegment seg = walk gstep none seg := by
  obtain ⟨a, t, rfl, ht⟩ := h
  have hcont : ∀ c ∈ t, c = c!"ー" ∨ ∃ x, Spec.InScript x a ∧ Spec.InScript x c := ht
  unfold expandSegment
  rw [if_neg (by simp)]
  obtain ⟨x, hx⟩ := InScript_exists a
  have hall : ∀ c ∈ t, c = c!"ー" ∨ Spec.InScript x c := by
    intro c hc
    rcases hcont c hc with h | ⟨y, h1, h2⟩
    · exact Or.inl h
    · rw [InScript_unique hx h1]; exact Or.inr h2
  rw [(scriptType_iff a t x).2 hx]
  have hother : ¬ (x = .hiragana) → ¬ (x = .katakana) → ∀ c ∈ a :: t, ¬ Spec.IsKana c := by
    intro h1 h2 c hc hk
    have hx' : c = c!"ー" ∨ Spec.InScript x c := by
      rcases List.mem_cons.1 hc with rfl | hc
      · exact Or.inr hx
      · exact hall c hc
    rcases hx' with rfl | hx'
    · revert hk; decide
    · rcases hk with hk | hk
      · exact h1 (InScript_unique hx' hk)
      · exact h2 (InScript_unique hx' hk)
  cases x with
  | hiragana =>
    have hh : ∀ c ∈ a :: t, HiraOrLong c := by
      intro c hc
      rcases List.mem_cons.1 hc with rfl | hc
      · exact Or.inl hx
      · exact (hall c hc).symm
    have hid : toHiragana (a :: t) = a :: t := by
      unfold toHiragana
      conv_rhs => rw [← List.map_id (a :: t)]
      apply List.map_congr_left
      intro c hc
      rw [if_neg]; · rfl
      · rcases hh c hc with h | h
        · omega
        · rw [longMark_val] at h; omega
    have := expandMatches_walk [] (a :: t) none (by simp)
    simp only [List.length_nil, List.nil_append] at this
    show expandMatches (longPositions 0 none (toHiragana (a :: t))) (toHiragana (a :: t)) = _
    rw [hid, this, ← walk_hira none (a :: t) (by simp) hh]
    cases walk hstep none (a :: t) <;> rfl
  | katakana =>
    have hh : ∀ c ∈ a :: t, KataOrLong c := by
      intro c hc
      rcases List.mem_cons.1 hc with rfl | hc
      · exact Or.inl hx
      · exact (hall c hc).symm
    have := expandMatches_walk [] (toHiragana (a :: t)) none (by simp)
    simp only [List.length_nil, List.nil_append] at this
    show (expandMatches (longPositions 0 none (toHiragana (a :: t))) (toHiragana (a :: t)) >>= fun r =>
      Except.ok (toKatakana r)) = _
    rw [this, ← walk_kata none (a :: t) (by simp) hh]
    show _ = (walk hstep none (toHiragana (a :: t))).map toKatakana
    cases walk hstep none (toHiragana (a :: t)) <;> rfl
  | ascii => exact (walk_other none _ (by simp) (hother (by simp) (by simp))).symm
  | kanji => exact (walk_other none _ (by simp) (hother (by simp) (by simp))).symm
  | fullAscii => exact (walk_other none _ (by simp) (hother (by simp) (by simp))).symm
  | halfKatakana => exact (walk_other none _ (by simp) (hother (by simp) (by simp))).symm
  | unknown => exact (walk_other none _ (by simp) (hother (by simp) (by simp))).symm

theorem expandSegments_walk (segs : List Str) (hb : ∀ seg ∈ segs, Spec.Block seg) (prev : Option Chr)
    (hm : ∀ pre a b post, segs = pre ++ a :: b :: post → ∀ h ∈ a.head?, ∀ c ∈ b.head?, ¬ Spec.Continues h c)
    (hh : ∀ seg, segs.head? = some seg → prev = none ∨ seg.head? ≠ some c!"ー") :
    (mapE expandSegment segs).map List.flatten = walk gstep prev segs.flatten := by
  induction segs generalizing prev with
  | nil => rfl
  | cons seg segs ih =>
    have hseg := hb seg (by simp)
    obtain ⟨a, t, e, ht⟩ := hseg
    have ih' := ih (fun x hx => hb x (by simp [hx])) (seg.getLast?.or prev)
      (fun pre x y post e => hm (seg :: pre) x y post (by simp [e]))
      (by
        intro seg' hs'
        right
        cases segs with
        | nil => simp at hs'
        | cons b post =>
          simp at hs'; subst hs'
          intro hl
          refine hm [] seg b post rfl a (by simp [e]) _ hl ?_
          exact Or.inl rfl)
    simp only [mapE, List.flatten_cons, walk_append]
    rw [← ih', expandSegment_block seg (hb seg (by simp))]
    have : walk gstep prev seg = walk gstep none seg := by
      rw [e]
      apply walk_prev
      rcases hh seg rfl with h | h
      · exact Or.inl h
      · right; rw [e] at h; simpa using h
    rw [this]
    cases walk gstep none seg with
    | error e => rfl
    | ok x => cases mapE expandSegment segs <;> rfl

theorem expandLongVowels_walk (s : Str) : expandLongVowels s = walk gstep none s := by
  cases s with
  | nil => rfl
  | cons c s =>
    obtain ⟨h1, h2, h3⟩ := C03_boundaries_segmentation (c :: s) (by simp)
    have := expandSegments_walk _ h2 none h3 (fun _ _ => Or.inl rfl)
    rw [h1] at this
    rw [← this]
    unfold expandLongVowels
    cases mapE expandSegment (scriptBoundaries (c :: s)) <;> rfl

/-- What happens to character `c` after `prev`. -/
def Spec.Expands (prev : Option Chr) (c d : Chr) : Prop :=
  (c = Spec.longMark ∧ ∃ p, prev = some p ∧ Spec.IsKana p ∧ Spec.Lengthens p d) ∨
  (¬ (c = Spec.longMark ∧ ∃ p, prev = some p ∧ Spec.IsKana p) ∧ d = c)

theorem hira_kata_convert (c : Chr) :
    Spec.convertChr Spec.hiraganaAlphabet Spec.katakanaAlphabet c = (if 0x3041 ≤ c ∧ c ≤ 0x3096 then c + 96 else c) ∧
    Spec.convertChr Spec.katakanaAlphabet Spec.hiraganaAlphabet c = (if 0x30a1 ≤ c ∧ c ≤ 0x30f6 then c - 96 else c) := by
  have h1 := toKatakana_eq_convert [c]
  have h2 := toHiragana_eq_convert [c]
  simp only [toKatakana, toHiragana, List.map_cons, List.map_nil, List.cons.injEq, and_true] at h1 h2
  exact ⟨h1.symm, h2.symm⟩

theorem gstep_ok_iff (prev : Option Chr) (c d : Chr) : gstep prev c = .ok d ↔ Spec.Expands prev c d := by
  cases prev with
  | none =>
    simp only [gstep, Spec.Expands, Except.ok.injEq]
    constructor
    · rintro rfl; right; exact ⟨(by rintro ⟨_, p, h, _⟩; cases h), rfl⟩
    · rintro (⟨_, p, h, _⟩ | ⟨_, rfl⟩)
      · cases h
      · rfl
  | some p =>
    by_cases hk : c = c!"ー" ∧ 0x30a1 ≤ p ∧ p ≤ 0x30f6
    · simp only [gstep, if_pos hk]
      have hkana : Spec.IsKana p := Or.inr hk.2
      have hE : Spec.Expands (some p) c d ↔ Spec.Lengthens p d := by
        constructor
        · rintro (⟨_, p', h1, _, h2⟩ | ⟨h1, _⟩)
          · cases h1; exact h2
          · exact absurd ⟨hk.1, p, rfl, hkana⟩ h1
        · intro h; exact Or.inl ⟨hk.1, p, rfl, hkana, h⟩
      rw [hE]
      have hL : Spec.Lengthens p d ↔ ∃ w, Spec.VowelOf (p - 96) w ∧ d = (if 0x3041 ≤ w ∧ w ≤ 0x3096 then w + 96 else w) := by
        unfold Spec.Lengthens
        constructor
        · rintro (⟨h1, _⟩ | ⟨_, w, h1, h2⟩)
          · unfold Spec.InScript at h1; omega
          · rw [(hira_kata_convert p).2, if_pos hk.2] at h1
            rw [(hira_kata_convert w).1] at h2
            exact ⟨w, h1, h2⟩
        · rintro ⟨w, h1, h2⟩
          right
          refine ⟨hk.2, w, ?_, ?_⟩
          · rw [(hira_kata_convert p).2, if_pos hk.2]; exact h1
          · rw [(hira_kata_convert w).1]; exact h2
      rw [hL]
      rcases vowel_cases (p - 96) with ⟨v, hv⟩ | hv
      · simp only [hv, Except.ok.injEq]
        constructor
        · rintro rfl; exact ⟨v, (vowel_iff _ _).1 hv, rfl⟩
        · rintro ⟨w, h1, rfl⟩
          have := (vowel_iff _ _).2 h1
          rw [hv] at this; cases this; rfl
      · simp only [hv, reduceCtorEq, false_iff]
        rintro ⟨w, h1, _⟩
        have := (vowel_iff _ _).2 h1
        rw [hv] at this; cases this
    · simp only [gstep, if_neg hk]
      by_cases hh : c = c!"ー" ∧ 0x3041 ≤ p ∧ p ≤ 0x3096
      · simp only [hstep, if_pos hh]
        have hkana : Spec.IsKana p := Or.inl hh.2
        have hE : Spec.Expands (some p) c d ↔ Spec.VowelOf p d := by
          constructor
          · rintro (⟨_, p', h1, _, h2⟩ | ⟨h1, _⟩)
            · cases h1
              rcases h2 with h2 | h2
              · exact h2.2
              · have := h2.1; unfold Spec.InScript at this; omega
            · exact absurd ⟨hh.1, p, rfl, hkana⟩ h1
          · intro h; exact Or.inl ⟨hh.1, p, rfl, hkana, Or.inl ⟨hh.2, h⟩⟩
        rw [hE]
        rcases vowel_cases p with ⟨v, hv⟩ | hv
        · simp only [hv, Except.ok.injEq]
          constructor
          · rintro rfl; exact (vowel_iff _ _).1 hv
          · intro h1
            have := (vowel_iff _ _).2 h1
            rw [hv] at this; cases this; rfl
        · simp only [hv, reduceCtorEq, false_iff]
          intro h1
          have := (vowel_iff _ _).2 h1
          rw [hv] at this; cases this
      · simp only [hstep, if_neg hh, Except.ok.injEq]
        have hno : ¬ (c = Spec.longMark ∧ ∃ q, some p = some q ∧ Spec.IsKana q) := by
          rintro ⟨h1, q, h2, h3⟩
          cases h2
          rcases h3 with h3 | h3
          · exact hh ⟨h1, h3⟩
          · exact hk ⟨h1, h3⟩
        constructor
        · rintro rfl; exact Or.inr ⟨hno, rfl⟩
        · rintro (⟨h1, q, h2, h3, _⟩ | ⟨_, rfl⟩)
          · exact absurd ⟨h1, q, h2, h3⟩ hno
          · rfl

theorem gstep_error (prev : Option Chr) (c : Chr) (e : PyErr) (h : gstep prev c = .error e) : e = .typeError := by
  cases prev with
  | none => cases h
  | some p =>
    simp only [gstep, hstep] at h
    split at h
    · split at h
      · cases h
      · cases h; rfl
    · split at h
      · split at h
        · cases h
        · cases h; rfl
      · cases h

/-- The character before position `i`. -/
def Spec.before (prev : Option Chr) (s : Str) : Nat → Option Chr
  | 0 => prev
  | i + 1 => s[i]?

theorem walk_ok_iff (prev : Option Chr) (s t : Str) :
    walk gstep prev s = .ok t ↔ t.length = s.length ∧
      ∀ (i : Nat) c, s[i]? = some c → ∃ d, t[i]? = some d ∧ Spec.Expands (Spec.before prev s i) c d := by
  induction s generalizing prev t with
  | nil =>
    simp only [walk, Except.ok.injEq, List.length_nil, List.length_eq_zero_iff]
    constructor
    · rintro rfl; simp
    · rintro ⟨h, _⟩; exact h.symm
  | cons c s ih =>
    simp only [walk]
    constructor
    · intro h
      cases h1 : gstep prev c with
      | error e => rw [h1] at h; cases h
      | ok d =>
        cases h2 : walk gstep (some c) s with
        | error e => rw [h1, h2] at h; cases h
        | ok t' =>
          rw [h1, h2] at h
          cases h
          obtain ⟨h3, h4⟩ := (ih (some c) t').1 h2
          refine ⟨by simp [h3], ?_⟩
          intro i x hx
          cases i with
          | zero => simp at hx; subst hx; exact ⟨d, rfl, (gstep_ok_iff _ _ _).1 h1⟩
          | succ i =>
            obtain ⟨d', h5, h6⟩ := h4 i x (by simpa using hx)
            refine ⟨d', by simpa using h5, ?_⟩
            cases i <;> simpa [Spec.before] using h6
    · rintro ⟨hl, h⟩
      cases t with
      | nil => simp at hl
      | cons d t =>
        have h1 : gstep prev c = .ok d := by
          obtain ⟨d', h1, h2⟩ := h 0 c rfl
          simp at h1; subst h1
          exact (gstep_ok_iff _ _ _).2 h2
        have h2 : walk gstep (some c) s = .ok t := by
          rw [ih]
          refine ⟨by simpa using hl, ?_⟩
          intro i x hx
          obtain ⟨d', h3, h4⟩ := h (i + 1) x (by simpa using hx)
          refine ⟨d', by simpa using h3, ?_⟩
          cases i <;> simpa [Spec.before] using h4
        rw [h1, h2]; rfl

theorem walk_error (prev : Option Chr) (s : Str) (e : PyErr) (h : walk gstep prev s = .error e) :
    e = .typeError ∧ ∃ (i : Nat) (c : Chr), s[i]? = some c ∧ ∀ d, ¬ Spec.Expands (Spec.before prev s i) c d := by
  induction s generalizing prev with
  | nil => cases h
  | cons c s ih =>
    simp only [walk] at h
    cases h1 : gstep prev c with
    | error e' =>
      rw [h1] at h; cases h
      refine ⟨gstep_error prev c e h1, 0, c, rfl, ?_⟩
      intro d hd
      have := (gstep_ok_iff prev c d).2 hd
      rw [h1] at this; cases this
    | ok d =>
      cases h2 : walk gstep (some c) s with
      | ok t => rw [h1, h2] at h; cases h
      | error e' =>
        rw [h1, h2] at h
        cases h
        obtain ⟨h3, i, c', h4, h5⟩ := ih (some c) h2
        refine ⟨h3, i + 1, c', by simpa using h4, ?_⟩
        intro d hd
        apply h5 d
        cases i <;> simpa [Spec.before] using hd

/-- C21: the result is the position-by-position rewriting of the input. -/
theorem C21_expand_long_vowels_local (s t : Str) :
    expandLongVowels s = .ok t ↔ t.length = s.length ∧
      ∀ (i : Nat) c, s[i]? = some c → ∃ d, t[i]? = some d ∧ Spec.Expands (Spec.before none s i) c d := by
  rw [expandLongVowels_walk]; exact walk_ok_iff none s t

/-- C21: the call fails exactly when some `ー` directly follows a kana without a vowel, and then with
`TypeError`. -/
theorem C21_expand_long_vowels_fails (s : Str) (e : PyErr) :
    expandLongVowels s = .error e ↔ e = .typeError ∧ ∃ (i : Nat) (p : Chr), s[i]? = some p ∧
      s[i + 1]? = some Spec.longMark ∧ Spec.IsKana p ∧ ∀ v, ¬ Spec.Lengthens p v := by
  rw [expandLongVowels_walk]
  constructor
  · intro h
    obtain ⟨h1, i, c, h2, h3⟩ := walk_error none s e h
    refine ⟨h1, ?_⟩
    cases i with
    | zero =>
      refine absurd (Or.inr ⟨?_, rfl⟩) (h3 c)
      rintro ⟨_, p, hp, _⟩; cases hp
    | succ i =>
      have h4 : c = Spec.longMark ∧ ∃ p, s[i]? = some p ∧ Spec.IsKana p := by
        apply Classical.byContradiction
        intro hn
        exact h3 c (Or.inr ⟨hn, rfl⟩)
      obtain ⟨rfl, p, hp, hk⟩ := h4
      refine ⟨i, p, hp, h2, hk, fun v hv => h3 v (Or.inl ⟨rfl, p, hp, hk, hv⟩)⟩
  · rintro ⟨rfl, i, p, h1, h2, h3, h4⟩
    cases h : walk gstep none s with
    | error e => rw [(walk_error none s e h).1]
    | ok t =>
      obtain ⟨_, h5⟩ := (walk_ok_iff none s t).1 h
      obtain ⟨d, _, h6⟩ := h5 (i + 1) _ h2
      exfalso
      rcases h6 with ⟨_, q, hq, _, hl⟩ | ⟨hn, _⟩
      · simp only [Spec.before] at hq
        rw [h1] at hq; cases hq
        exact h4 d hl
      · exact hn ⟨rfl, p, h1, h3⟩

example : expandLongVowels u!"コーヒーとすーぱーーa" = .ok u!"コオヒイとすうぱあーa" ∧
    expandLongVowels u!"ヤー" = .error .typeError := by decide +kernel

end Cjk
