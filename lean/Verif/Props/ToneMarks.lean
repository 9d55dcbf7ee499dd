import Verif.Props.PinyinTones
/-!
# C105: where the tone marks stand

The rule of the pinyin orthography: an `a` or `e` takes the mark; otherwise the `o` of `ou`; otherwise the last vowel.
-/

namespace Cjk
open Py

instance (c : Nat) : Decidable (Spec.IsVowel c) := by unfold Spec.IsVowel; exact inferInstance

/-- The position of the last vowel. -/
def Spec.lastVowel : Str → Option Nat
  | [] => none
  | c :: s =>
    match Spec.lastVowel s with
    | some i => some (i + 1)
    | none => if Spec.IsVowel c then some 0 else none

/-- The position of the first `ou`. -/
def Spec.findOu : Str → Option Nat
  | [] => none
  | c :: s => if c = c!"o" ∧ s.head? = some c!"u" then some 0 else (Spec.findOu s).map (· + 1)

/-- Where the mark belongs. -/
def Spec.markPos (s : Str) : Option Nat :=
  match s.findIdx? (fun c => decide (c = c!"a" ∨ c = c!"e")) with
  | some i => some i
  | none =>
    match Spec.findOu s with
    | some i => some i
    | none => Spec.lastVowel s

/-- A syllable with the mark of tone `t` (1 to 4) where it belongs. -/
def Spec.Marked (t : Int) (s r : Str) : Prop :=
  match Spec.markPos s with
  | none => r = s
  | some i => ∃ a v m b, s = a ++ v :: b ∧ a.length = i ∧ r = a ++ m :: b ∧ (m, v, t) ∈ Spec.marks

theorem mark_ne {m v : Nat} {t : Int} (h : (m, v, t) ∈ Spec.marks) : m ≠ v := by
  have : ∀ x ∈ Spec.marks, x.1 ≠ x.2.1 := by decide +kernel
  exact this _ h

theorem lastVowel_none {s : Str} (h : Spec.lastVowel s = none) : ∀ x ∈ s, ¬ Spec.IsVowel x := by
  induction s with
  | nil => simp
  | cons y l ihl =>
    unfold Spec.lastVowel at h
    cases hy : Spec.lastVowel l with
    | some k => rw [hy] at h; cases h
    | none =>
      rw [hy] at h
      simp only at h
      split at h
      · cases h
      · rename_i hyv
        intro x hx
        rcases List.mem_cons.1 hx with rfl | hx
        · exact hyv
        · exact ihl hy x hx

theorem lastVowel_some {s : Str} {i : Nat} (h : Spec.lastVowel s = some i) :
    (∃ v, s[i]? = some v ∧ Spec.IsVowel v) ∧ ∀ j v, s[j]? = some v → Spec.IsVowel v → j ≤ i := by
  induction s generalizing i with
  | nil => cases h
  | cons c s ih =>
    unfold Spec.lastVowel at h
    cases hl : Spec.lastVowel s with
    | some k =>
      rw [hl] at h
      cases h
      obtain ⟨⟨v, h1, h2⟩, h3⟩ := ih hl
      refine ⟨⟨v, by simpa using h1, h2⟩, ?_⟩
      intro j v hj hv
      cases j with
      | zero => omega
      | succ j =>
        have := h3 j v (by simpa using hj) hv
        omega
    | none =>
      rw [hl] at h
      simp only at h
      split at h
      · rename_i hc
        cases h
        refine ⟨⟨c, rfl, hc⟩, ?_⟩
        intro j v hj hv
        cases j with
        | zero => omega
        | succ j =>
          exfalso
          exact lastVowel_none hl v (List.mem_of_getElem? (by simpa using hj)) hv
      · cases h

theorem findOu_some {s : Str} {i : Nat} (h : Spec.findOu s = some i) : s[i]? = some c!"o" ∧ s[i + 1]? = some c!"u" := by
  induction s generalizing i with
  | nil => cases h
  | cons c s ih =>
    unfold Spec.findOu at h
    split at h
    · rename_i hc
      cases h
      refine ⟨by rw [hc.1]; rfl, ?_⟩
      cases s with
      | nil => cases hc.2
      | cons d s => exact hc.2
    · cases hf : Spec.findOu s with
      | none => rw [hf] at h; cases h
      | some k =>
        rw [hf] at h
        cases h
        simpa using ih hf

/-- The rule names a vowel. -/
theorem markPos_some {s : Str} {i : Nat} (h : Spec.markPos s = some i) :
    ∃ v, s[i]? = some v ∧ Spec.IsVowel v ∧
      (v = c!"a" ∨ v = c!"e" ∨ (v = c!"o" ∧ s[i + 1]? = some c!"u") ∨ ∀ j w, s[j]? = some w → Spec.IsVowel w → j ≤ i) := by
  unfold Spec.markPos at h
  split at h
  · rename_i k hk
    cases h
    obtain ⟨hlt, hv, _⟩ := List.findIdx?_eq_some_iff_getElem.1 hk
    simp only [decide_eq_true_eq] at hv
    refine ⟨s[i], List.getElem?_eq_getElem hlt, ?_, ?_⟩
    · unfold Spec.IsVowel
      rcases hv with hv | hv
      · exact Or.inl hv
      · exact Or.inr (Or.inl hv)
    · rcases hv with hv | hv
      · exact Or.inl hv
      · exact Or.inr (Or.inl hv)
  · split at h
    · rename_i k hk
      cases h
      obtain ⟨h1, h2⟩ := findOu_some hk
      exact ⟨_, h1, by unfold Spec.IsVowel; decide, Or.inr (Or.inr (Or.inl ⟨rfl, h2⟩))⟩
    · obtain ⟨⟨v, h1, h2⟩, h3⟩ := lastVowel_some h
      exact ⟨v, h1, h2, Or.inr (Or.inr (Or.inr h3))⟩

theorem markPos_none {s : Str} (h : Spec.markPos s = none) : ∀ x ∈ s, ¬ Spec.IsVowel x := by
  unfold Spec.markPos at h
  split at h
  · cases h
  · split at h
    · cases h
    · exact lastVowel_none h

/-- C105: the mark stands where the orthography wants it exactly if there is no vowel at all, or the vowel that the orthography wants is
the first one behind the first character. -/
theorem C105_exact (c : Nat) (s : Str) (t : Int) (h1 : 1 ≤ t) (h4 : t ≤ 4) :
    (∃ r, applyTone (c :: s) t = .ok r ∧ Spec.Marked t (c :: s) r) ↔
      (∀ x ∈ c :: s, ¬ Spec.IsVowel x) ∨
      ∃ a v b, s = a ++ v :: b ∧ (∀ x ∈ a, ¬ Spec.IsVowel x) ∧ Spec.IsVowel v ∧ Spec.markPos (c :: s) = some (a.length + 1) := by
  obtain ⟨k1, k2⟩ := C67_exact c s t (by omega) (by omega)
  constructor
  · rintro ⟨r, hr, hm⟩
    unfold Spec.Marked at hm
    cases hp : Spec.markPos (c :: s) with
    | none => exact Or.inl (markPos_none hp)
    | some i =>
      right
      rw [hp] at hm
      obtain ⟨a, v, m, b, e1, e2, e3, e4⟩ := hm
      rcases first_vowel s with hn | ⟨a', v', b', rfl, ha, hv⟩
      · rw [k1 (Or.inr (Or.inr hn))] at hr
        cases hr
        rw [e1] at e3
        have := List.append_cancel_left e3
        simp only [List.cons.injEq, and_true] at this
        exact absurd this.symm (mark_ne e4)
      · refine ⟨a', v', b', rfl, ha, hv, ?_⟩
        obtain ⟨m', hm', hmark'⟩ := k2 a' v' b' rfl ha hv (by omega) (by omega)
        rw [hm'] at hr
        cases hr
        congr 1
        by_cases hi : i = a'.length + 1
        · exact hi
        · exfalso
          have g1 : (c :: (a' ++ v' :: b'))[i]? = some v := by
            rw [e1, List.getElem?_append_right (by omega), e2, Nat.sub_self]; rfl
          have g2 : (c :: a' ++ m' :: b')[i]? = some m := by
            rw [e3, List.getElem?_append_right (by omega), e2, Nat.sub_self]; rfl
          have g3 : (c :: a' ++ m' :: b')[i]? = (c :: (a' ++ v' :: b'))[i]? := by
            rw [← List.cons_append]
            rcases Nat.lt_or_ge i (a'.length + 1) with hlt | hge
            · rw [List.getElem?_append_left (by simpa using hlt), List.getElem?_append_left (by simpa using hlt)]
            · rw [List.getElem?_append_right (by simpa using hge), List.getElem?_append_right (by simpa using hge)]
              have : i - (c :: a').length = (i - (a'.length + 1) - 1) + 1 := by simp only [List.length_cons]; omega
              rw [this]; rfl
          rw [g2, g1] at g3
          exact mark_ne e4 (Option.some.inj g3)
  · rintro (hn | ⟨a, v, b, rfl, ha, hv, hp⟩)
    · refine ⟨_, k1 (Or.inr (Or.inr (fun x hx => hn x (List.mem_cons_of_mem _ hx)))), ?_⟩
      unfold Spec.Marked
      cases hp : Spec.markPos (c :: s) with
      | none => rfl
      | some i =>
        obtain ⟨v, h1, h2, _⟩ := markPos_some hp
        exact absurd h2 (hn v (List.mem_of_getElem? h1))
    · obtain ⟨m, hm, hmark⟩ := k2 a v b rfl ha hv (by omega) (by omega)
      refine ⟨_, hm, ?_⟩
      unfold Spec.Marked
      rw [hp]
      exact ⟨c :: a, v, m, b, rfl, by simp, rfl, hmark⟩

/-- C105 (partial): a syllable that begins with consonants and then has one vowel, or `a` or `e` or `ou`, gets its mark where it belongs.
Missing: syllables with a medial, and syllables that begin with a vowel, see `C105_medial_refuted` and `C105_initial_refuted`. -/
theorem C105_partial (c : Nat) (a : Str) (v : Nat) (b : Str) (t : Int) (h1 : 1 ≤ t) (h4 : t ≤ 4)
    (ha : ∀ x ∈ c :: a, ¬ Spec.IsVowel x) (hv : Spec.IsVowel v)
    (hb : v = c!"a" ∨ v = c!"e" ∨ (v = c!"o" ∧ b.head? = some c!"u" ∧ ∀ x ∈ b, x ≠ c!"a" ∧ x ≠ c!"e") ∨ ∀ x ∈ b, ¬ Spec.IsVowel x) :
    ∃ r, applyTone (c :: a ++ v :: b) t = .ok r ∧ Spec.Marked t (c :: a ++ v :: b) r := by
  have hpos : Spec.markPos (c :: a ++ v :: b) = some (a.length + 1) := by
    have hlen : (c :: a).length = a.length + 1 := rfl
    rw [← hlen]
    generalize c :: a = p at ha
    have hae : ∀ x ∈ p, ¬ (x = c!"a" ∨ x = c!"e") := by
      intro x hx h
      apply ha x hx
      unfold Spec.IsVowel
      rcases h with h | h
      · exact Or.inl h
      · exact Or.inr (Or.inl h)
    have hfind : ∀ l : Str, (p ++ l).findIdx? (fun c => decide (c = c!"a" ∨ c = c!"e")) =
        (l.findIdx? (fun c => decide (c = c!"a" ∨ c = c!"e"))).map (· + p.length) := by
      intro l
      rw [List.findIdx?_append, List.findIdx?_eq_none_iff.2 (by intro x hx; simpa using hae x hx)]
      simp
    have hou : ∀ l : Str, Spec.findOu (p ++ l) = (Spec.findOu l).map (· + p.length) := by
      intro l
      clear hfind hae
      induction p with
      | nil => simp
      | cons x p ih =>
        rw [List.cons_append, Spec.findOu, if_neg, ih (fun y hy => ha y (List.mem_cons_of_mem _ hy))]
        · cases Spec.findOu l <;> simp [Nat.add_assoc]
        · rintro ⟨rfl, _⟩
          exact ha _ (List.mem_cons_self ..) (by unfold Spec.IsVowel; decide)
    have hlast : ∀ l : Str, (∃ i, Spec.lastVowel l = some i) → Spec.lastVowel (p ++ l) = (Spec.lastVowel l).map (· + p.length) := by
      rintro l ⟨i, hi⟩
      clear hfind hae hou ha
      induction p with
      | nil => simp
      | cons x p ih =>
        rw [List.cons_append, Spec.lastVowel, ih, hi]
        simp [Nat.add_assoc]
    by_cases hva : v = c!"a" ∨ v = c!"e"
    · unfold Spec.markPos
      rw [hfind, List.findIdx?_cons, if_pos (by simpa using hva)]
      simp
    · have hb : (v = c!"o" ∧ b.head? = some c!"u" ∧ ∀ x ∈ b, x ≠ c!"a" ∧ x ≠ c!"e") ∨ ∀ x ∈ b, ¬ Spec.IsVowel x := by
        rcases hb with h | h | h | h
        · exact absurd (Or.inl h) hva
        · exact absurd (Or.inr h) hva
        · exact Or.inl h
        · exact Or.inr h
      have hbae : ∀ x ∈ v :: b, ¬ (x = c!"a" ∨ x = c!"e") := by
        intro x hx
        rcases List.mem_cons.1 hx with rfl | hx
        · exact hva
        · rcases hb with ⟨_, _, h⟩ | h
          · rintro (h' | h')
            · exact (h x hx).1 h'
            · exact (h x hx).2 h'
          · intro h'
            apply h x hx
            unfold Spec.IsVowel
            rcases h' with h' | h'
            · exact Or.inl h'
            · exact Or.inr (Or.inl h')
      have hnone : (p ++ v :: b).findIdx? (fun c => decide (c = c!"a" ∨ c = c!"e")) = none := by
        rw [hfind, List.findIdx?_eq_none_iff.2 (by intro x hx; simpa using hbae x hx)]; rfl
      unfold Spec.markPos
      rw [hnone, hou]
      rcases hb with ⟨hvo, hbu, _⟩ | hb
      · rw [Spec.findOu, if_pos ⟨hvo, hbu⟩]
        simp
      · have h0 : Spec.findOu b = none := by
          clear hnone hfind hbae hou
          induction b with
          | nil => rfl
          | cons x b ih =>
            rw [Spec.findOu, if_neg, ih]
            · rfl
            · exact Or.inr (Or.inr (Or.inr fun y hy => hb y (List.mem_cons_of_mem _ hy)))
            · exact fun y hy => hb y (List.mem_cons_of_mem _ hy)
            · rintro ⟨rfl, _⟩
              exact hb _ (List.mem_cons_self ..) (by unfold Spec.IsVowel; decide)
        have hlb : Spec.lastVowel b = none := by
          cases hl : Spec.lastVowel b with
          | none => rfl
          | some i =>
            obtain ⟨⟨w, g1, g2⟩, _⟩ := lastVowel_some hl
            exact absurd g2 (hb w (List.mem_of_getElem? g1))
        have hl0 : Spec.lastVowel (v :: b) = some 0 := by rw [Spec.lastVowel, hlb]; simp [hv]
        rw [Spec.findOu, if_neg, h0]
        · simp only [Option.map_none]
          rw [hlast _ ⟨0, hl0⟩, hl0]
          simp
        · rintro ⟨_, hu⟩
          cases b with
          | nil => cases hu
          | cons x b =>
            cases hu
            exact hb _ (List.mem_cons_self ..) (by unfold Spec.IsVowel; decide)
  exact (C105_exact c (a ++ v :: b) t h1 h4).2 (Or.inr ⟨a, v, b, rfl, fun x hx => ha x (List.mem_cons_of_mem _ hx), hv, hpos⟩)

/-- C105 is false for every syllable with a medial: if the first vowel behind the first character is an `i`, `u` or `ü` and another vowel
follows it, the mark stands on the medial, where the orthography never wants it. -/
theorem C105_medial_refuted (c : Nat) (a : Str) (v w : Nat) (b : Str) (t : Int) (h1 : 1 ≤ t) (h4 : t ≤ 4)
    (ha : ∀ x ∈ a, ¬ Spec.IsVowel x) (hv : v = c!"i" ∨ v = c!"u" ∨ v = c!"ü") (hw : Spec.IsVowel w) :
    ∃ m, applyTone (c :: a ++ v :: w :: b) t = .ok (c :: a ++ m :: w :: b) ∧ (m, v, t) ∈ Spec.marks ∧
      ¬ Spec.Marked t (c :: a ++ v :: w :: b) (c :: a ++ m :: w :: b) := by
  have hvv : Spec.IsVowel v := by
    unfold Spec.IsVowel
    rcases hv with rfl | rfl | rfl <;> decide
  obtain ⟨m, hm, hmark⟩ := (C67_exact c (a ++ v :: w :: b) t (by omega) (by omega)).2 a v (w :: b) rfl ha hvv (by omega) (by omega)
  refine ⟨m, hm, hmark, fun hM => ?_⟩
  have := (C105_exact c (a ++ v :: w :: b) t h1 h4).1 ⟨_, hm, hM⟩
  rcases this with hn | ⟨a', v', b', e, ha', hv', hp⟩
  · exact hn v (by simp) hvv
  · -- the first vowel is the medial
    have hfirst : ∀ (a a' b b' : Str) (v v' : Nat), a ++ v :: b = a' ++ v' :: b' → (∀ x ∈ a, ¬ Spec.IsVowel x) →
        (∀ x ∈ a', ¬ Spec.IsVowel x) → Spec.IsVowel v → Spec.IsVowel v' → a = a' := by
      intro a
      induction a with
      | nil =>
        intro a' b b' v v' e _ h2 h3 _
        cases a' with
        | nil => rfl
        | cons y a' =>
          simp only [List.nil_append, List.cons_append, List.cons.injEq] at e
          exact absurd (e.1 ▸ h3) (h2 y (List.mem_cons_self ..))
      | cons x a ih =>
        intro a' b b' v v' e h1 h2 h3 h4
        cases a' with
        | nil =>
          simp only [List.nil_append, List.cons_append, List.cons.injEq] at e
          exact absurd (e.1 ▸ h4) (h1 x (List.mem_cons_self ..))
        | cons y a' =>
          simp only [List.cons_append, List.cons.injEq] at e
          rw [e.1, ih a' b b' v v' e.2 (fun z hz => h1 z (List.mem_cons_of_mem _ hz)) (fun z hz => h2 z (List.mem_cons_of_mem _ hz)) h3 h4]
    have haa := hfirst a a' _ _ v v' e ha ha' hvv hv'
    subst haa
    obtain ⟨x, hx1, _, hx3⟩ := markPos_some hp
    have hxv : x = v := by
      have : (c :: (a ++ v :: w :: b))[a.length + 1]? = some v := by simp
      rw [this] at hx1
      exact (Option.some.inj hx1).symm
    subst hxv
    rcases hx3 with rfl | rfl | ⟨rfl, _⟩ | h
    · rcases hv with h | h | h <;> exact absurd h (by decide)
    · rcases hv with h | h | h <;> exact absurd h (by decide)
    · rcases hv with h | h | h <;> exact absurd h (by decide)
    · have := h (a.length + 2) w (by simp) hw
      omega

/-- C105 is false for every syllable that begins with `a` or `e`, or with the `o` of `ou`: the mark stands further behind or nowhere. -/
theorem C105_initial_refuted (s : Str) (t : Int) (h1 : 1 ≤ t) (h4 : t ≤ 4) (c : Nat)
    (hc : c = c!"a" ∨ c = c!"e" ∨ (c = c!"o" ∧ s.head? = some c!"u" ∧ ∀ x ∈ s, x ≠ c!"a" ∧ x ≠ c!"e")) :
    ¬ ∃ r, applyTone (c :: s) t = .ok r ∧ Spec.Marked t (c :: s) r := by
  have hpos : Spec.markPos (c :: s) = some 0 := by
    unfold Spec.markPos
    rcases hc with rfl | rfl | ⟨rfl, hu, hs⟩
    · rw [List.findIdx?_cons, if_pos (by decide)]
    · rw [List.findIdx?_cons, if_pos (by decide)]
    · have : (c!"o" :: s).findIdx? (fun c => decide (c = c!"a" ∨ c = c!"e")) = none := by
        rw [List.findIdx?_eq_none_iff]
        intro x hx
        rcases List.mem_cons.1 hx with rfl | hx
        · decide
        · have := hs x hx
          simp [this.1, this.2]
      rw [this, Spec.findOu, if_pos ⟨rfl, hu⟩]
  intro h
  rcases (C105_exact c s t h1 h4).1 h with hn | ⟨a, v, b, _, _, _, hp⟩
  · apply hn c (List.mem_cons_self ..)
    unfold Spec.IsVowel
    rcases hc with rfl | rfl | ⟨rfl, _⟩ <;> decide
  · rw [hpos] at hp
    simp at hp

/- The cases: `hao`, `dou`, `xing` are right; `jia`, `gui`, `xue`, `ai` are wrong. -/
example : applyTone u!"hao" 3 = .ok u!"hǎo" ∧ applyTone u!"zhou" 1 = .ok u!"zhōu" ∧ applyTone u!"xing" 2 = .ok u!"xíng" := by decide +kernel
example : applyTone u!"jia" 4 = .ok u!"jìa" ∧ applyTone u!"gui" 4 = .ok u!"gùi" ∧ applyTone u!"xue" 2 = .ok u!"xúe" := by decide +kernel
example : Spec.markPos u!"hao" = some 1 ∧ Spec.markPos u!"zhou" = some 2 ∧ Spec.markPos u!"gui" = some 2 ∧ Spec.markPos u!"xue" = some 2 := by
  decide +kernel

end Cjk
