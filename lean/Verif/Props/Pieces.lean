import Verif.Props.LongVowels
/-!
# C156: texts in pieces

No model of its own: the functions of Model/Scripts.lean and Model/Alternations.lean on `a ++ b`.
-/

namespace Cjk
open Py

/-- **C156** (conversions).  Converting a text is converting its pieces. -/
theorem C156_convert (a b : Str) :
    toHiragana (a ++ b) = toHiragana a ++ toHiragana b ∧ toKatakana (a ++ b) = toKatakana a ++ toKatakana b ∧
    normalizeAscii (a ++ b) = normalizeAscii a ++ normalizeAscii b ∧
    (∃ ka kb, normalizeKana a = .ok ka ∧ normalizeKana b = .ok kb ∧ normalizeKana (a ++ b) = .ok (ka ++ kb)) ∧
    (∃ na nb, normalize a = .ok na ∧ normalize b = .ok nb ∧ normalize (a ++ b) = .ok (na ++ nb)) := by
  refine ⟨by simp [toHiragana], by simp [toKatakana], by simp [normalizeAscii, toAscii], ⟨_, _, normalizeKana_eq_convert a, normalizeKana_eq_convert b, ?_⟩, ?_⟩
  · rw [normalizeKana_eq_convert, List.map_append]
  · refine ⟨_, _, (by unfold normalize; rw [normalizeKana_eq_convert]; rfl), (by unfold normalize; rw [normalizeKana_eq_convert]; rfl), ?_⟩
    unfold normalize
    rw [normalizeKana_eq_convert, List.map_append]
    show Except.ok (normalizeAscii _) = _
    congr 1
    simp [normalizeAscii, toAscii]

theorem mapping_cons (m : ScriptMapping) (c : Chr) (s : Str) :
    m.call (c :: s) = (if m.fromStart ≤ c ∧ c ≤ m.fromEnd then unichr ((c : Int) + m.ordDiff) else .ok c).bind (fun d => (m.call s).bind (fun r => .ok (d :: r))) := by
  rw [ScriptMapping.call]
  split <;> rfl

/-- **C156** (conversions between any two scripts).  A mapping raises on a text exactly if it raises on a piece; its result is that of the pieces. -/
theorem C156_mapping (m : ScriptMapping) (a b : Str) :
    (∀ x y, m.call a = .ok x → m.call b = .ok y → m.call (a ++ b) = .ok (x ++ y)) ∧
    ((∃ z, m.call (a ++ b) = .ok z) → (∃ x, m.call a = .ok x) ∧ ∃ y, m.call b = .ok y) := by
  induction a with
  | nil => exact ⟨fun x y hx hy => by cases hx; exact hy, fun h => ⟨⟨[], rfl⟩, h⟩⟩
  | cons c a ih =>
    rw [List.cons_append, mapping_cons, mapping_cons]
    generalize (if m.fromStart ≤ c ∧ c ≤ m.fromEnd then unichr ((c : Int) + m.ordDiff) else .ok c) = d
    cases d with
    | error e => exact ⟨(fun x y hx => by cases hx), (fun ⟨z, hz⟩ => by cases hz)⟩
    | ok d =>
      simp only [Except.bind]
      constructor
      · intro x y hx hy
        cases ha : m.call a with
        | error e => rw [ha] at hx; cases hx
        | ok r =>
          rw [ha] at hx
          cases hx
          rw [ih.1 r y ha hy]
          rfl
      · rintro ⟨z, hz⟩
        cases hab : m.call (a ++ b) with
        | error e => rw [hab] at hz; cases hz
        | ok r =>
          obtain ⟨⟨x, hx⟩, hy⟩ := ih.2 ⟨r, hab⟩
          exact ⟨⟨d :: x, by rw [hx]⟩, hy⟩

/-- **C156** (scripts).  The scripts and the kanji of a text are those of its pieces. -/
theorem C156_scripts (a b : Str) (x : Script) (c : Chr) :
    (x ∈ scriptTypes (a ++ b) ↔ x ∈ scriptTypes a ∨ x ∈ scriptTypes b) ∧
    containsScript x (a ++ b) = (containsScript x a || containsScript x b) ∧
    (c ∈ uniqueKanji (a ++ b) ↔ c ∈ uniqueKanji a ∨ c ∈ uniqueKanji b) ∧
    scriptType (a ++ b) = (if a = [] then scriptType b else scriptType a) := by
  refine ⟨by simp [scriptTypes], ?_, ?_, ?_⟩
  · simp only [containsScript, scriptTypes, List.map_append, List.contains_eq_any_beq, List.any_append]
  · simp [uniqueKanji, mem_dedup, or_and_right]
  · cases a <;> rfl

theorem strLt_append {a b : Str} (h : a.length = b.length) (x y : Str) : strLt (a ++ x) (b ++ y) = (strLt a b || (decide (a = b) && strLt x y)) := by
  induction a generalizing b with
  | nil =>
    cases b with
    | nil => simp [strLt]
    | cons _ _ => simp at h
  | cons c a ih =>
    cases b with
    | nil => simp at h
    | cons d b =>
      have ih' := ih (b := b) (by simpa using h)
      simp only [List.cons_append, strLt, ih']
      by_cases h1 : c < d
      · simp [h1]
      · by_cases h2 : d < c
        · have : c ≠ d := by omega
          simp [h1, h2, this]
        · have : c = d := by omega
          subst this
          simp

/-- **C156** (order).  Texts whose first pieces have the same length are compared by these, and, if they are the same kana, by the rest. -/
theorem C156_compare (a b x y : Str) (h : a.length = b.length) :
    compareKana (a ++ x) (b ++ y) = if compareKana a b = 0 then compareKana x y else compareKana a b := by
  have hl : (toKatakana a).length = (toKatakana b).length := by simp [h]
  have key : ∀ s t : Str, toKatakana (s ++ t) = toKatakana s ++ toKatakana t := fun s t => (C156_convert s t).2.1
  rcases compareKana_cases a b with ⟨h1, h2⟩ | ⟨h1, h2⟩ | ⟨h1, h2⟩
  · have hne : toKatakana a ≠ toKatakana b := fun e => by rw [e, strLt_irrefl] at h2; cases h2
    rw [h1, if_neg (by decide)]
    simp only [compareKana, key, strLt_append hl, strLt_append hl.symm, h2, strLt_asymm h2, decide_eq_false hne, decide_eq_false (Ne.symm hne)]
    rfl
  · rw [h1, if_pos rfl]
    have e1 := strLt_append hl (toKatakana x) (toKatakana y)
    have e2 := strLt_append hl.symm (toKatakana y) (toKatakana x)
    rw [h2] at e1 e2
    simp only [strLt_irrefl, decide_true, Bool.true_and, Bool.false_or] at e1 e2
    simp only [compareKana, key, h2, e1, e2]
  · have hne : toKatakana a ≠ toKatakana b := fun e => by rw [e, strLt_irrefl] at h2; cases h2
    rw [h1, if_neg (by decide)]
    simp only [compareKana, key, strLt_append hl, strLt_append hl.symm, h2, strLt_asymm h2, decide_eq_false hne, decide_eq_false (Ne.symm hne)]
    rfl

/-! ## Blocks -/

theorem boundariesLoop_append (h : Chr) (t a b : Str) :
    ∃ pre h' t', boundariesLoop (scriptType [h]) (h :: t) a = pre ++ [h' :: t'] ∧
      boundariesLoop (scriptType [h]) (h :: t) (a ++ b) = pre ++ boundariesLoop (scriptType [h']) (h' :: t') b := by
  induction a generalizing h t with
  | nil => exact ⟨[], h, t, by simp [boundariesLoop], rfl⟩
  | cons c a ih =>
    simp only [List.cons_append, boundariesLoop]
    split
    · exact ih h (t ++ [c])
    · obtain ⟨pre, h', t', e1, e2⟩ := ih c []
      exact ⟨(h :: t) :: pre, h', t', by rw [e1]; rfl, by rw [e2]; rfl⟩

/-- The blocks of a text that is not empty, and what follows when it is continued. -/
theorem scriptBoundaries_append {a : Str} {pre : List Str} {h : Chr} {t : Str} (ha : scriptBoundaries a = pre ++ [h :: t]) (b : Str) :
    scriptBoundaries (a ++ b) = pre ++ boundariesLoop (scriptType [h]) (h :: t) b := by
  cases a with
  | nil =>
    have := congrArg List.getLast? ha
    simp [scriptBoundaries] at this
  | cons c a =>
    obtain ⟨pre', h', t', e1, e2⟩ := boundariesLoop_append c [] a b
    have e : pre' ++ [h' :: t'] = pre ++ [h :: t] := e1.symm.trans ha
    obtain ⟨e3, e4⟩ := List.append_inj' e rfl
    simp only [List.cons.injEq, and_true] at e4
    obtain ⟨rfl, rfl⟩ := e4
    subst e3
    exact e2

theorem boundariesLoop_join (ty : Script) (x cur s : Str) (hc : cur ≠ []) :
    ∃ f post, boundariesLoop ty cur s = f :: post ∧ boundariesLoop ty (x ++ cur) s = (x ++ f) :: post := by
  induction s generalizing cur with
  | nil => exact ⟨cur, [], by simp [boundariesLoop, hc], by simp [boundariesLoop, hc]⟩
  | cons c s ih =>
    simp only [boundariesLoop]
    split
    · obtain ⟨f, post, e1, e2⟩ := ih (cur ++ [c]) (by simp)
      exact ⟨f, post, e1, by rw [List.append_assoc]; exact e2⟩
    · exact ⟨cur, _, rfl, rfl⟩

/-- **C156** (blocks, exactly).  The blocks of a text are those of its pieces one after the other exactly if the second piece does not begin with a character that continues the last
block of the first. -/
theorem C156_blocks_apart (a : Str) (pre : List Str) (h : Chr) (t : Str) (ha : scriptBoundaries a = pre ++ [h :: t]) (c : Chr) (b : Str) :
    scriptBoundaries (a ++ c :: b) = scriptBoundaries a ++ scriptBoundaries (c :: b) ↔ ¬ Spec.Continues h c := by
  rw [scriptBoundaries_append ha, ha, List.append_assoc, List.append_right_inj, continues_iff]
  simp only [boundariesLoop, List.singleton_append]
  split
  · rename_i hc
    refine iff_of_false (fun e => ?_) (fun hn => hn hc)
    obtain ⟨u, rest, e'⟩ := boundariesLoop_head h (t ++ [c]) b
    rw [List.cons_append, e'] at e
    simp only [List.cons.injEq] at e
    have := congrArg List.length e.1
    simp at this
  · rename_i hc
    exact iff_of_true rfl hc

/-- **C156** (blocks of one script).  If the second piece begins in the script of the last block of the first, its first block is joined to that block and the others follow. -/
theorem C156_blocks_joined (a : Str) (pre : List Str) (h : Chr) (t : Str) (ha : scriptBoundaries a = pre ++ [h :: t]) (c : Chr) (b : Str) (x : Script)
    (hx : Spec.InScript x h) (hx' : Spec.InScript x c) :
    ∃ f post, scriptBoundaries (c :: b) = f :: post ∧ scriptBoundaries (a ++ c :: b) = pre ++ (h :: t ++ f) :: post := by
  have hty : scriptType [c] = scriptType [h] := ((scriptType_iff c [] x).2 hx').trans ((scriptType_iff h [] x).2 hx).symm
  obtain ⟨f, post, e1, e2⟩ := boundariesLoop_join (scriptType [h]) (h :: t) [c] b (by simp)
  refine ⟨f, post, by show boundariesLoop (scriptType [c]) [c] b = _; rw [hty]; exact e1, ?_⟩
  rw [scriptBoundaries_append ha]
  simp only [boundariesLoop, hty, true_or, if_true]
  rw [e2]

/-- **C156** (blocks and the long vowel mark).  A mark at the beginning of the second piece goes to the last block of the first, which goes on after it. -/
theorem C156_blocks_mark (a : Str) (pre : List Str) (h : Chr) (t : Str) (ha : scriptBoundaries a = pre ++ [h :: t]) :
    scriptBoundaries (a ++ [Spec.longMark]) = pre ++ [h :: t ++ [Spec.longMark]] := by
  rw [scriptBoundaries_append ha]
  have : (Spec.longMark : Chr) = c!"ー" := rfl
  simp [boundariesLoop, this]

/-- Every text that is not empty has a last block. -/
theorem C156_last_block (a : Str) (h : a ≠ []) : ∃ pre c t, scriptBoundaries a = pre ++ [c :: t] := by
  cases a with
  | nil => exact absurd rfl h
  | cons c a =>
    obtain ⟨pre, h', t', e, _⟩ := boundariesLoop_append c [] a []
    exact ⟨pre, h', t', e⟩

/-! ## Long vowels -/

theorem lengthens_ne_mark {p : Chr} : ¬ Spec.Lengthens p Spec.longMark := by
  have hv : ∀ k v, Spec.VowelOf k v → v ≠ Spec.longMark ∧ v ≠ 0x309c := by
    intro k v hkv
    cases hkv with
    | wa => decide
    | @grid i j k hij =>
      unfold Spec.columnVowel
      match j with
      | 0 => decide
      | 1 => decide
      | 2 => decide
      | 3 => decide
      | 4 => decide
      | j + 5 => exact ⟨by show (0 : Nat) ≠ _; decide, by show (0 : Nat) ≠ _; decide⟩
  rintro (⟨_, h⟩ | ⟨_, w, h, e⟩)
  · exact (hv _ _ h).1 rfl
  · rw [(hira_kata_convert w).1] at e
    have := hv _ _ h
    have hm : (Spec.longMark : Nat) = 0x30fc := rfl
    rw [hm] at e this
    split at e
    · exact this.2 (by have : (w : Nat) = 0x309c := by omega
                       exact this)
    · exact this.1 e.symm

/-- **C156** (long vowels, exactly).  If the long vowels of both pieces can be expanded, the result for the whole is that of the pieces exactly if it is not so that the first piece ends with a
kana and the second begins with the mark. -/
theorem C156_long (a b x y : Str) (ha : expandLongVowels a = .ok x) (hb : expandLongVowels b = .ok y) :
    expandLongVowels (a ++ b) = .ok (x ++ y) ↔ ¬ ∃ p, a.getLast? = some p ∧ Spec.IsKana p ∧ b.head? = some Spec.longMark := by
  rw [expandLongVowels_walk] at ha hb ⊢
  rw [walk_append, ha, Option.or_none]
  show ((walk gstep a.getLast? b).bind fun y' => .ok (x ++ y')) = .ok (x ++ y) ↔ _
  have hiff : (((walk gstep a.getLast? b).bind fun y' => Except.ok (x ++ y')) = .ok (x ++ y)) ↔ walk gstep a.getLast? b = .ok y := by
    cases walk gstep a.getLast? b with
    | error e => exact iff_of_false (fun h => by cases h) (fun h => by cases h)
    | ok y' => simp [Except.bind]
  rw [hiff]
  cases b with
  | nil => cases hb; exact iff_of_true rfl (fun ⟨p, _, _, h⟩ => by cases h)
  | cons c b =>
    simp only [walk, bind, gstep, Except.bind] at hb
    cases hw : walk gstep (some c) b with
    | error e => rw [hw] at hb; cases hb
    | ok z =>
      rw [hw] at hb
      simp only [Except.ok.injEq] at hb
      subst hb
      have : walk gstep a.getLast? (c :: b) = .ok (c :: z) ↔ gstep a.getLast? c = .ok c := by
        simp only [walk, bind, hw]
        cases gstep a.getLast? c with
        | error e => exact iff_of_false (fun h => by cases h) (fun h => by cases h)
        | ok d => simp [Except.bind]
      rw [this, gstep_ok_iff]
      simp only [List.head?_cons, Option.some.injEq]
      constructor
      · rintro (⟨rfl, p, _, _, hl⟩ | ⟨hn, _⟩)
        · exact absurd hl lengthens_ne_mark
        · rintro ⟨p, h1, h2, h3⟩
          exact hn ⟨h3, p, h1, h2⟩
      · intro hn
        exact Or.inr ⟨fun ⟨h1, p, h2, h3⟩ => hn ⟨p, h2, h3, h1⟩, rfl⟩

/-- **C156** (long vowels that cannot be expanded).  If expanding a piece raises `TypeError`, so does expanding the whole. -/
theorem C156_long_raises (a b : Str) (e : PyErr) (h : expandLongVowels a = .error e ∨ expandLongVowels b = .error e) :
    e = .typeError ∧ expandLongVowels (a ++ b) = .error .typeError := by
  rcases h with h | h
  · obtain ⟨rfl, i, p, h1, h2, h3⟩ := (C21_expand_long_vowels_fails a e).1 h
    refine ⟨rfl, (C21_expand_long_vowels_fails _ _).2 ⟨rfl, i, p, ?_, ?_, h3⟩⟩
    · rw [List.getElem?_append_left (List.getElem?_eq_some_iff.1 h1).1]; exact h1
    · rw [List.getElem?_append_left (List.getElem?_eq_some_iff.1 h2).1]; exact h2
  · obtain ⟨rfl, i, p, h1, h2, h3⟩ := (C21_expand_long_vowels_fails b e).1 h
    refine ⟨rfl, (C21_expand_long_vowels_fails _ _).2 ⟨rfl, a.length + i, p, ?_, ?_, h3⟩⟩
    · rw [List.getElem?_append_right (by omega), show a.length + i - a.length = i by omega]; exact h1
    · rw [List.getElem?_append_right (by omega), show a.length + i + 1 - a.length = i + 1 by omega]; exact h2

/-! ## Iteration marks -/

/-- What `insert_duplicate_kanji` returns: the loop ends with this. -/
def Inserted (s t : Str) : Prop := ∃ fuel, insertDuplicateLoop fuel s = some t

theorem inserted_iff (s t : Str) : Inserted s t ↔ t = (match s with | [] => [] | c :: s => if c = Spec.iterationMark then c :: s else c :: fill c s) := by
  have mono : ∀ fuel s u, insertDuplicateLoop fuel s = some u → ∀ k, insertDuplicateLoop (fuel + k) s = some u := by
    intro fuel
    induction fuel with
    | zero => intro s u h; cases h
    | succ fuel ih =>
      intro s u h k
      rw [show fuel + 1 + k = (fuel + k) + 1 by omega]
      unfold insertDuplicateLoop at h ⊢
      split at h
      · exact h
      · exact h
      · exact ih _ _ h k
  have det : ∀ s u v, Inserted s u → Inserted s v → u = v := by
    rintro s u v ⟨f, hf⟩ ⟨g, hg⟩
    have h1 := mono f s u hf g
    have h2 := mono g s v hg f
    rw [show g + f = f + g by omega, h1] at h2
    exact Option.some.inj h2
  have ex : Inserted s (match s with | [] => [] | c :: s => if c = Spec.iterationMark then c :: s else c :: fill c s) := by
    cases s with
    | nil => exact ⟨1, rfl⟩
    | cons c s =>
      by_cases hc : c = Spec.iterationMark
      · subst hc
        simp only [if_true]
        exact ⟨1, C20_leading_mark s 0⟩
      · simp only [if_neg hc]
        exact ⟨s.count Spec.iterationMark + 1, loop_closed _ c s hc (Nat.le_refl _) _ (Nat.lt_succ_self _)⟩
  constructor
  · intro h; exact det _ _ _ h ex
  · intro h; rw [h]; exact ex

theorem fill_no_mark {p : Chr} (hp : p ≠ Spec.iterationMark) (s : Str) : Spec.iterationMark ∉ fill p s := by
  induction s generalizing p with
  | nil => simp [fill]
  | cons c s ih =>
    simp only [fill]
    split
    · simp only [List.mem_cons, not_or]; exact ⟨fun e => hp e.symm, ih hp⟩
    · rename_i hc
      simp only [List.mem_cons, not_or]; exact ⟨fun e => hc e.symm, ih hc⟩

/-- Filling a text in pieces: the second piece is filled from the last character of the filled first piece. -/
theorem fill_pieces (p : Chr) (a s : Str) : fill p (a ++ s) = fill p a ++ fill ((fill p a).getLastD p) s := by
  induction a generalizing p with
  | nil => rfl
  | cons c a ih =>
    simp only [List.cons_append, fill]
    split
    · rw [ih p, List.cons_append, List.getLastD_cons]
    · rw [ih c, List.cons_append, List.getLastD_cons]

/-- **C156** (repeated kanji, exactly).  Inserting repeated kanji in the pieces gives the result for the whole exactly if a piece is empty, or neither piece begins with the mark 々, or the first
begins with it and the second begins with it too or has none. -/
theorem C156_repeated (a b x y : Str) (ha : Inserted a x) (hb : Inserted b y) :
    Inserted (a ++ b) (x ++ y) ↔ a = [] ∨ b = [] ∨ (a.head? ≠ some Spec.iterationMark ∧ b.head? ≠ some Spec.iterationMark) ∨
      (a.head? = some Spec.iterationMark ∧ (b.head? = some Spec.iterationMark ∨ Spec.iterationMark ∉ b)) := by
  rw [inserted_iff] at ha hb ⊢
  cases a with
  | nil => simp only at ha; subst ha; simp only [List.nil_append]; exact iff_of_true hb (Or.inl trivial)
  | cons c a =>
    cases b with
    | nil => simp only at hb; subst hb; simp only [List.append_nil]; exact iff_of_true ha (Or.inr (Or.inl trivial))
    | cons d b =>
      simp only [List.cons_append] at ha hb ⊢
      simp only [List.head?_cons, Option.some.injEq, reduceCtorEq, false_or, ne_eq]
      by_cases hc : c = Spec.iterationMark
      · rw [if_pos hc] at ha ⊢
        subst ha
        simp only [List.cons_append, List.cons.injEq, true_and, List.append_right_inj, hc, not_true, false_and, false_or]
        by_cases hd : d = Spec.iterationMark
        · rw [if_pos hd] at hb
          exact iff_of_true hb (Or.inl hd)
        · rw [if_neg hd] at hb
          subst hb
          simp only [List.cons.injEq, true_and, hd, false_or, List.mem_cons, not_or]
          constructor
          · intro e
            refine ⟨fun e' => hd e'.symm, ?_⟩
            have := fill_no_mark hd b
            rw [e] at this
            exact this
          · rintro ⟨_, h⟩
            exact fill_of_not_mem d b h
      · rw [if_neg hc] at ha ⊢
        subst ha
        simp only [List.cons_append, List.cons.injEq, true_and, hc, not_false_eq_true, false_and, or_false]
        rw [fill_pieces, List.append_right_inj]
        by_cases hd : d = Spec.iterationMark
        · rw [if_pos hd] at hb
          subst hb
          refine iff_of_false (fun e => ?_) (fun h => h hd)
          have hl : (fill c a).getLastD c ≠ Spec.iterationMark := by
            intro e'
            have hm := fill_no_mark hc a
            rw [List.getLastD_eq_getLast?] at e'
            cases hg : (fill c a).getLast? with
            | none => rw [hg] at e'; exact hc e'
            | some z =>
              rw [hg] at e'
              have : z = Spec.iterationMark := e'
              subst this
              exact hm (List.mem_of_getLast? hg)
          have := fill_no_mark hl (d :: b)
          rw [← e] at this
          exact this (by simp [hd])
        · rw [if_neg hd] at hb
          subst hb
          refine iff_of_true ?_ hd
          simp only [fill, if_neg hd]

/-! ## Cases -/

/-- Pieces that can be treated one after the other, and pieces that cannot. -/
example : scriptBoundaries u!"食べる" = [u!"食", u!"べる"] ∧ scriptBoundaries (u!"食べる" ++ u!"と") = [u!"食", u!"べると"] ∧
    scriptBoundaries (u!"カ" ++ u!"ーカナ") = [u!"カーカナ"] ∧ scriptBoundaries u!"ーカナ" = [u!"ー", u!"カナ"] := by decide

example : expandLongVowels u!"す" = .ok u!"す" ∧ expandLongVowels u!"ーぱー" = .ok u!"ーぱあ" ∧ expandLongVowels (u!"す" ++ u!"ーぱー") = .ok u!"すうぱあ" := by decide +kernel

example : Inserted u!"時" u!"時" ∧ Inserted u!"々様々" u!"々様々" ∧ Inserted (u!"時" ++ u!"々様々") u!"時時様様" := by
  refine ⟨⟨5, ?_⟩, ⟨5, ?_⟩, ⟨5, ?_⟩⟩ <;> decide +kernel

example : compareKana (u!"カ" ++ u!"ら") (u!"か" ++ u!"り") = -1 ∧ compareKana u!"カ" u!"か" = 0 := by decide

end Cjk
