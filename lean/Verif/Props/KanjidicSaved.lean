import Verif.Props.KanjidicOrder
import Verif.Props.JoinedLinks
import Verif.Props.Joined
import Verif.Props.RadkSaved
/-!
# C189: a kanjidic that was read can be saved and read again
-/

namespace Cjk
open Py

/-! ### Specification -/

/-- A hexadecimal digit. -/
def Spec.hexChr (d : Nat) : Chr := if d < 10 then 0x30 + d else 0x57 + d

/-- Hexadecimal digits, least significant first. -/
def Spec.revHex (n : Nat) : Str := if n < 16 then [Spec.hexChr n] else Spec.hexChr (n % 16) :: Spec.revHex (n / 16)
termination_by n
decreasing_by omega

/-- A number in hexadecimal. -/
def Spec.hexInt (i : Int) : Str := (if i < 0 then u!"-" else []) ++ (Spec.revHex i.natAbs).reverse

/-- The letter of a code. -/
def Spec.letterFor (name : Str) : Chr :=
  ((u!"BCDEFGHIKLMNOPQSUVWXYZ").find? (fun c => Spec.codeName c = name)).getD (name.headD 0)

/-- The value of a code as it is written; the numbers 1 and 2 of the code `T` get a zero in front, since `T1` and `T2` are markers. -/
def Spec.codeText (c : Chr) : CodeVal → Str
  | .num i => (if c = c!"T" ∧ (i = 1 ∨ i = 2) then u!"0" else []) ++ showInt i
  | .text s => s

/-- The fields of an entry in the order in which they are written. -/
def Spec.savedFields (e : KEntry) : List Str :=
  e.kanji :: Spec.hexInt e.jisCode ::
    (e.codes.flatMap (fun p => p.2.map (fun v => Spec.letterFor p.1 :: Spec.codeText (Spec.letterFor p.1) v)) ++
     (e.gloss.map (fun g => u!"{" ++ g ++ u!"}") ++ (e.onReadings ++ (e.kunReadings ++
      ((c!"S" :: Spec.codeText c!"S" e.strokeCount) :: (e.frequency.toList.map (fun f => c!"F" :: Spec.codeText c!"F" f) ++
        [c!"P" :: join u!"-" (e.skipCode.map showInt)]))))))

/-- The line of an entry; it is indented if it would be a comment. -/
def Spec.savedKanji (e : KEntry) : Str :=
  (if e.kanji.head? = some c!"#" then u!" " else []) ++ join u!" " (Spec.savedFields e)

/-- The lines of a saved kanjidic. -/
def Spec.savedKanjidic (d : Dict Str KEntry) : List Str := d.map (fun p => Spec.savedKanji p.2)

/-! ### Numbers -/

theorem hexChr_facts : ∀ d < 16, digitVal 16 (Spec.hexChr d) = some d ∧ isSpace (Spec.hexChr d) = false ∧ Spec.hexChr d ≠ 0x5f ∧ Spec.hexChr d ≠ 0x2b ∧
    Spec.hexChr d ≠ 0x2d ∧ Spec.hexChr d ≠ 0x78 ∧ Spec.hexChr d ≠ 0x58 ∧ Spec.hexChr d ≠ 0x7b ∧ Spec.hexChr d ≠ 0x20 := by decide +kernel

theorem revHex_chr (n : Nat) : ∀ c ∈ Spec.revHex n, ∃ d < 16, c = Spec.hexChr d := by
  induction n using Nat.strongRecOn with
  | ind n ih =>
    unfold Spec.revHex
    split
    · rename_i h
      intro c hc
      exact ⟨n, h, List.mem_singleton.1 hc⟩
    · intro c hc
      rcases List.mem_cons.1 hc with rfl | hc
      · exact ⟨n % 16, by omega, rfl⟩
      · exact ih (n / 16) (by omega) c hc

theorem revHex_ne_nil (n : Nat) : Spec.revHex n ≠ [] := by
  unfold Spec.revHex; split <;> simp

theorem digitsVal_hex (n : Nat) : ∀ (pd : Bool) (rest : Str), digitsVal 16 0 pd ((Spec.revHex n).reverse ++ rest) = digitsVal 16 n true rest := by
  induction n using Nat.strongRecOn with
  | ind n ih =>
    intro pd rest
    unfold Spec.revHex
    split
    · rename_i h
      obtain ⟨h1, _, h2, _⟩ := hexChr_facts n h
      simp only [List.reverse_singleton, List.singleton_append]
      rw [digitsVal, if_neg h2, h1]
      simp only [Nat.zero_mul, Nat.zero_add]
    · obtain ⟨h1, _, h2, _⟩ := hexChr_facts (n % 16) (by omega)
      rw [List.reverse_cons, List.append_assoc, ih (n / 16) (by omega), List.singleton_append, digitsVal, if_neg h2, h1]
      simp only
      rw [show n / 16 * 16 + n % 16 = n by omega]

theorem unsignedVal_hex (n : Nat) : unsignedVal 16 (Spec.revHex n).reverse = some n := by
  have hd : digitsVal 16 0 false (Spec.revHex n).reverse = some n := by
    have := digitsVal_hex n false []
    rw [List.append_nil] at this
    rw [this]; rfl
  have hx : ∀ c ∈ (Spec.revHex n).reverse, c ≠ 0x78 ∧ c ≠ 0x58 := by
    intro c hc
    obtain ⟨d, h, rfl⟩ := revHex_chr n c (List.mem_reverse.1 hc)
    obtain ⟨_, _, _, _, _, h1, h2, _⟩ := hexChr_facts d h
    exact ⟨h1, h2⟩
  generalize (Spec.revHex n).reverse = s at hd hx
  unfold unsignedVal
  split
  · rename_i x rest _
    obtain ⟨h1, h2⟩ := hx x (by simp)
    rw [if_neg (by rintro (h | h); exacts [h1 h, h2 h])]
    exact hd
  · exact hd

theorem hexInt_chr (i : Int) : ∀ c ∈ Spec.hexInt i, isSpace c = false ∧ c ≠ 0x20 ∧ c ≠ 0x7b := by
  intro c hc
  unfold Spec.hexInt at hc
  rcases List.mem_append.1 hc with hc | hc
  · split at hc
    · rw [List.mem_singleton.1 hc]; decide
    · cases hc
  · obtain ⟨d, h, rfl⟩ := revHex_chr _ c (List.mem_reverse.1 hc)
    obtain ⟨_, h1, _, _, _, _, _, h2, h3⟩ := hexChr_facts d h
    exact ⟨h1, h3, h2⟩

theorem pyInt_hexInt (i : Int) : pyInt 16 (Spec.hexInt i) = .ok i := by
  unfold pyInt
  rw [strip_of_no_space (fun c hc => (hexInt_chr i c hc).1)]
  unfold Spec.hexInt
  by_cases h : i < 0
  · rw [if_pos h]
    simp only [List.singleton_append, unsignedVal_hex, Option.map_some]
    congr 1
    simp only [Int.ofNat_eq_natCast]; omega
  · rw [if_neg h]
    simp only [List.nil_append]
    have hu := unsignedVal_hex i.natAbs
    have hx : ∀ c ∈ (Spec.revHex i.natAbs).reverse, c ≠ 0x2b ∧ c ≠ 0x2d := by
      intro c hc
      obtain ⟨d, h, rfl⟩ := revHex_chr _ c (List.mem_reverse.1 hc)
      obtain ⟨_, _, _, h1, h2, _⟩ := hexChr_facts d h
      exact ⟨h1, h2⟩
    generalize (Spec.revHex i.natAbs).reverse = s at hu hx
    cases s with
    | nil => simp [unsignedVal, digitsVal] at hu
    | cons x t =>
      obtain ⟨h1, h2⟩ := hx x (by simp)
      split
      · rename_i j hj
        revert hj
        split
        · rename_i heq; cases heq; exact absurd rfl h1
        · rename_i heq; cases heq; exact absurd rfl h2
        · rw [hu]; intro hj
          simp only [Option.map_some, Option.some.injEq, Int.ofNat_eq_natCast] at hj
          rw [← hj]; congr 1; omega
      · rename_i hj
        revert hj
        split
        · rename_i heq; cases heq; exact absurd rfl h1
        · rename_i heq; cases heq; exact absurd rfl h2
        · rw [hu]; intro hj; cases hj

theorem digitsVal_dash (ds rest : Str) (h : ∀ c ∈ ds, AsciiDigit c) : ∀ acc pd, digitsVal 10 acc pd (ds ++ 0x2d :: rest) = none := by
  induction ds with
  | nil =>
    intro acc pd
    rw [List.nil_append, digitsVal, if_neg (by decide), show digitVal 10 0x2d = none by decide +kernel]
  | cons c ds ih =>
    intro acc pd
    have hc := h c (by simp)
    unfold AsciiDigit at hc
    have hv : digitVal 10 c = some (c - 0x30) := by
      have := digitVal_ascii (d := c - 0x30) (by omega)
      rwa [show 0x30 + (c - 0x30) = c by omega] at this
    rw [List.cons_append, digitsVal, if_neg (by omega), hv]
    exact ih (fun x hx => h x (by simp [hx])) _ _

theorem pyInt_nonneg {p : Str} (h : 0x2d ∉ p) {i : Int} (hi : pyInt 10 p = .ok i) : 0 ≤ i := by
  unfold pyInt at hi
  have hs : 0x2d ∉ strip p := fun hc => h (mem_strip hc)
  generalize strip p = s at hi hs
  have : ∀ (o : Option Nat), (match o.map Int.ofNat with | some i => Except.ok i | none => Except.error PyErr.valueError) = Except.ok i → 0 ≤ i := by
    intro o ho
    cases o with
    | none => cases ho
    | some n => simp only [Option.map_some, Except.ok.injEq] at ho; rw [← ho]; exact Int.natCast_nonneg n
  simp only at hi
  split at hi
  · rename_i j hj
    cases hi
    revert hj
    split
    · intro hj; exact this _ (by rw [hj])
    · exact absurd (by simp) hs
    · intro hj; exact this _ (by rw [hj])
  · cases hi

/-- A skip code with at least two parts. -/
theorem skip_reads {l : List Int} (h2 : 2 ≤ l.length) (hn : ∀ i ∈ l, 0 ≤ i) :
    (∀ c ∈ join u!"-" (l.map showInt), c = 0x2d ∨ AsciiDigit c) ∧ codeVal (join u!"-" (l.map showInt)) = .text (join u!"-" (l.map showInt)) ∧
      mapE (pyInt 10) (splitChr 0x2d (join u!"-" (l.map showInt))) = .ok l := by
  have hd : ∀ p ∈ l.map showInt, ∀ c ∈ p, AsciiDigit c := by
    intro p hp
    obtain ⟨i, hi, rfl⟩ := List.mem_map.1 hp
    have := hn i hi
    unfold showInt
    rw [if_neg (by omega)]
    exact showNat_digits _
  have hne : l.map showInt ≠ [] := by intro h; rw [List.map_eq_nil_iff] at h; subst h; simp at h2
  have hchr : ∀ (ps : List Str), (∀ p ∈ ps, ∀ c ∈ p, AsciiDigit c) → ∀ c ∈ join u!"-" ps, c = 0x2d ∨ AsciiDigit c := by
    intro ps
    induction ps with
    | nil => intro _ c hc; simp [join] at hc
    | cons p ps ih =>
      intro h c hc
      cases ps with
      | nil => exact .inr (h p (by simp) c (by simpa [join] using hc))
      | cons q ps =>
        rw [join_cons_cons] at hc
        simp only [List.mem_append, List.mem_singleton] at hc
        rcases hc with (hc | hc) | hc
        · exact .inr (h p (by simp) c hc)
        · exact .inl hc
        · exact ih (fun x hx => h x (by simp [hx])) c hc
  refine ⟨hchr _ hd, ?_, ?_⟩
  · have hsp : ∀ c ∈ join u!"-" (l.map showInt), isSpace c = false := by
      intro c hc
      rcases hchr _ hd c hc with rfl | hc
      · decide
      · exact asciiDigit_not_space hc
    unfold codeVal
    have : pyInt 10 (join u!"-" (l.map showInt)) = .error .valueError := by
      unfold pyInt
      rw [strip_of_no_space hsp]
      match l, h2, hd with
      | a :: b :: l, _, hd =>
        have ha := hd (showInt a) (by simp)
        have hne : showInt a ≠ [] := by unfold showInt; split <;> simp [showNat_ne_nil]
        simp only [List.map_cons, join_cons_cons, List.append_assoc, List.singleton_append]
        generalize join u!"-" (showInt b :: l.map showInt) = rest
        have hu : unsignedVal 10 (showInt a ++ 0x2d :: rest) = none := by
          have e : unsignedVal 10 (showInt a ++ 0x2d :: rest) = digitsVal 10 0 false (showInt a ++ 0x2d :: rest) := by unfold unsignedVal; rfl
          rw [e]
          exact digitsVal_dash _ _ ha _ _
        generalize showInt a = s at ha hne hu
        cases s with
        | nil => exact absurd rfl hne
        | cons x t =>
          have hx := ha x (by simp)
          unfold AsciiDigit at hx
          have h1 : x ≠ 0x2b := by omega
          have h2 : x ≠ 0x2d := by omega
          rw [List.cons_append] at hu ⊢
          split
          · rename_i j hj
            revert hj
            split
            · rename_i heq; cases heq; exact absurd rfl h1
            · rename_i heq; cases heq; exact absurd rfl h2
            · rw [hu]; intro hj; cases hj
          · rfl
    rw [this]
  · rw [splitChr_join _ _ hne (fun p hp hc => by have := hd p hp _ hc; unfold AsciiDigit at this; omega)]
    clear hne hchr hd hn h2
    induction l with
    | nil => rfl
    | cons a l ih => simp only [List.map_cons, mapE, pyInt_showInt, ih, bind_ok]

/-! ### Letters of codes -/

theorem letterFor_codeName (c : Chr) : Spec.letterFor (Spec.codeName c) = c := by
  by_cases hc : c < 0x41 ∨ 0x5a < c
  · have e : Spec.codeName c = [c] := by
      unfold Spec.codeName
      repeat' rw [if_neg (by omega)]
    rw [e]
    unfold Spec.letterFor
    have : (u!"BCDEFGHIKLMNOPQSUVWXYZ").find? (fun x => Spec.codeName x = [c]) = none := by
      rw [List.find?_eq_none]
      intro x hx
      have hl : ∀ x ∈ u!"BCDEFGHIKLMNOPQSUVWXYZ", (Spec.codeName x).length ≠ 1 := by decide +kernel
      simp only [decide_eq_true_eq]
      intro h
      exact hl x hx (by rw [h]; rfl)
    rw [this]; rfl
  · have : c ∈ List.range' 0x41 26 := by rw [List.mem_range'_1]; omega
    clear hc
    revert this; revert c
    decide +kernel

/-! ### Tokens -/

/-- Characters that neither separate fields nor open a gloss. -/
def WeakChars (s : Str) : Prop := ∀ c ∈ s, c ≠ 0x20 ∧ c ≠ 0x7b

/-- What the pattern matches. -/
def SegToken (u : Str) : Prop := (u ≠ [] ∧ WeakChars u) ∨ ∃ g, u = u!"{" ++ g ++ u!"}" ∧ c!"}" ∉ g ∧ 0x0a ∉ g

theorem SegToken.ne_nil {u : Str} (h : SegToken u) : u ≠ [] := by
  rcases h with h | ⟨g, rfl, _⟩
  · exact h.1
  · simp

theorem weak_class {s : Str} (h : WeakChars s) : ∀ x ∈ s, (x != 0x20 && x != 0x7b) = true := by
  intro x hx
  obtain ⟨h1, h2⟩ := h x hx
  simp [h1, h2]

theorem segments_cons {u t : Str} (hu : SegToken u) (ht : ∀ c, t.head? = some c → c = 0x20) : segments (u ++ t) = u :: segments t := by
  unfold segments
  rw [Re.finditer_match _ u t [] hu.ne_nil]
  · rfl
  · rcases hu with hu | ⟨g, rfl, hg⟩
    · refine Re.first_alt_left (Re.first_plus u t [] hu.1 (weak_class hu.2) ?_)
      intro x hx; rw [ht x hx]; rfl
    · exact segment_gloss g t hg.1 hg.2

theorem segments_of_join (toks : List Str) (h : ∀ u ∈ toks, SegToken u) : segments (join u!" " toks) = toks := by
  have hnil : segments [] = [] := by
    unfold segments; rw [Re.finditer_nil _ (by decide +kernel)]; rfl
  induction toks with
  | nil => exact hnil
  | cons u toks ih =>
    cases toks with
    | nil =>
      have := segments_cons (t := []) (h u (by simp)) (by simp)
      rw [hnil, List.append_nil] at this
      exact this
    | cons v toks =>
      rw [join_cons_cons, List.append_assoc, segments_cons (h u (by simp)) (by simp)]
      congr 1
      refine Eq.trans ?_ (ih (fun w hw => h w (by simp [hw])))
      unfold segments
      rw [List.singleton_append, Re.finditer_skip _ _ _ (segment_space _)]

/-- At any place the pattern matches a token or nothing. -/
theorem first_segment (s : Str) : segmentPattern.first s [] = none ∨ ∃ u t, s = u ++ t ∧ SegToken u ∧ segmentPattern.first (u ++ t) [] = some (t, []) := by
  cases s with
  | nil => exact .inl (by decide +kernel)
  | cons x s =>
    by_cases h20 : x = 0x20
    · subst h20; exact .inl (segment_space s)
    by_cases h7b : x = 0x7b
    · subst h7b
      by_cases hg : c!"}" ∈ s ∧ 0x0a ∉ s.takeWhile (· ≠ c!"}")
      · right
        have e : s = s.takeWhile (· ≠ c!"}") ++ s.dropWhile (· ≠ c!"}") := List.takeWhile_append_dropWhile.symm
        cases hd : s.dropWhile (· ≠ c!"}") with
        | nil =>
          rw [hd, List.append_nil] at e
          have := List.all_eq_true.1 (List.all_takeWhile (p := (· ≠ c!"}")) (l := s)) _ (e ▸ hg.1)
          simp at this
        | cons y t =>
          have hy : y = c!"}" := by
            have := List.head_dropWhile_not (p := (· ≠ c!"}")) (l := s) (by rw [hd]; simp)
            simp only [hd, List.head_cons] at this
            simpa using this
          subst hy
          rw [hd] at e
          have hn : c!"}" ∉ s.takeWhile (· ≠ c!"}") := by
            intro hc
            have := List.all_eq_true.1 (List.all_takeWhile (p := (· ≠ c!"}")) (l := s)) _ hc
            simp at this
          generalize s.takeWhile (· ≠ c!"}") = g at *
          refine ⟨u!"{" ++ g ++ u!"}", t, ?_, .inr ⟨g, rfl, hn, hg.2⟩, segment_gloss g t hn hg.2⟩
          rw [e]; simp
      · left
        rw [Re.first_eq_none]
        simp only [segmentPattern, Re.run, Re.plus, Re.cat, Re.lit, List.append_eq_nil_iff]
        refine ⟨by simp, ?_⟩
        simp only [beq_self_eq_true, if_true, List.flatMap_cons, List.flatMap_nil, List.append_nil]
        rw [List.flatMap_eq_nil_iff]
        rintro ⟨t, c⟩ ht
        simp only [List.mem_map, Prod.mk.injEq] at ht
        obtain ⟨t', ht', rfl, rfl⟩ := ht
        obtain ⟨v, hv, hp⟩ := (Re.fewSplits_mem _ _).1 ht'
        cases t' with
        | nil => rfl
        | cons y t' =>
          simp only
          split
          · rename_i hy
            exfalso
            simp only [beq_iff_eq] at hy
            subst hy
            refine hg ⟨by rw [hv]; simp, fun hc => ?_⟩
            have hpre : s.takeWhile (· ≠ c!"}") <+: v := by
              rw [hv, List.takeWhile_append]
              split
              · simp
              · exact List.takeWhile_prefix _
            have := hp _ (hpre.subset hc)
            exact absurd this (by decide)
          · rfl
    · right
      have e : x :: s = (x :: s).takeWhile (fun c => c != 0x20 && c != 0x7b) ++ (x :: s).dropWhile (fun c => c != 0x20 && c != 0x7b) :=
        List.takeWhile_append_dropWhile.symm
      refine ⟨_, _, e, ?_, ?_⟩
      · left
        refine ⟨by simp [h20, h7b], ?_⟩
        intro c hc
        have := List.all_eq_true.1 List.all_takeWhile c hc
        simpa using this
      · refine Re.first_alt_left (Re.first_plus _ _ [] (by simp [h20, h7b]) ?_ ?_)
        · intro c hc; exact List.all_eq_true.1 List.all_takeWhile c hc
        · intro c hc
          cases hd : (x :: s).dropWhile (fun c => c != 0x20 && c != 0x7b) with
          | nil => rw [hd] at hc; cases hc
          | cons y t =>
            have := List.head_dropWhile_not (p := (fun c => c != 0x20 && c != 0x7b)) (l := x :: s) (by rw [hd]; simp)
            rw [hd] at hc
            simp only [List.head?_cons, Option.some.injEq] at hc
            subst hc
            simpa only [hd, List.head_cons] using this

theorem segments_tokens (s : Str) : ∀ u ∈ segments s, SegToken u := by
  generalize hn : s.length = n
  induction n using Nat.strongRecOn generalizing s with
  | ind n ih =>
    rcases first_segment s with h | ⟨u, t, rfl, hu, h⟩
    · cases s with
      | nil =>
        intro u hu
        unfold segments at hu
        rw [Re.finditer_nil _ h] at hu
        cases hu
      | cons x s =>
        intro u hu
        unfold segments at hu
        rw [Re.finditer_skip _ _ _ h] at hu
        exact ih s.length (by rw [← hn]; simp) s rfl u hu
    · intro w hw
      unfold segments at hw
      rw [Re.finditer_match _ u t [] hu.ne_nil h] at hw
      rcases List.mem_cons.1 hw with rfl | hw
      · exact hu
      · have := List.length_pos_iff.2 hu.ne_nil
        exact ih t.length (by rw [← hn, List.length_append]; omega) t rfl w hw

/-! ### What is known of an entry that was read -/

/-- The value of a code that was read. -/
def ValueFits : CodeVal → Prop
  | .num _ => True
  | .text s => WeakChars s ∧ ∀ i, pyInt 10 s ≠ .ok i

/-- A reading whose first kana belongs to the script. -/
def ReadingFits (x : Script) (r : Str) : Prop :=
  WeakChars r ∧ ∃ (hy : Bool) (c : Chr) (rest : Str), r = (if hy then u!"-" else []) ++ c :: rest ∧ Spec.InScript x c

/-- A letter that can begin a code. -/
def LetterFits (c : Chr) : Prop := Spec.InScript .ascii c ∧ c ≠ 0x2d ∧ c ≠ 0x7b

/-- What the loop has collected. -/
structure InfoFits (i : KInfo) : Prop where
  gloss : ∀ g ∈ i.gloss, c!"}" ∉ g ∧ 0x0a ∉ g
  on : ∀ r ∈ i.on, ReadingFits .katakana r
  kun : ∀ r ∈ i.kun, ReadingFits .hiragana r
  wf : Dict.WF i.codes
  codes : ∀ n l, Dict.get? i.codes n = some l → l ≠ [] ∧ (∀ v ∈ l, ValueFits v) ∧ ∃ c, LetterFits c ∧ n = Spec.codeName c

theorem codeVal_fits {s : Str} (h : WeakChars s) : ValueFits (codeVal s) := by
  unfold codeVal
  cases hp : pyInt 10 s with
  | ok i => trivial
  | error e => exact ⟨h, fun i hi => by rw [hp] at hi; cases hi⟩

theorem weak_of_token {s : Str} (h : SegToken s) (hb : startsWith s u!"{" = false) : s ≠ [] ∧ WeakChars s := by
  rcases h with h | ⟨g, rfl, _⟩
  · exact h
  · simp [startsWith, List.isPrefixOf] at hb

theorem segmentStep_fits {i j : KInfo} {s : Str} (hs : SegToken s) (hi : InfoFits i) (h : segmentStep i s = .ok j) : InfoFits j := by
  unfold segmentStep at h
  cases hb : startsWith s u!"{" with
  | true =>
    rw [hb, if_pos rfl] at h
    cases h
    refine ⟨?_, hi.on, hi.kun, hi.wf, hi.codes⟩
    intro g hg
    rcases List.mem_append.1 hg with hg | hg
    · exact hi.gloss g hg
    · rw [List.mem_singleton.1 hg]
      rcases hs with hs | ⟨g', rfl, hg'⟩
      · rw [startsWith_singleton] at hb
        exact absurd rfl (hs.2 _ (List.mem_of_head? hb)).2
      · simpa using hg'
  | false =>
    obtain ⟨hne, hw⟩ := weak_of_token hs hb
    rw [hb, if_neg (by simp)] at h
    cases s with
    | nil => exact absurd rfl hne
    | cons c0 s =>
      have hg0 : getItem (c0 :: s) 0 = .ok c0 := rfl
      split at h
      · rename_i hr
        simp only [hg0, bind_ok] at h
        have key : ∃ (char : Chr) (hy : Bool) (rest : Str), c0 :: s = (if hy then u!"-" else []) ++ char :: rest ∧
            (if scriptType [char] = .katakana then .ok { i with on := i.on ++ [c0 :: s] }
              else if scriptType [char] = .hiragana then .ok { i with kun := i.kun ++ [c0 :: s] }
              else .error .genericException : Except PyErr KInfo) = .ok j := by
          split at h
          · rename_i e
            subst e
            cases s with
            | nil => cases h
            | cons y s => exact ⟨y, true, s, rfl, h⟩
          · exact ⟨c0, false, s, rfl, h⟩
        clear h
        obtain ⟨char, hy, rest, e, h⟩ := key
        split at h
        · rename_i hk
          cases h
          refine ⟨hi.gloss, ?_, hi.kun, hi.wf, hi.codes⟩
          intro r hr
          rcases List.mem_append.1 hr with hr | hr
          · exact hi.on r hr
          · rw [List.mem_singleton.1 hr]
            exact ⟨hw, hy, char, rest, e, (scriptType_iff char [] .katakana).1 hk⟩
        · split at h
          · rename_i hk
            cases h
            refine ⟨hi.gloss, hi.on, ?_, hi.wf, hi.codes⟩
            intro r hr
            rcases List.mem_append.1 hr with hr | hr
            · exact hi.kun r hr
            · rw [List.mem_singleton.1 hr]
              exact ⟨hw, hy, char, rest, e, (scriptType_iff char [] .hiragana).1 hk⟩
          · cases h
      · rename_i hr
        split at h
        · cases h; exact hi
        · simp only [hg0, bind_ok, codeName_eq, List.tail_cons] at h
          cases h
          refine ⟨hi.gloss, hi.on, hi.kun, Dict.WF_set hi.wf _ _, ?_⟩
          intro n l hl
          simp only [Dict.get?_set] at hl
          split at hl
          · rename_i e
            cases hl
            simp only [not_or, ne_eq, Decidable.not_not, Bool.not_eq_true] at hr
            refine ⟨by simp, ?_, c0, ⟨(scriptType_iff c0 s .ascii).1 hr.1, ?_, (hw c0 (by simp)).2⟩, e.symm⟩
            · intro v hv
              rcases List.mem_append.1 hv with hv | hv
              · cases hg : Dict.get? i.codes (Spec.codeName c0) with
                | none => rw [hg] at hv; cases hv
                | some l => rw [hg] at hv; exact (hi.codes _ l hg).2.1 v hv
              · rw [List.mem_singleton.1 hv]
                exact codeVal_fits (fun c hc => hw c (by simp [hc]))
            · rintro rfl
              simp [startsWith, List.isPrefixOf] at hr
          · exact hi.codes n l hl

theorem segmentLoop_fits {i j : KInfo} {ss : List Str} (hs : ∀ s ∈ ss, SegToken s) (hi : InfoFits i) (h : segmentLoop i ss = .ok j) : InfoFits j := by
  induction ss generalizing i with
  | nil => cases h; exact hi
  | cons s ss ih =>
    unfold segmentLoop at h
    cases hst : segmentStep i s with
    | error e => rw [hst] at h; cases h
    | ok k =>
      rw [hst] at h
      exact ih (fun x hx => hs x (by simp [hx])) (segmentStep_fits (hs s (by simp)) hi hst) h

/-- The three codes that are turned into single values. -/
def singleNames : List Str := [u!"stroke_count", u!"frequency", u!"skip_code"]

/-- What holds of an entry that was read. -/
structure KanjiRead (e : KEntry) : Prop where
  kanji : SegToken e.kanji
  gloss : ∀ g ∈ e.gloss, c!"}" ∉ g ∧ 0x0a ∉ g
  on : ∀ r ∈ e.onReadings, ReadingFits .katakana r
  kun : ∀ r ∈ e.kunReadings, ReadingFits .hiragana r
  stroke : ValueFits e.strokeCount
  freq : ∀ f, e.frequency = some f → ValueFits f
  skip : 2 ≤ e.skipCode.length ∧ ∀ i ∈ e.skipCode, 0 ≤ i
  wf : Dict.WF e.codes
  codes : ∀ p ∈ e.codes, p.2 ≠ [] ∧ (∀ v ∈ p.2, ValueFits v) ∧ p.1 ∉ singleNames ∧ ∃ c, LetterFits c ∧ p.1 = Spec.codeName c

theorem firstCode_fits {j : KInfo} (hj : InfoFits j) {n : Str} {v : CodeVal} (h : firstCode j n = .ok v) : ValueFits v := by
  unfold firstCode Dict.getItem at h
  cases hg : Dict.get? j.codes n with
  | none => rw [hg] at h; cases h
  | some l =>
    rw [hg] at h
    simp only [bind_ok] at h
    cases l with
    | nil => cases h
    | cons x l => cases h; exact (hj.codes n _ hg).2.1 _ List.mem_cons_self

theorem kanjidicLine_read {l : Str} {e : KEntry} (h : kanjidicLine l = .ok e) : KanjiRead e := by
  unfold kanjidicLine at h
  have htok := segments_tokens (strip l)
  cases hs : segments (strip l) with
  | nil => rw [hs] at h; cases h
  | cons kanji ss =>
    cases ss with
    | nil => rw [hs] at h; cases h
    | cons jis rest =>
      rw [hs] at h htok
      simp only at h
      cases h1 : pyInt 16 jis with
      | error er => rw [h1] at h; cases h
      | ok jisCode =>
      rw [h1] at h
      simp only [bind_ok] at h
      cases h2 : segmentLoop ⟨[], [], [], []⟩ rest with
      | error er => rw [h2] at h; cases h
      | ok info =>
      rw [h2] at h
      simp only [bind_ok] at h
      have hinfo : InfoFits info := segmentLoop_fits (fun s hs => htok s (by simp [hs]))
        ⟨by simp, by simp, by simp, Dict.WF_nil, by intro n l hl; cases hl⟩ h2
      cases h3 : firstCode info u!"stroke_count" with
      | error er => rw [h3] at h; cases h
      | ok strokes =>
      rw [h3] at h
      simp only [bind_ok] at h
      cases h4 : frequencyOf info with
      | error er => rw [h4] at h; cases h
      | ok freq =>
      rw [h4] at h
      simp only [bind_ok] at h
      cases h5 : firstCode info u!"skip_code" with
      | error er => rw [h5] at h; cases h
      | ok skip =>
      rw [h5] at h
      simp only [bind_ok] at h
      cases skip with
      | num k => cases h
      | text s =>
      simp only at h
      cases h6 : mapE (pyInt 10) (splitChr 0x2d s) with
      | error er => rw [h6] at h; cases h
      | ok sk =>
      rw [h6] at h
      simp only [bind_ok] at h
      cases h
      have hw := hinfo.wf
      have hw1 := Dict.WF_del hw u!"stroke_count"
      have hw2 := Dict.WF_del hw1 u!"frequency"
      have hw3 := Dict.WF_del hw2 u!"skip_code"
      refine ⟨htok kanji (by simp), hinfo.gloss, hinfo.on, hinfo.kun, firstCode_fits hinfo h3, ?_, ?_, hw3, ?_⟩
      · intro f hf
        simp only at hf
        subst hf
        unfold frequencyOf at h4
        split at h4
        · cases h7 : firstCode info u!"frequency" with
          | error er => rw [h7] at h4; cases h4
          | ok f' => rw [h7] at h4; cases h4; exact firstCode_fits hinfo h7
        · cases h4
      · simp only
        have hfit := (firstCode_fits hinfo h5).2
        obtain ⟨hl, _⟩ := mapE_ok_iff.1 h6
        refine ⟨?_, ?_⟩
        · rw [hl]
          by_cases hd : 0x2d ∈ s
          · rw [splitChr_length]
            have := List.count_pos_iff.2 hd
            omega
          · rw [splitChr_of_not_mem hd] at h6
            simp only [mapE] at h6
            cases h7 : pyInt 10 s with
            | error er => rw [h7] at h6; cases h6
            | ok i => exact absurd h7 (hfit i)
        · intro i hi
          obtain ⟨p, hp, hpi⟩ := mapE_result h6 i hi
          exact pyInt_nonneg (not_mem_of_mem_splitChr hp) hpi
      · rintro ⟨n, l⟩ hp
        have hg := (Dict.get?_eq_some_iff hw3 n l).2 hp
        rw [Dict.get?_del hw2, Dict.get?_del hw1, Dict.get?_del hw] at hg
        split at hg
        · cases hg
        split at hg
        · cases hg
        split at hg
        · cases hg
        rename_i n3 n2 n1
        obtain ⟨a, b, c⟩ := hinfo.codes n l hg
        refine ⟨a, b, ?_, c⟩
        simp only [singleNames, List.mem_cons, List.not_mem_nil, or_false, not_or]
        exact ⟨fun e => n1 (by rw [e]), fun e => n2 (by rw [e]), fun e => n3 (by rw [e])⟩

/-! ### Reading a written line -/

theorem showInt_inj {a b : Int} (h : showInt a = showInt b) : a = b := by
  have := pyInt_showInt a
  rw [h, pyInt_showInt] at this
  cases this; rfl

theorem showInt_weak (i : Int) : WeakChars (showInt i) := by
  intro c hc
  unfold showInt at hc
  have : c = 0x2d ∨ AsciiDigit c := by
    split at hc
    · rcases List.mem_cons.1 hc with h | h
      · exact .inl h
      · exact .inr (showNat_digits _ c h)
    · exact .inr (showNat_digits _ c hc)
  unfold AsciiDigit at this
  omega

theorem codeText_reads (c : Chr) {v : CodeVal} (h : ValueFits v) :
    codeVal (Spec.codeText c v) = v ∧ WeakChars (Spec.codeText c v) ∧ c :: Spec.codeText c v ≠ u!"T1" ∧ c :: Spec.codeText c v ≠ u!"T2" := by
  cases v with
  | text s =>
    have hv : codeVal s = .text s := by
      unfold codeVal
      cases hp : pyInt 10 s with
      | ok i => exact absurd hp (h.2 i)
      | error e => rfl
    refine ⟨hv, h.1, ?_, ?_⟩
    · intro e
      simp only [Spec.codeText, List.cons.injEq] at e
      exact h.2 1 (by rw [e.2]; decide +kernel)
    · intro e
      simp only [Spec.codeText, List.cons.injEq] at e
      exact h.2 2 (by rw [e.2]; decide +kernel)
  | num i =>
    simp only [Spec.codeText]
    by_cases ht : c = c!"T" ∧ (i = 1 ∨ i = 2)
    · rw [if_pos ht]
      obtain ⟨rfl, rfl | rfl⟩ := ht
      · refine ⟨by decide +kernel, ?_, by decide +kernel, by decide +kernel⟩
        intro c hc
        rcases List.mem_append.1 hc with hc | hc
        · rw [List.mem_singleton.1 hc]; decide
        · exact showInt_weak 1 c hc
      · refine ⟨by decide +kernel, ?_, by decide +kernel, by decide +kernel⟩
        intro c hc
        rcases List.mem_append.1 hc with hc | hc
        · rw [List.mem_singleton.1 hc]; decide
        · exact showInt_weak 2 c hc
    · rw [if_neg ht, List.nil_append]
      refine ⟨by unfold codeVal; rw [pyInt_showInt], showInt_weak i, ?_, ?_⟩
      · intro e
        simp only [List.cons.injEq] at e
        exact ht ⟨e.1, .inl (showInt_inj (e.2.trans (by decide +kernel)))⟩
      · intro e
        simp only [List.cons.injEq] at e
        exact ht ⟨e.1, .inr (showInt_inj (e.2.trans (by decide +kernel)))⟩

theorem step_code (i : KInfo) {c : Chr} (hc : LetterFits c) {v : Str} (h1 : c :: v ≠ u!"T1") (h2 : c :: v ≠ u!"T2") :
    segmentStep i (c :: v) = .ok { i with codes := Dict.set i.codes (Spec.codeName c) ((Dict.get? i.codes (Spec.codeName c)).getD [] ++ [codeVal v]) } := by
  unfold segmentStep
  rw [if_neg (by simp only [startsWith, List.isPrefixOf, Bool.and_true, beq_iff_eq]; exact fun e => hc.2.2 e.symm)]
  rw [if_neg (by
    simp only [ne_eq, scriptType_iff, hc.1, not_true, false_or, startsWith, List.isPrefixOf, Bool.and_true, beq_iff_eq]
    exact fun e => hc.2.1 e.symm)]
  rw [if_neg (by rintro (e | e); exacts [h1 e, h2 e])]
  simp only [getItem, List.getElem?_cons_zero, bind_ok, codeName_eq, List.tail_cons]

theorem loop_gloss (gs : List Str) (i : KInfo) (rest : List Str) :
    segmentLoop i (gs.map (fun g => u!"{" ++ g ++ u!"}") ++ rest) = segmentLoop { i with gloss := i.gloss ++ gs } rest := by
  induction gs generalizing i with
  | nil => simp
  | cons g gs ih =>
    have hstep : segmentStep i (u!"{" ++ g ++ u!"}") = .ok { i with gloss := i.gloss ++ [g] } := by
      unfold segmentStep
      rw [if_pos (by simp [startsWith])]
      simp
    rw [List.map_cons, List.cons_append, segmentLoop, hstep, bind_ok, ih]
    simp only [List.append_assoc, List.singleton_append]

theorem step_reading (i : KInfo) {x : Script} (hx : x = .katakana ∨ x = .hiragana) {r : Str} (hr : ReadingFits x r) :
    segmentStep i r = .ok (if x = .katakana then { i with on := i.on ++ [r] } else { i with kun := i.kun ++ [r] }) := by
  obtain ⟨_, hy, c, rest, rfl, hc⟩ := hr
  have hkana : Spec.InScript .katakana c ∨ Spec.InScript .hiragana c := by
    rcases hx with rfl | rfl
    · exact .inl hc
    · exact .inr hc
  have hc2d : c ≠ 0x2d := by simp only [Spec.InScript] at hkana; omega
  have hc7b : c ≠ 0x7b := by simp only [Spec.InScript] at hkana; omega
  unfold segmentStep
  rw [if_neg (by
    cases hy
    · simp only [startsWith, List.isPrefixOf, Bool.and_true, Bool.false_eq_true, if_false, List.nil_append, beq_iff_eq]
      exact fun e => hc7b e.symm
    · simp [startsWith, List.isPrefixOf])]
  rw [if_pos (by
    cases hy
    · left
      simp only [Bool.false_eq_true, if_false, List.nil_append]
      rw [ne_eq, scriptType_iff]
      simp only [Spec.InScript] at hkana ⊢; omega
    · right; simp [startsWith, List.isPrefixOf])]
  rcases hx with rfl | rfl
  · cases hy <;> simp [getItem, hc2d, (scriptType_iff c [] .katakana).2 hc]
  · have : scriptType [c] = .hiragana := (scriptType_iff c [] .hiragana).2 hc
    cases hy <;> simp [getItem, hc2d, this]

theorem loop_on (rs : List Str) (i : KInfo) (rest : List Str) (h : ∀ r ∈ rs, ReadingFits .katakana r) :
    segmentLoop i (rs ++ rest) = segmentLoop { i with on := i.on ++ rs } rest := by
  induction rs generalizing i with
  | nil => simp
  | cons r rs ih =>
    rw [List.cons_append, segmentLoop, step_reading i (.inl rfl) (h r (by simp)), if_pos rfl]
    simp only [bind_ok, ih _ (fun x hx => h x (by simp [hx])), List.append_assoc, List.singleton_append]

theorem loop_kun (rs : List Str) (i : KInfo) (rest : List Str) (h : ∀ r ∈ rs, ReadingFits .hiragana r) :
    segmentLoop i (rs ++ rest) = segmentLoop { i with kun := i.kun ++ rs } rest := by
  induction rs generalizing i with
  | nil => simp
  | cons r rs ih =>
    rw [List.cons_append, segmentLoop, step_reading i (.inr rfl) (h r (by simp)), if_neg (by decide)]
    simp only [bind_ok, ih _ (fun x hx => h x (by simp [hx])), List.append_assoc, List.singleton_append]

theorem set_last (a : Dict Str (List CodeVal)) (n : Str) (l l' : List CodeVal) (h : n ∉ Dict.keys a) :
    Dict.get? (a ++ [(n, l)]) n = some l ∧ Dict.set (a ++ [(n, l)]) n l' = a ++ [(n, l')] := by
  constructor
  · rw [dict_get?_append, (Dict.get?_eq_none_iff a n).2 h]
    simp [Dict.get?_cons]
  · rw [dict_set_append _ _ h]
    simp [Dict.set]

theorem loop_values (vs : List CodeVal) {c : Chr} (hc : LetterFits c) (hv : ∀ v ∈ vs, ValueFits v) (g o k : List Str) (a : Dict Str (List CodeVal))
    (ha : Spec.codeName c ∉ Dict.keys a) (done : List CodeVal) (rest : List Str) :
    segmentLoop ⟨g, o, k, a ++ [(Spec.codeName c, done)]⟩ (vs.map (fun v => c :: Spec.codeText c v) ++ rest) =
      segmentLoop ⟨g, o, k, a ++ [(Spec.codeName c, done ++ vs)]⟩ rest := by
  induction vs generalizing done with
  | nil => simp
  | cons v vs ih =>
    obtain ⟨h1, _, h3, h4⟩ := codeText_reads c (hv v (by simp))
    obtain ⟨s1, s2⟩ := set_last a (Spec.codeName c) done (done ++ [v]) ha
    rw [List.map_cons, List.cons_append, segmentLoop, step_code _ hc h3 h4]
    simp only [bind_ok, s1, Option.getD_some, h1, s2]
    rw [ih (fun x hx => hv x (by simp [hx]))]
    simp

theorem loop_code {c : Chr} (hc : LetterFits c) {l : List CodeVal} (hl : l ≠ []) (hv : ∀ v ∈ l, ValueFits v) (g o k : List Str)
    (a : Dict Str (List CodeVal)) (ha : Spec.codeName c ∉ Dict.keys a) (rest : List Str) :
    segmentLoop ⟨g, o, k, a⟩ (l.map (fun v => c :: Spec.codeText c v) ++ rest) = segmentLoop ⟨g, o, k, a ++ [(Spec.codeName c, l)]⟩ rest := by
  cases l with
  | nil => exact absurd rfl hl
  | cons v vs =>
    obtain ⟨h1, _, h3, h4⟩ := codeText_reads c (hv v (by simp))
    rw [List.map_cons, List.cons_append, segmentLoop, step_code _ hc h3 h4]
    simp only [bind_ok, (Dict.get?_eq_none_iff a _).2 ha, Option.getD_none, List.nil_append, h1, Dict.set_of_not_mem a _ _ ha]
    rw [loop_values vs hc (fun x hx => hv x (by simp [hx])) g o k a ha]
    rfl

theorem loop_codes (cs : Dict Str (List CodeVal)) (g o k : List Str) (a : Dict Str (List CodeVal)) (hw : Dict.WF (a ++ cs))
    (h : ∀ p ∈ cs, p.2 ≠ [] ∧ (∀ v ∈ p.2, ValueFits v) ∧ ∃ c, LetterFits c ∧ p.1 = Spec.codeName c) (rest : List Str) :
    segmentLoop ⟨g, o, k, a⟩ (cs.flatMap (fun p => p.2.map (fun v => Spec.letterFor p.1 :: Spec.codeText (Spec.letterFor p.1) v)) ++ rest) =
      segmentLoop ⟨g, o, k, a ++ cs⟩ rest := by
  induction cs generalizing a with
  | nil => simp
  | cons p cs ih =>
    obtain ⟨n, l⟩ := p
    obtain ⟨h1, h2, c, hc, e⟩ := h (n, l) (by simp)
    simp only at h1 h2 e
    subst e
    have ha : Spec.codeName c ∉ Dict.keys a := by
      intro hk
      unfold Dict.WF Dict.keys at hw
      rw [List.map_append, List.nodup_append] at hw
      exact hw.2.2 _ hk _ (by simp) rfl
    rw [List.flatMap_cons, List.append_assoc, letterFor_codeName, loop_code hc h1 h2 g o k a ha, ih]
    · simp
    · simpa using hw
    · exact fun q hq => h q (by simp [hq])

/-- Removing the last key of a dictionary. -/
theorem del_after {a : Dict Str (List CodeVal)} {n : Str} (h : n ∉ Dict.keys a) (l : List CodeVal) (b : Dict Str (List CodeVal)) :
    Dict.del (a ++ (n, l) :: b) n = a ++ b := by
  induction a with
  | nil => simp [Dict.del]
  | cons p a ih =>
    obtain ⟨n', l'⟩ := p
    simp only [Dict.keys_cons, List.mem_cons, not_or] at h
    rw [List.cons_append, Dict.del, if_neg (fun e => h.1 e.symm), ih h.2, List.cons_append]

theorem del_absent {a : Dict Str (List CodeVal)} {n : Str} (h : n ∉ Dict.keys a) : Dict.del a n = a := by
  induction a with
  | nil => rfl
  | cons p a ih =>
    obtain ⟨n', l'⟩ := p
    simp only [Dict.keys_cons, List.mem_cons, not_or] at h
    rw [Dict.del, if_neg (fun e => h.1 e.symm), ih h.2]

theorem firstCode_at (g o k : List Str) {a : Dict Str (List CodeVal)} {n : Str} (h : n ∉ Dict.keys a) (v : CodeVal) (b : Dict Str (List CodeVal)) :
    firstCode ⟨g, o, k, a ++ (n, [v]) :: b⟩ n = .ok v := by
  unfold firstCode Dict.getItem
  simp only [dict_get?_append, (Dict.get?_eq_none_iff a n).2 h, Dict.get?_cons, if_true, Option.none_or]
  rfl

theorem keys_snoc (a : Dict Str (List CodeVal)) (n : Str) (l : List CodeVal) : Dict.keys (a ++ [(n, l)]) = Dict.keys a ++ [n] := by
  simp [Dict.keys]

/-- The fields of an entry that was read are read as this entry. -/
theorem savedFields_loop {e : KEntry} (h : KanjiRead e) : ∃ info, segmentLoop ⟨[], [], [], []⟩ (Spec.savedFields e).tail.tail = .ok info ∧
    info.gloss = e.gloss ∧ info.on = e.onReadings ∧ info.kun = e.kunReadings ∧ firstCode info u!"stroke_count" = .ok e.strokeCount ∧
    frequencyOf info = .ok e.frequency ∧ firstCode info u!"skip_code" = .ok (.text (join u!"-" (e.skipCode.map showInt))) ∧
    Dict.del (Dict.del (Dict.del info.codes u!"stroke_count") u!"frequency") u!"skip_code" = e.codes := by
  have hn : ∀ n ∈ singleNames, n ∉ Dict.keys e.codes := by
    intro n hn hk
    obtain ⟨l, hl⟩ := (Dict.mem_keys_iff e.codes n).1 hk
    exact (h.codes _ hl).2.2.1 hn
  have hs := hn u!"stroke_count" (by simp [singleNames])
  have hf := hn u!"frequency" (by simp [singleNames])
  have hp := hn u!"skip_code" (by simp [singleNames])
  have hS : LetterFits c!"S" := by unfold LetterFits; decide
  have hF : LetterFits c!"F" := by unfold LetterFits; decide
  have hP : LetterFits c!"P" := by unfold LetterFits; decide
  obtain ⟨s1, _, s3, s4⟩ := codeText_reads c!"S" h.stroke
  obtain ⟨_, p1, _⟩ := skip_reads h.skip.1 h.skip.2
  have e0 : (Spec.savedFields e).tail.tail = e.codes.flatMap (fun p => p.2.map (fun v => Spec.letterFor p.1 :: Spec.codeText (Spec.letterFor p.1) v)) ++
     (e.gloss.map (fun g => u!"{" ++ g ++ u!"}") ++ (e.onReadings ++ (e.kunReadings ++
      ((c!"S" :: Spec.codeText c!"S" e.strokeCount) :: (e.frequency.toList.map (fun f => c!"F" :: Spec.codeText c!"F" f) ++
        [c!"P" :: join u!"-" (e.skipCode.map showInt)]))))) := rfl
  rw [e0, loop_codes e.codes [] [] [] [] (by simpa using h.wf) (fun p hp => ⟨(h.codes p hp).1, (h.codes p hp).2.1, (h.codes p hp).2.2.2⟩),
    loop_gloss, loop_on _ _ _ h.on, loop_kun _ _ _ h.kun]
  simp only [List.nil_append]
  rw [segmentLoop, step_code _ hS s3 s4]
  simp only [bind_ok, s1, show Spec.codeName c!"S" = u!"stroke_count" by decide, (Dict.get?_eq_none_iff e.codes _).2 hs, Option.getD_none,
    List.nil_append, Dict.set_of_not_mem e.codes _ _ hs]
  cases hfr : e.frequency with
  | none =>
    have hp' : u!"skip_code" ∉ Dict.keys (e.codes ++ [(u!"stroke_count", [e.strokeCount])]) := by
      rw [keys_snoc]; simp [hp]
    have hf' : u!"frequency" ∉ Dict.keys (e.codes ++ [(u!"stroke_count", [e.strokeCount]), (u!"skip_code", [CodeVal.text (join u!"-" (e.skipCode.map showInt))])]) := by
      simp only [Dict.keys, List.map_append, List.map_cons, List.map_nil, List.mem_append, not_or]
      exact ⟨hf, by decide⟩
    simp only [Option.toList, List.map_nil, List.nil_append]
    rw [segmentLoop, step_code _ hP (by simp) (by simp)]
    simp only [bind_ok, p1, show Spec.codeName c!"P" = u!"skip_code" by decide, (Dict.get?_eq_none_iff _ _).2 hp', Option.getD_none,
      List.nil_append, Dict.set_of_not_mem _ _ _ hp', segmentLoop]
    refine ⟨_, rfl, rfl, rfl, rfl, ?_, ?_, ?_, ?_⟩
    · simp only [List.append_assoc, List.singleton_append]
      exact firstCode_at _ _ _ hs _ _
    · unfold frequencyOf
      simp only [List.append_assoc, List.singleton_append]
      rw [if_neg (by rw [Dict.contains_iff]; exact hf')]
    · exact firstCode_at _ _ _ hp' _ []
    · simp only [List.append_assoc, List.singleton_append]
      rw [del_after hs, del_absent (n := u!"frequency") (by rw [keys_snoc]; simp [hf]), del_after hp, List.append_nil]
  | some f =>
    obtain ⟨f1, _, f3, f4⟩ := codeText_reads c!"F" (h.freq f hfr)
    have hf' : u!"frequency" ∉ Dict.keys (e.codes ++ [(u!"stroke_count", [e.strokeCount])]) := by
      rw [keys_snoc]; simp [hf]
    have hp' : u!"skip_code" ∉ Dict.keys (e.codes ++ [(u!"stroke_count", [e.strokeCount])] ++ [(u!"frequency", [f])]) := by
      rw [keys_snoc, keys_snoc]; simp [hp]
    simp only [Option.toList, List.map_cons, List.map_nil, List.cons_append, List.nil_append]
    rw [segmentLoop, step_code _ hF f3 f4]
    simp only [bind_ok, f1, show Spec.codeName c!"F" = u!"frequency" by decide, (Dict.get?_eq_none_iff _ _).2 hf', Option.getD_none,
      List.nil_append, Dict.set_of_not_mem _ _ _ hf']
    rw [segmentLoop, step_code _ hP (by simp) (by simp)]
    simp only [bind_ok, p1, show Spec.codeName c!"P" = u!"skip_code" by decide, (Dict.get?_eq_none_iff _ _).2 hp', Option.getD_none,
      List.nil_append, Dict.set_of_not_mem _ _ _ hp', segmentLoop]
    refine ⟨_, rfl, rfl, rfl, rfl, ?_, ?_, ?_, ?_⟩
    · simp only [List.append_assoc, List.singleton_append]
      exact firstCode_at _ _ _ hs _ _
    · unfold frequencyOf
      rw [if_pos (by
        rw [Dict.contains_iff]
        simp [Dict.keys])]
      have := firstCode_at e.gloss e.onReadings e.kunReadings hf' f [(u!"skip_code", [CodeVal.text (join u!"-" (e.skipCode.map showInt))])]
      simp only [List.append_assoc, List.singleton_append, List.cons_append, List.nil_append] at this ⊢
      rw [this]
      rfl
    · exact firstCode_at _ _ _ hp' _ []
    · simp only [List.append_assoc, List.singleton_append, List.cons_append, List.nil_append]
      rw [del_after hs, del_after hf, del_after hp, List.append_nil]

theorem savedFields_tokens {e : KEntry} (h : KanjiRead e) : ∀ u ∈ Spec.savedFields e, SegToken u := by
  have hcode : ∀ (c : Chr) (v : Str), (c ≠ 0x20 ∧ c ≠ 0x7b) → WeakChars v → SegToken (c :: v) := by
    intro c v hc hv
    refine .inl ⟨by simp, ?_⟩
    intro x hx
    rcases List.mem_cons.1 hx with rfl | hx
    · exact hc
    · exact hv x hx
  intro u hu
  simp only [Spec.savedFields, List.mem_cons, List.mem_append, List.mem_flatMap, List.mem_map, Option.mem_toList, List.not_mem_nil, or_false] at hu
  rcases hu with rfl | rfl | ⟨p, hp, v, hv, rfl⟩ | ⟨g, hg, rfl⟩ | hr | hr | rfl | ⟨f, hf, rfl⟩ | rfl
  · exact h.kanji
  · refine .inl ⟨?_, fun c hc => (hexInt_chr _ c hc).2⟩
    unfold Spec.hexInt
    simp [revHex_ne_nil]
  · obtain ⟨_, h2, _, c, hc, e1⟩ := h.codes p hp
    rw [e1, letterFor_codeName]
    refine hcode _ _ ⟨?_, hc.2.2⟩ (codeText_reads c (h2 v hv)).2.1
    rintro rfl
    exact absurd hc.1 (by decide)
  · exact .inr ⟨g, rfl, h.gloss g hg⟩
  · obtain ⟨h1, hy, c, rest, e1, _⟩ := h.on u hr
    exact .inl ⟨by rw [e1]; simp, h1⟩
  · obtain ⟨h1, hy, c, rest, e1, _⟩ := h.kun u hr
    exact .inl ⟨by rw [e1]; simp, h1⟩
  · exact hcode _ _ (by decide) (codeText_reads _ h.stroke).2.1
  · exact hcode _ _ (by decide) (codeText_reads _ (h.freq f hf)).2.1
  · refine hcode _ _ (by decide) ?_
    intro c hc
    have := (skip_reads h.skip.1 h.skip.2).1 c hc
    unfold AsciiDigit at this
    omega

theorem join_ending (sep : Str) (ts : List Str) (u : Str) (hu : u ≠ []) : (join sep (ts ++ [u])).getLast? = u.getLast? := by
  induction ts with
  | nil => rfl
  | cons t ts ih =>
    cases hts : ts ++ [u] with
    | nil => simp at hts
    | cons w ws =>
      rw [List.cons_append, hts, join_cons_cons, List.getLast?_append, ← hts, ih, List.getLast?_eq_some_getLast hu]; rfl

/-- The characters of a saved line do not end in white space. -/
theorem savedFields_last {e : KEntry} (h : KanjiRead e) (c : Chr) (hc : (join u!" " (Spec.savedFields e)).getLast? = some c) : isSpace c = false := by
  have e0 : ∃ ts, Spec.savedFields e = ts ++ [c!"P" :: join u!"-" (e.skipCode.map showInt)] := by
    unfold Spec.savedFields
    exact ⟨e.kanji :: Spec.hexInt e.jisCode ::
    (e.codes.flatMap (fun p => p.2.map (fun v => Spec.letterFor p.1 :: Spec.codeText (Spec.letterFor p.1) v)) ++
     (e.gloss.map (fun g => u!"{" ++ g ++ u!"}") ++ (e.onReadings ++ (e.kunReadings ++
      ((c!"S" :: Spec.codeText c!"S" e.strokeCount) :: (e.frequency.toList.map (fun f => c!"F" :: Spec.codeText c!"F" f))))))), by simp⟩
  obtain ⟨ts, e0⟩ := e0
  rw [e0, join_ending _ _ _ (by simp)] at hc
  rcases List.mem_cons.1 (List.mem_of_getLast? hc) with rfl | hc
  · decide
  · rcases (skip_reads h.skip.1 h.skip.2).1 c hc with rfl | hc
    · decide
    · exact asciiDigit_not_space hc

/-- **C189**.  The line of an entry that was read is read as this entry, if its kanji does not begin with white space. -/
theorem C189_line {l : Str} {e : KEntry} (h : kanjidicLine l = .ok e) (hk : ∀ c, e.kanji.head? = some c → isSpace c = false) :
    kanjidicLine (Spec.savedKanji e ++ [0x0a]) = .ok e ∧ (Spec.savedKanji e ++ [0x0a]).head? ≠ some c!"#" := by
  have hr := kanjidicLine_read h
  have hne := hr.kanji.ne_nil
  have hhead : (join u!" " (Spec.savedFields e)).head? = e.kanji.head? := join_head _ _ _ hne
  constructor
  · have hstrip : strip (Spec.savedKanji e ++ [0x0a]) = join u!" " (Spec.savedFields e) := by
      unfold Spec.savedKanji
      have hbody : strip (join u!" " (Spec.savedFields e) ++ [0x0a]) = join u!" " (Spec.savedFields e) := by
        refine strip_append ?_ ?_ (savedFields_last hr) (by decide)
        · intro h0
          rw [h0] at hhead
          cases hkj : e.kanji with
          | nil => exact hne hkj
          | cons => rw [hkj] at hhead; cases hhead
        · rw [hhead]; exact hk
      rw [List.append_assoc]
      split
      · unfold strip at hbody ⊢
        rw [lstrip_append_space (by decide)]
        exact hbody
      · rw [List.nil_append]; exact hbody
    obtain ⟨info, i1, i2, i3, i4, i5, i6, i7, i8⟩ := savedFields_loop hr
    unfold kanjidicLine
    rw [hstrip, segments_of_join _ (savedFields_tokens hr)]
    have e0 : Spec.savedFields e = e.kanji :: Spec.hexInt e.jisCode :: (Spec.savedFields e).tail.tail := rfl
    rw [e0]
    simp only [pyInt_hexInt, bind_ok, i1, i5, i6, i7, (skip_reads hr.skip.1 hr.skip.2).2.2, i2, i3, i4, i8]
  · unfold Spec.savedKanji
    split
    · simp
    · rename_i hh
      rw [List.nil_append, List.head?_append, hhead]
      cases hkj : e.kanji with
      | nil => exact absurd hkj hne
      | cons x k => rw [hkj] at hh; simpa using hh

/-- The entries of a kanjidic come from its lines. -/
theorem kanjidicLoop_entries {Q : Str → Prop} (ls : List Str) : ∀ (d0 d : Dict Str KEntry), Dict.WF d0 →
    (∀ p ∈ d0, p.1 = p.2.kanji ∧ ∃ l, Q l ∧ kanjidicLine l = .ok p.2) → (∀ l ∈ ls, Q l) →
      kanjidicLoop d0 ls = .ok d → Dict.WF d ∧ ∀ p ∈ d, p.1 = p.2.kanji ∧ ∃ l, Q l ∧ kanjidicLine l = .ok p.2 := by
  induction ls with
  | nil => intro d0 d hw hd _ h; cases h; exact ⟨hw, hd⟩
  | cons l ls ih =>
    intro d0 d hw hd hq h
    unfold kanjidicLoop at h
    split at h
    · exact ih d0 d hw hd (fun x hx => hq x (by simp [hx])) h
    · cases hl : kanjidicLine l with
      | error er => rw [hl] at h; cases h
      | ok e =>
        rw [hl] at h
        refine ih _ d (Dict.WF_set hw _ _) ?_ (fun x hx => hq x (by simp [hx])) h
        rintro ⟨n, e'⟩ hp
        have hg := (Dict.get?_eq_some_iff (Dict.WF_set hw _ _) n e').2 hp
        rw [Dict.get?_set] at hg
        split at hg
        · rename_i e1
          cases hg
          exact ⟨e1.symm, l, hq l (by simp), hl⟩
        · exact hd _ (Dict.mem_of_get?_eq_some hg)

theorem kanjidicLine_info_wf {info : KInfo} {rest : List Str} (h : segmentLoop ⟨[], [], [], []⟩ rest = .ok info) : Dict.WF info.codes := by
  have : ∀ (ss : List Str) (i j : KInfo), Dict.WF i.codes → segmentLoop i ss = .ok j → Dict.WF j.codes := by
    intro ss
    induction ss with
    | nil => intro i j hi h; cases h; exact hi
    | cons s ss ih =>
      intro i j hi h
      unfold segmentLoop at h
      cases hst : segmentStep i s with
      | error e => rw [hst] at h; cases h
      | ok k =>
        rw [hst] at h
        refine ih k j ?_ h
        unfold segmentStep at hst
        split at hst
        · cases hst; exact hi
        · split at hst
          · cases s with
            | nil => cases hst
            | cons c0 s =>
              simp only [show getItem (c0 :: s) 0 = .ok c0 from rfl, bind_ok] at hst
              have hk : ∀ char, (if scriptType [char] = .katakana then .ok { i with on := i.on ++ [c0 :: s] }
                  else if scriptType [char] = .hiragana then .ok { i with kun := i.kun ++ [c0 :: s] }
                  else .error .genericException : Except PyErr KInfo) = .ok k → Dict.WF k.codes := by
                intro char h
                split at h
                · cases h; exact hi
                · split at h
                  · cases h; exact hi
                  · cases h
              split at hst
              · cases s with
                | nil => cases hst
                | cons y s => exact hk y hst
              · exact hk c0 hst
          · split at hst
            · cases hst; exact hi
            · cases s with
              | nil => cases hst
              | cons c0 s => cases hst; exact Dict.WF_set hi _ _
  exact this rest _ info Dict.WF_nil h

/-- **C189**.  A kanjidic that was read and saved is read as the same kanjidic. -/
theorem C189_saved {files : List (List Str)} {d : Dict Str KEntry} (h : kanjidic files = .ok d)
    (hk : ∀ p ∈ d, ∀ c, p.1.head? = some c → isSpace c = false) : kanjidic [(Spec.savedKanjidic d).map (fun l => l ++ u!"\n")] = .ok d := by
  unfold kanjidic at h
  split at h
  · cases h
  obtain ⟨hw, hd⟩ := kanjidicLoop_entries (Q := fun _ => True) _ [] d Dict.WF_nil (by simp) (by simp) h
  unfold kanjidic
  rw [if_neg (by simp), kanjidicLoop_eq]
  have hlines : ∀ p ∈ d, kanjidicLine (Spec.savedKanji p.2 ++ [0x0a]) = .ok p.2 ∧ (Spec.savedKanji p.2 ++ [0x0a]).head? ≠ some c!"#" := by
    intro p hp
    obtain ⟨e1, l, _, hl⟩ := hd p hp
    exact C189_line hl (e1 ▸ hk p hp)
  simp only [List.flatten_cons, List.flatten_nil, List.append_nil]
  have hmm : (Spec.savedKanjidic d).map (fun l => l ++ u!"\n") = d.map (fun p => Spec.savedKanji p.2 ++ [0x0a]) := by
    unfold Spec.savedKanjidic
    rw [List.map_map]; rfl
  rw [hmm]
  have hfil : (d.map (fun p => Spec.savedKanji p.2 ++ [0x0a])).filter (fun l => l.head? ≠ some c!"#") = d.map (fun p => Spec.savedKanji p.2 ++ [0x0a]) := by
    rw [List.filter_eq_self]
    intro l hl
    obtain ⟨p, hp, rfl⟩ := List.mem_map.1 hl
    simpa using (hlines p hp).2
  rw [hfil]
  have hmap : mapE kanjidicLine (d.map (fun p => Spec.savedKanji p.2 ++ [0x0a])) = .ok (d.map Prod.snd) := by
    clear hfil hmm h hk hw hd
    induction d with
    | nil => rfl
    | cons p d ih => simp only [List.map_cons, mapE, (hlines p (by simp)).1, ih (fun q hq => hlines q (by simp [hq])), bind_ok]
  rw [hmap, bind_ok]
  have hid : (d.map Prod.snd).map (fun e => (e.kanji, e)) = d := by
    rw [List.map_map]
    conv => rhs; rw [← List.map_id d]
    refine List.map_congr_left ?_
    rintro ⟨n, e⟩ hp
    have := (hd _ hp).1
    simp only at this
    simp [this]
  rw [hid]
  congr 1
  exact Dict.ofList_of_nodup d hw

/-! ### Files -/

theorem segments_sub (s : Str) : ∀ u ∈ segments s, ∀ c ∈ u, c ∈ s := by
  generalize hn : s.length = n
  induction n using Nat.strongRecOn generalizing s with
  | ind n ih =>
    rcases first_segment s with h | ⟨u, t, rfl, hu, h⟩
    · cases s with
      | nil =>
        intro u hu
        unfold segments at hu
        rw [Re.finditer_nil _ h] at hu
        cases hu
      | cons x s =>
        intro u hu c hc
        unfold segments at hu
        rw [Re.finditer_skip _ _ _ h] at hu
        exact List.mem_cons_of_mem _ (ih s.length (by rw [← hn]; simp) s rfl u hu c hc)
    · intro w hw c hc
      unfold segments at hw
      rw [Re.finditer_match _ u t [] hu.ne_nil h] at hw
      rcases List.mem_cons.1 hw with rfl | hw
      · exact List.mem_append_left _ hc
      · have := List.length_pos_iff.2 hu.ne_nil
        exact List.mem_append_right _ (ih t.length (by rw [← hn, List.length_append]; omega) t rfl w hw c hc)

/-- The characters of a value. -/
def ValueAll (P : Chr → Prop) : CodeVal → Prop
  | .num _ => True
  | .text s => ∀ c ∈ s, P c

/-- The characters of what the loop has collected. -/
structure InfoAll (P : Chr → Prop) (i : KInfo) : Prop where
  gloss : ∀ g ∈ i.gloss, ∀ c ∈ g, P c
  on : ∀ r ∈ i.on, ∀ c ∈ r, P c
  kun : ∀ r ∈ i.kun, ∀ c ∈ r, P c
  codes : ∀ n l, Dict.get? i.codes n = some l → (∀ v ∈ l, ValueAll P v) ∧ ∃ c, P c ∧ n = Spec.codeName c

theorem segmentStep_all {P : Chr → Prop} {i j : KInfo} {s : Str} (hs : ∀ c ∈ s, P c) (hi : InfoAll P i) (h : segmentStep i s = .ok j) : InfoAll P j := by
  unfold segmentStep at h
  split at h
  · cases h
    refine ⟨?_, hi.on, hi.kun, hi.codes⟩
    intro g hg
    rcases List.mem_append.1 hg with hg | hg
    · exact hi.gloss g hg
    · rw [List.mem_singleton.1 hg]
      exact fun c hc => hs c (List.mem_of_mem_tail ((List.dropLast_sublist _).subset hc))
  · split at h
    · have key : ∃ (char : Chr), (if scriptType [char] = .katakana then .ok { i with on := i.on ++ [s] }
              else if scriptType [char] = .hiragana then .ok { i with kun := i.kun ++ [s] }
              else .error .genericException : Except PyErr KInfo) = .ok j := by
        cases s with
        | nil => cases h
        | cons c0 s =>
          simp only [show getItem (c0 :: s) 0 = .ok c0 from rfl, bind_ok] at h
          split at h
          · cases s with
            | nil => cases h
            | cons y s => exact ⟨y, h⟩
          · exact ⟨c0, h⟩
      clear h
      obtain ⟨char, h⟩ := key
      split at h
      · cases h
        refine ⟨hi.gloss, ?_, hi.kun, hi.codes⟩
        intro r hr
        rcases List.mem_append.1 hr with hr | hr
        · exact hi.on r hr
        · rw [List.mem_singleton.1 hr]; exact hs
      · split at h
        · cases h
          refine ⟨hi.gloss, hi.on, ?_, hi.codes⟩
          intro r hr
          rcases List.mem_append.1 hr with hr | hr
          · exact hi.kun r hr
          · rw [List.mem_singleton.1 hr]; exact hs
        · cases h
    · split at h
      · cases h; exact hi
      · cases s with
        | nil => cases h
        | cons c0 s =>
          simp only [show getItem (c0 :: s) 0 = .ok c0 from rfl, bind_ok, codeName_eq, List.tail_cons] at h
          cases h
          refine ⟨hi.gloss, hi.on, hi.kun, ?_⟩
          intro n l hl
          simp only [Dict.get?_set] at hl
          split at hl
          · rename_i e
            cases hl
            refine ⟨?_, c0, hs c0 (by simp), e.symm⟩
            intro v hv
            rcases List.mem_append.1 hv with hv | hv
            · cases hg : Dict.get? i.codes (Spec.codeName c0) with
              | none => rw [hg] at hv; cases hv
              | some l => rw [hg] at hv; exact (hi.codes _ l hg).1 v hv
            · rw [List.mem_singleton.1 hv]
              unfold codeVal
              split
              · trivial
              · exact fun c hc => hs c (by simp [hc])
          · exact hi.codes n l hl

theorem segmentLoop_all {P : Chr → Prop} {i j : KInfo} {ss : List Str} (hs : ∀ s ∈ ss, ∀ c ∈ s, P c) (hi : InfoAll P i) (h : segmentLoop i ss = .ok j) :
    InfoAll P j := by
  induction ss generalizing i with
  | nil => cases h; exact hi
  | cons s ss ih =>
    unfold segmentLoop at h
    cases hst : segmentStep i s with
    | error e => rw [hst] at h; cases h
    | ok k =>
      rw [hst] at h
      exact ih (fun x hx => hs x (by simp [hx])) (segmentStep_all (hs s (by simp)) hi hst) h

theorem firstCode_all {P : Chr → Prop} {j : KInfo} (hj : InfoAll P j) {n : Str} {v : CodeVal} (h : firstCode j n = .ok v) : ValueAll P v := by
  unfold firstCode Dict.getItem at h
  cases hg : Dict.get? j.codes n with
  | none => rw [hg] at h; cases h
  | some l =>
    rw [hg] at h
    simp only [bind_ok] at h
    cases l with
    | nil => cases h
    | cons x l => cases h; exact (hj.codes n _ hg).1 _ List.mem_cons_self

theorem kanjidicLine_parts {l : Str} {e : KEntry} (h : kanjidicLine l = .ok e) : ∃ jis rest info,
    segments (strip l) = e.kanji :: jis :: rest ∧ segmentLoop ⟨[], [], [], []⟩ rest = .ok info ∧ e.gloss = info.gloss ∧ e.onReadings = info.on ∧
    e.kunReadings = info.kun ∧ firstCode info u!"stroke_count" = .ok e.strokeCount ∧ frequencyOf info = .ok e.frequency ∧
    e.codes = Dict.del (Dict.del (Dict.del info.codes u!"stroke_count") u!"frequency") u!"skip_code" := by
  unfold kanjidicLine at h
  cases hs : segments (strip l) with
  | nil => rw [hs] at h; cases h
  | cons kanji ss =>
    cases ss with
    | nil => rw [hs] at h; cases h
    | cons jis rest =>
      rw [hs] at h
      simp only at h
      cases h1 : pyInt 16 jis with
      | error er => rw [h1] at h; cases h
      | ok jisCode =>
      rw [h1] at h
      simp only [bind_ok] at h
      cases h2 : segmentLoop ⟨[], [], [], []⟩ rest with
      | error er => rw [h2] at h; cases h
      | ok info =>
      rw [h2] at h
      simp only [bind_ok] at h
      cases h3 : firstCode info u!"stroke_count" with
      | error er => rw [h3] at h; cases h
      | ok strokes =>
      rw [h3] at h
      simp only [bind_ok] at h
      cases h4 : frequencyOf info with
      | error er => rw [h4] at h; cases h
      | ok freq =>
      rw [h4] at h
      simp only [bind_ok] at h
      cases h5 : firstCode info u!"skip_code" with
      | error er => rw [h5] at h; cases h
      | ok skip =>
      rw [h5] at h
      simp only [bind_ok] at h
      cases skip with
      | num k => cases h
      | text s =>
      simp only at h
      cases h6 : mapE (pyInt 10) (splitChr 0x2d s) with
      | error er => rw [h6] at h; cases h
      | ok sk =>
      rw [h6] at h
      simp only [bind_ok] at h
      cases h
      exact ⟨jis, rest, info, rfl, h2, rfl, rfl, rfl, h3, h4, rfl⟩

/-- The characters of a saved line come from the line that was read, or are digits and punctuation. -/
theorem savedKanji_all {P : Chr → Prop} (hP : ∀ c, 0x20 ≤ c → c < 0x7f → P c) {l : Str} {e : KEntry} (h : kanjidicLine l = .ok e) (hl : ∀ c ∈ strip l, P c) :
    ∀ c ∈ Spec.savedKanji e, P c := by
  obtain ⟨jis, rest, info, h1, h2, h3, h4, h5, h6, h7, h8⟩ := kanjidicLine_parts h
  have hr := kanjidicLine_read h
  have hseg : ∀ u ∈ segments (strip l), ∀ c ∈ u, P c := fun u hu c hc => hl c (segments_sub _ u hu c hc)
  rw [h1] at hseg
  have hi : InfoAll P info := segmentLoop_all (fun s hs => hseg s (by simp [hs])) ⟨by simp, by simp, by simp, by intro n l hl; cases hl⟩ h2
  have hshow : ∀ i c, c ∈ showInt i → P c := by
    intro i c hc
    unfold showInt at hc
    have : c = 0x2d ∨ AsciiDigit c := by
      split at hc
      · rcases List.mem_cons.1 hc with h | h
        · exact .inl h
        · exact .inr (showNat_digits _ c h)
      · exact .inr (showNat_digits _ c hc)
    unfold AsciiDigit at this
    exact hP c (by omega) (by omega)
  have htext : ∀ (x : Chr) (v : CodeVal), ValueAll P v → ∀ c ∈ Spec.codeText x v, P c := by
    intro x v hv c hc
    cases v with
    | text s => exact hv c hc
    | num i =>
      simp only [Spec.codeText] at hc
      rcases List.mem_append.1 hc with hc | hc
      · split at hc
        · rw [List.mem_singleton.1 hc]; exact hP _ (by decide) (by decide)
        · cases hc
      · exact hshow i c hc
  have hcons : ∀ (x : Chr) (v : Str), P x → (∀ c ∈ v, P c) → ∀ c ∈ x :: v, P c := by
    intro x v hx hv c hc
    rcases List.mem_cons.1 hc with rfl | hc
    · exact hx
    · exact hv c hc
  suffices hkey : ∀ u ∈ Spec.savedFields e, ∀ c ∈ u, P c by
    intro c hc
    unfold Spec.savedKanji at hc
    rcases List.mem_append.1 hc with hc | hc
    · split at hc
      · rw [List.mem_singleton.1 hc]; exact hP _ (by decide) (by decide)
      · cases hc
    rcases mem_join hc with hc | ⟨u, hu, hc⟩
    · rw [List.mem_singleton.1 hc]; exact hP _ (by decide) (by decide)
    · exact hkey u hu c hc
  intro u hu
  simp only [Spec.savedFields, List.mem_cons, List.mem_append, List.mem_flatMap, List.mem_map, Option.mem_toList, List.not_mem_nil, or_false] at hu
  rcases hu with rfl | rfl | ⟨p, hp, v, hv, rfl⟩ | ⟨g, hg, rfl⟩ | hr' | hr' | rfl | ⟨f, hf, rfl⟩ | rfl
  · intro c hc; exact hseg _ (by simp) c hc
  · intro c hc
    unfold Spec.hexInt at hc
    rcases List.mem_append.1 hc with hc | hc
    · split at hc
      · rw [List.mem_singleton.1 hc]; exact hP _ (by decide) (by decide)
      · cases hc
    · obtain ⟨d, hd, rfl⟩ := revHex_chr _ c (List.mem_reverse.1 hc)
      unfold Spec.hexChr
      split <;> exact hP _ (by omega) (by omega)
  · intro c hc
    obtain ⟨n, vs⟩ := p
    rw [h8] at hp
    have hw := kanjidicLine_info_wf h2
    have hw1 := Dict.WF_del hw u!"stroke_count"
    have hw2 := Dict.WF_del hw1 u!"frequency"
    have hw3 := Dict.WF_del hw2 u!"skip_code"
    have hg := (Dict.get?_eq_some_iff hw3 n vs).2 hp
    rw [Dict.get?_del hw2, Dict.get?_del hw1, Dict.get?_del hw] at hg
    split at hg
    · cases hg
    split at hg
    · cases hg
    split at hg
    · cases hg
    obtain ⟨a, x, hx, ex⟩ := hi.codes n vs hg
    subst ex
    simp only [letterFor_codeName] at hc
    exact hcons _ _ hx (htext x v (a v hv)) c hc
  · intro c hc
    simp only [List.mem_append, List.mem_singleton] at hc
    rcases hc with (hc | hc) | hc
    · rw [hc]; exact hP _ (by decide) (by decide)
    · exact hi.gloss g (h3 ▸ hg) c hc
    · rw [hc]; exact hP _ (by decide) (by decide)
  · intro c hc; exact hi.on u (h4 ▸ hr') c hc
  · intro c hc; exact hi.kun u (h5 ▸ hr') c hc
  · intro c hc
    exact hcons _ _ (hP _ (by decide) (by decide)) (htext _ _ (firstCode_all hi h6)) c hc
  · intro c hc
    refine hcons _ _ (hP _ (by decide) (by decide)) (htext _ _ ?_) c hc
    rw [hf] at h7
    unfold frequencyOf at h7
    split at h7
    · cases h9 : firstCode info u!"frequency" with
      | error er => rw [h9] at h7; cases h7
      | ok f' => rw [h9] at h7; cases h7; exact firstCode_all hi h9
    · cases h7
  · intro c hc
    refine hcons _ _ (hP _ (by decide) (by decide)) ?_ c hc
    intro c hc
    have := (skip_reads hr.skip.1 hr.skip.2).1 c hc
    unfold AsciiDigit at this
    exact hP c (by omega) (by omega)

/-- **C189**.  The same for the text of files, whichever line ending the saved file uses. -/
theorem C189_file {texts : List Str} {d : Dict Str KEntry} (h : kanjidic (texts.map fileLines) = .ok d)
    (hk : ∀ p ∈ d, ∀ c, p.1.head? = some c → isSpace c = false) (eol : Str) (he : eol = u!"\n" ∨ eol = u!"\r\n" ∨ eol = u!"\r") :
    kanjidic [fileLines ((Spec.savedKanjidic d).flatMap (fun l => l ++ eol))] = .ok d := by
  rw [fileLines_uniform eol he]
  · exact C189_saved h hk
  · unfold kanjidic at h
    split at h
    · cases h
    have hall := (kanjidicLoop_entries (Q := fun l => ∃ t ∈ texts, l ∈ fileLines t) _ [] d Dict.WF_nil (by simp) (by
      intro l hl
      obtain ⟨ls, h1, h2⟩ := List.mem_flatten.1 hl
      obtain ⟨t, h3, rfl⟩ := List.mem_map.1 h1
      exact ⟨t, h3, h2⟩) h).2
    intro l hl
    obtain ⟨p, hp, rfl⟩ := List.mem_map.1 hl
    obtain ⟨_, l, ⟨t, _, ht⟩, hl⟩ := hall p hp
    have := savedKanji_all (P := fun c => c ≠ 0x0d ∧ c ≠ 0x0a) (fun c h1 _ => ⟨by omega, by omega⟩) hl (fileLines_strip t l ht)
    exact ⟨fun hc => (this _ hc).1 rfl, fun hc => (this _ hc).2 rfl⟩

/-! ### Kanji that begin with white space -/

theorem segments_head {x : Chr} {t : Str} (h20 : x ≠ 0x20) (h7b : x ≠ 0x7b) {u : Str} {us : List Str} (h : segments (x :: t) = u :: us) : u.head? = some x := by
  rcases first_segment (x :: t) with hn | ⟨v, w, e, hv, hf⟩
  · exfalso
    have hr := Re.first_eq_none.1 hn
    simp only [segmentPattern, Re.run, Re.plus, List.append_eq_nil_iff] at hr
    have h1 := hr.1
    rw [if_pos (by simp [h20, h7b])] at h1
    simp only [List.flatMap_cons, List.flatMap_nil, List.append_nil, List.map_eq_nil_iff] at h1
    have : t ∈ manySplits (fun c => c != 0x20 && c != 0x7b) t := (Re.manySplits_mem t t).2 ⟨[], rfl, by simp⟩
    rw [h1] at this
    cases this
  · rw [e] at h
    unfold segments at h
    rw [Re.finditer_match _ v w [] hv.ne_nil hf, List.map_cons] at h
    cases h
    cases v with
    | nil => exact absurd rfl hv.ne_nil
    | cons y v => cases e; rfl

theorem strip_head_hex (i : Int) (t : Str) (c : Chr) (hc : (strip (Spec.hexInt i ++ t)).head? = some c) : c ≠ 0x7b := by
  have hne : Spec.hexInt i ≠ [] := by unfold Spec.hexInt; simp [revHex_ne_nil]
  have hl : lstrip (Spec.hexInt i ++ t) = Spec.hexInt i ++ t := by
    refine lstrip_of_head ?_
    intro x hx
    cases hh : Spec.hexInt i with
    | nil => exact absurd hh hne
    | cons y h =>
      rw [hh] at hx
      cases hx
      exact (hexInt_chr i x (by rw [hh]; simp)).1
  unfold strip at hc
  rw [hl] at hc
  obtain ⟨u, hu, _⟩ := rstrip_decomp (Spec.hexInt i ++ t)
  have : (Spec.hexInt i ++ t).head? = some c := by
    rw [hu]
    cases hr : rstrip (Spec.hexInt i ++ t) with
    | nil => rw [hr] at hc; cases hc
    | cons y r => rw [hr] at hc; exact hc
  cases hh : Spec.hexInt i with
  | nil => exact absurd hh hne
  | cons y h =>
    rw [hh] at this
    cases this
    exact (hexInt_chr i c (by rw [hh]; simp)).2.2

/-- What is read from a saved line never has a kanji that begins with white space. -/
theorem savedKanji_head {l : Str} {e e' : KEntry} (h : kanjidicLine l = .ok e) (h' : kanjidicLine (Spec.savedKanji e ++ [0x0a]) = .ok e') :
    ∀ c, e'.kanji.head? = some c → isSpace c = false := by
  by_cases hk : ∀ c, e.kanji.head? = some c → isSpace c = false
  · rw [(C189_line h hk).1] at h'
    cases h'
    exact hk
  · have hr := kanjidicLine_read h
    obtain ⟨jis, rest, info, hseg, _⟩ := kanjidicLine_parts h'
    have htight := tight_strip (Spec.savedKanji e ++ [0x0a])
    have hweak : WeakChars e.kanji := by
      rcases hr.kanji with hw | ⟨g, hg, _⟩
      · exact hw.2
      · exfalso
        refine hk ?_
        intro c hc
        rw [hg] at hc
        cases hc
        decide
    have hno : e.kanji.head? ≠ some c!"#" := by
      intro he
      refine hk ?_
      intro c hc
      rw [he] at hc
      cases hc
      decide
    have hform : ∃ t, Spec.savedKanji e ++ [0x0a] = e.kanji ++ (u!" " ++ (Spec.hexInt e.jisCode ++ t)) := by
      unfold Spec.savedKanji
      rw [if_neg hno]
      have e0 : Spec.savedFields e = e.kanji :: Spec.hexInt e.jisCode :: (Spec.savedFields e).tail.tail := rfl
      rw [e0, join_cons_cons]
      cases (Spec.savedFields e).tail.tail with
      | nil => exact ⟨[0x0a], by simp [join]⟩
      | cons w ws =>
        rw [join_cons_cons]
        exact ⟨u!" " ++ join u!" " (w :: ws) ++ [0x0a], by simp⟩
    obtain ⟨t, ht⟩ := hform
    have h7b : ∀ c, (strip (Spec.savedKanji e ++ [0x0a])).head? = some c → c ≠ 0x7b := by
      intro c hc
      rw [ht] at hc
      by_cases hl : lstrip e.kanji = []
      · have : strip (e.kanji ++ (u!" " ++ (Spec.hexInt e.jisCode ++ t))) = strip (Spec.hexInt e.jisCode ++ t) := by
          unfold strip
          rw [lstrip_append_space (lstrip_eq_nil hl), lstrip_append_space (by decide)]
        rw [this] at hc
        exact strip_head_hex _ _ c hc
      · unfold strip at hc
        rw [lstrip_append_of_ne _ hl] at hc
        have hh : (lstrip e.kanji ++ (u!" " ++ (Spec.hexInt e.jisCode ++ t))).head? = some c := by
          obtain ⟨u, hu, _⟩ := rstrip_decomp (lstrip e.kanji ++ (u!" " ++ (Spec.hexInt e.jisCode ++ t)))
          rw [hu]
          cases hrs : rstrip (lstrip e.kanji ++ (u!" " ++ (Spec.hexInt e.jisCode ++ t))) with
          | nil => rw [hrs] at hc; cases hc
          | cons y r => rw [hrs] at hc; exact hc
        cases hlk : lstrip e.kanji with
        | nil => exact absurd hlk hl
        | cons y k =>
          rw [hlk] at hh
          cases hh
          refine (hweak c ?_).2
          obtain ⟨u, hu, _⟩ := lstrip_decomp e.kanji
          rw [hu, hlk]
          simp
    cases hs : strip (Spec.savedKanji e ++ [0x0a]) with
    | nil =>
      rw [hs] at hseg
      have : segments [] = [] := by decide +kernel
      rw [this] at hseg
      cases hseg
    | cons x t' =>
      rw [hs] at hseg h7b htight
      have hx : isSpace x = false := htight.1 x rfl
      have := segments_head (by rintro rfl; exact absurd hx (by decide)) (h7b x rfl) hseg
      intro c hc
      rw [this] at hc
      cases hc
      exact hx

/-- **C189**.  Exactly the kanjidics without a kanji that begins with white space are read back. -/
theorem C189_iff {files : List (List Str)} {d : Dict Str KEntry} (h : kanjidic files = .ok d) :
    kanjidic [(Spec.savedKanjidic d).map (fun l => l ++ u!"\n")] = .ok d ↔ ∀ p ∈ d, ∀ c, p.1.head? = some c → isSpace c = false := by
  refine ⟨fun h' => ?_, C189_saved h⟩
  unfold kanjidic at h h'
  split at h
  · cases h
  rw [if_neg (by simp)] at h'
  have hd := (kanjidicLoop_entries (Q := fun _ => True) _ [] d Dict.WF_nil (by simp) (by simp) h).2
  have hd' := (kanjidicLoop_entries (Q := fun l => ∃ p ∈ d, l = Spec.savedKanji p.2 ++ [0x0a]) _ [] d Dict.WF_nil (by simp) (by
    intro l hl
    simp only [List.flatten_cons, List.flatten_nil, List.append_nil, Spec.savedKanjidic, List.map_map, List.mem_map, Function.comp] at hl
    obtain ⟨p, hp, rfl⟩ := hl
    exact ⟨p, hp, rfl⟩) h').2
  intro p hp
  obtain ⟨e1, l, ⟨q, hq, rfl⟩, hl⟩ := hd' p hp
  obtain ⟨_, l0, _, hl0⟩ := hd q hq
  rw [e1]
  exact savedKanji_head hl0 hl

/-- **C189**.  Such a kanji comes from a line that begins with an opening brace which begins no meaning. -/
theorem C189_stray {l : Str} {e : KEntry} (h : kanjidicLine l = .ok e) {c : Chr} (hc : e.kanji.head? = some c) (hs : isSpace c = true) :
    (strip l).head? = some c!"{" ∧ ¬ ∃ g t, strip l = u!"{" ++ g ++ u!"}" ++ t ∧ c!"}" ∉ g ∧ 0x0a ∉ g := by
  obtain ⟨jis, rest, info, hseg, _⟩ := kanjidicLine_parts h
  have htight := tight_strip l
  constructor
  · cases hl : strip l with
    | nil =>
      rw [hl] at hseg
      have : segments [] = [] := by decide +kernel
      rw [this] at hseg
      cases hseg
    | cons x t =>
      rw [hl] at hseg htight
      have hx : isSpace x = false := htight.1 x rfl
      by_cases h7b : x = 0x7b
      · rw [h7b]; rfl
      · have := segments_head (by rintro rfl; exact absurd hx (by decide)) h7b hseg
        rw [this] at hc
        cases hc
        rw [hx] at hs
        cases hs
  · rintro ⟨g, t, hl, h1, h2⟩
    rw [hl] at hseg
    unfold segments at hseg
    rw [Re.finditer_match _ _ t [] (by simp) (segment_gloss g t h1 h2), List.map_cons] at hseg
    simp only [List.cons.injEq] at hseg
    rw [← hseg.1] at hc
    cases hc
    exact absurd hs (by decide)

/-- Two lines of a kanjidic with everything in them: written out and read again. -/
example : kanjidic [[u!"# comment\n", u!"亜 3021 U4e9c B1 C7 G8 S7 S8 F1509 T01 N43 P4-7-1 XN9 Yya4 ア つ.ぐ -くち T1 や {Asia} {rank next}\n"]] =
    .ok [(u!"亜", ⟨u!"亜", 0x3021, [u!"Asia", u!"rank next"], [u!"ア"], [u!"つ.ぐ", u!"-くち", u!"や"], .num 7, some (.num 1509), [4, 7, 1],
      [(u!"unicode", [.text u!"4e9c"]), (u!"radical_index", [.num 1]), (u!"classical_radical_index", [.num 7]), (u!"jyouyou_grade", [.num 8]),
        (u!"T", [.num 1]), (u!"nelson_index", [.num 43]), (u!"cross_references", [.text u!"N9"]), (u!"pinyin_reading", [.text u!"ya4"])]⟩)] := by decide +kernel
example : Spec.savedKanji ⟨u!"亜", 0x3021, [u!"Asia", u!"rank next"], [u!"ア"], [u!"つ.ぐ", u!"-くち", u!"や"], .num 7, some (.num 1509), [4, 7, 1],
      [(u!"unicode", [.text u!"4e9c"]), (u!"T", [.num 1]), (u!"nelson_index", [.num 43])]⟩ =
    u!"亜 3021 U4e9c T01 N43 {Asia} {rank next} ア つ.ぐ -くち や S7 F1509 P4-7-1" := by decide +kernel

/-- **C189**.  The condition is needed: behind a stray brace the first field of a line can begin with a tab, which is lost. -/
theorem C189_tab : ∃ (e e' : KEntry), kanjidicLine u!"{\tx 3021 S3 P1-2-3" = .ok e ∧ kanjidicLine (Spec.savedKanji e) = .ok e' ∧ e'.kanji ≠ e.kanji :=
  ⟨⟨u!"\tx", 0x3021, [], [], [], .num 3, none, [1, 2, 3], []⟩, ⟨u!"x", 0x3021, [], [], [], .num 3, none, [1, 2, 3], []⟩,
    by decide +kernel, by decide +kernel, by decide⟩

end Cjk
