import Verif.Props.Scripts
/-!
# C166: sorting words with `compare_kana`

`sorted(words, key=functools.cmp_to_key(compare_kana))` compares words with `compare_kana(a, b) < 0` (scripts.py:171-187), and Python's sort is a stable sort.
-/

namespace Cjk
open Py

/-- In the order of `compare_kana`: no word is greater than a later one. -/
def Spec.KanaSorted (ws : List Str) : Prop := ws.Pairwise (fun a b => compareKana a b ≤ 0)

/-- The words that sound like `q`, in their order. -/
def Spec.soundsLike (q : Str) (ws : List Str) : List Str := ws.filter (fun w => compareKana w q = 0)

/-- What a stable sort with `compare_kana` gives: the same words, in order, and words that compare equal in the order in which they were. -/
def Spec.StablySorted (ws vs : List Str) : Prop := vs.Perm ws ∧ Spec.KanaSorted vs ∧ ∀ q, Spec.soundsLike q vs = Spec.soundsLike q ws

theorem compareKana_flip (a b : Str) : compareKana a b = -compareKana b a := (C05_sign_antisymmetric a b).2

theorem compareKana_zero_kata (a b : Str) : compareKana a b = 0 ↔ toKatakana a = toKatakana b := by
  rw [C05_zero_iff_same_kana]; unfold Spec.SameKana; rw [toKatakana_eq_convert, toKatakana_eq_convert]

theorem compareKana_of_kata (a b : Str) : compareKana a b = compareKana (toKatakana a) (toKatakana b) := by
  rw [(C05_script_insensitive a _).1, (C05_script_insensitive a b).2.2.1]

/-- C166: lists in the order of `compare_kana` that hold the same words, whatever algorithm sorted them and in whatever order and in whichever syllabary the words were before, are the same up to the
syllabary. -/
theorem C166_unique (vs vs' : List Str) (h : Spec.KanaSorted vs) (h' : Spec.KanaSorted vs') (hp : (vs.map toKatakana).Perm (vs'.map toKatakana)) :
    vs.map toKatakana = vs'.map toKatakana ∧ vs.map toHiragana = vs'.map toHiragana := by
  have hk : vs.map toKatakana = vs'.map toKatakana := by
    refine hp.eq_of_pairwise (le := fun a b => compareKana a b ≤ 0) ?_ ?_ ?_
    · intro a b ha hb hab hba
      have h0 : compareKana a b = 0 := by have := compareKana_flip a b; omega
      rw [compareKana_zero_kata] at h0
      obtain ⟨x, _, rfl⟩ := List.mem_map.1 ha
      obtain ⟨y, _, rfl⟩ := List.mem_map.1 hb
      rwa [toKatakana_idem, toKatakana_idem] at h0
    · rw [List.pairwise_map]; exact h.imp (fun {a b} hab => by rw [← compareKana_of_kata]; exact hab)
    · rw [List.pairwise_map]; exact h'.imp (fun {a b} hab => by rw [← compareKana_of_kata]; exact hab)
  refine ⟨hk, ?_⟩
  have := congrArg (List.map toHiragana) hk
  rw [List.map_map, List.map_map] at this
  have e : toHiragana ∘ toKatakana = toHiragana := by
    funext s; exact toHiragana_toKatakana s
  rwa [e] at this

/-- C166: the syllabary of the words does not matter for the order. -/
theorem C166_syllabary (vs : List Str) :
    (Spec.KanaSorted (vs.map toKatakana) ↔ Spec.KanaSorted vs) ∧ (Spec.KanaSorted (vs.map toHiragana) ↔ Spec.KanaSorted vs) := by
  unfold Spec.KanaSorted
  rw [List.pairwise_map, List.pairwise_map]
  constructor
  · simp only [(C05_script_insensitive _ _).1, (C05_script_insensitive _ _).2.2.1]
  · simp only [(C05_script_insensitive _ _).2.1, (C05_script_insensitive _ _).2.2.2]

/-- C166: it is enough to compare neighbours. -/
theorem C166_neighbours (vs : List Str) : Spec.KanaSorted vs ↔ ∀ a b pre post, vs = pre ++ a :: b :: post → compareKana a b ≤ 0 := by
  constructor
  · rintro h a b pre post rfl
    have := (List.pairwise_append.1 h).2.1
    exact (List.pairwise_cons.1 this).1 b (List.mem_cons_self ..)
  · induction vs with
    | nil => intro _; exact List.Pairwise.nil
    | cons x xs ih =>
      intro h
      have hs := ih (fun a b pre post e => h a b (x :: pre) post (by rw [e]; rfl))
      refine List.Pairwise.cons ?_ hs
      intro y hy
      cases xs with
      | nil => cases hy
      | cons z zs =>
        have hz := h x z [] zs rfl
        rcases List.mem_cons.1 hy with rfl | hy
        · exact hz
        · exact (C05_transitive x z y).1 hz ((List.pairwise_cons.1 hs).1 y hy)

/-- C166: in a sorted list the words that sound like `q` stand together, behind all lesser words and before all greater ones. -/
theorem C166_block (vs : List Str) (h : Spec.KanaSorted vs) (q : Str) :
    vs = vs.filter (fun w => compareKana w q < 0) ++ Spec.soundsLike q vs ++ vs.filter (fun w => compareKana w q > 0) := by
  induction vs with
  | nil => rfl
  | cons x xs ih =>
    obtain ⟨hx, hs⟩ := List.pairwise_cons.1 h
    have ih := ih hs
    unfold Spec.soundsLike at ih ⊢
    by_cases h1 : compareKana x q < 0
    · rw [List.filter_cons_of_pos (by simpa using h1), List.filter_cons_of_neg (by simp; omega), List.filter_cons_of_neg (by simp; omega), List.cons_append, List.cons_append, ← ih]
    · have hle : ∀ y ∈ xs, ¬ compareKana y q < 0 := fun y hy hlt => h1 ((C05_transitive x y q).2.2 (hx y hy) hlt)
      have e1 : xs.filter (fun w => decide (compareKana w q < 0)) = [] := by
        rw [List.filter_eq_nil_iff]; intro y hy; simpa using hle y hy
      rw [List.filter_cons_of_neg (by simpa using h1), e1, List.nil_append]
      rw [e1, List.nil_append] at ih
      by_cases h2 : compareKana x q = 0
      · rw [List.filter_cons_of_pos (by simpa using h2), List.filter_cons_of_neg (by simp; omega), List.cons_append, ← ih]
      · have hgt : ∀ y ∈ xs, ¬ compareKana y q = 0 := by
          intro y hy h0
          exact absurd ((C05_transitive x y q).1 (hx y hy) (by omega)) (by omega)
        have e2 : xs.filter (fun w => decide (compareKana w q = 0)) = [] := by
          rw [List.filter_eq_nil_iff]; intro y hy; simpa using hgt y hy
        rw [e2, List.nil_append] at ih
        rw [List.filter_cons_of_neg (by simpa using h2), e2, List.nil_append, List.filter_cons_of_pos (by simp; omega), ← ih]

theorem kanaSorted_head {x y : Str} {xs ys : List Str} (h : Spec.KanaSorted (x :: xs)) (hp : (y :: ys).Perm (x :: xs)) : compareKana x y ≤ 0 := by
  have : y ∈ x :: xs := hp.subset (List.mem_cons_self ..)
  rcases List.mem_cons.1 this with rfl | hy
  · exact Int.le_of_eq ((compareKana_zero_kata y y).2 rfl)
  · exact (List.pairwise_cons.1 h).1 y hy

/-- Merge sort with `compare_kana` is a stable sort. -/
theorem kanaSort_stable (ws : List Str) : Spec.StablySorted ws (ws.mergeSort (fun a b => decide (compareKana a b ≤ 0))) := by
  have htr : ∀ a b c : Str, decide (compareKana a b ≤ 0) = true → decide (compareKana b c ≤ 0) = true → decide (compareKana a c ≤ 0) = true := by
    intro a b c h1 h2; simp only [decide_eq_true_eq] at *; exact (C05_transitive a b c).1 h1 h2
  have hto : ∀ a b : Str, (decide (compareKana a b ≤ 0) || decide (compareKana b a ≤ 0)) = true := by
    intro a b
    simp only [Bool.or_eq_true, decide_eq_true_eq]
    have := compareKana_flip a b; omega
  refine ⟨List.mergeSort_perm _ _, ?_, ?_⟩
  · have := List.pairwise_mergeSort htr hto ws
    exact this.imp (fun {a b} h => by simpa using h)
  · intro q
    have hsub : (Spec.soundsLike q ws).Sublist (ws.mergeSort (fun a b => decide (compareKana a b ≤ 0))) := by
      refine List.sublist_mergeSort htr hto ?_ (List.filter_sublist)
      refine List.Pairwise.imp_of_mem (R := fun _ _ => True) ?_ (List.pairwise_of_forall (fun _ _ => trivial))
      intro a b ha hb _
      have ha := (List.mem_filter.1 ha).2
      have hb := (List.mem_filter.1 hb).2
      simp only [decide_eq_true_eq, compareKana_zero_kata] at ha hb
      simp only [decide_eq_true_eq]
      exact Int.le_of_eq ((compareKana_zero_kata a b).2 (ha.trans hb.symm))
    have hf := hsub.filter (fun w => decide (compareKana w q = 0))
    have e : (Spec.soundsLike q ws).filter (fun w => decide (compareKana w q = 0)) = Spec.soundsLike q ws := by
      unfold Spec.soundsLike; rw [List.filter_filter]; congr 1; funext w; simp
    rw [e] at hf
    exact (hf.eq_of_length ((List.mergeSort_perm ws (fun a b => decide (compareKana a b ≤ 0))).symm.filter _).length_eq).symm

/-- C166: the outcome of a stable sort is determined by the words and their order: there is one and only one. -/
theorem C166_stable (ws : List Str) : ∃ vs, Spec.StablySorted ws vs ∧ ∀ vs', Spec.StablySorted ws vs' → vs' = vs := by
  have hs := kanaSort_stable ws
  refine ⟨_, hs, ?_⟩
  · intro vs' h'
    -- two such lists are equal
    have key : ∀ (as bs : List Str), as.Perm bs → Spec.KanaSorted as → Spec.KanaSorted bs → (∀ q, Spec.soundsLike q as = Spec.soundsLike q bs) → as = bs := by
      intro as
      induction as with
      | nil => intro bs hp _ _ _; exact (List.Perm.nil_eq hp)
      | cons a as ih =>
        intro bs hp ha hb hq
        cases bs with
        | nil => exact absurd hp.length_eq (by simp)
        | cons b bs =>
          have h1 := kanaSorted_head ha hp.symm
          have h2 := kanaSorted_head hb hp
          have h0 : compareKana b a = 0 := by have := compareKana_flip a b; omega
          have hqa := hq a
          have haa : compareKana a a = 0 := (compareKana_zero_kata a a).2 rfl
          unfold Spec.soundsLike at hqa
          rw [List.filter_cons_of_pos (by simpa using haa), List.filter_cons_of_pos (by simpa using h0)] at hqa
          injection hqa with hab _
          subst hab
          congr 1
          refine ih bs hp.cons_inv (List.pairwise_cons.1 ha).2 (List.pairwise_cons.1 hb).2 ?_
          intro q
          have := hq q
          unfold Spec.soundsLike at this ⊢
          by_cases hc : compareKana a q = 0
          · rw [List.filter_cons_of_pos (by simpa using hc), List.filter_cons_of_pos (by simpa using hc)] at this
            injection this
          · rwa [List.filter_cons_of_neg (by simpa using hc), List.filter_cons_of_neg (by simpa using hc)] at this
    exact key _ _ (h'.1.trans hs.1.symm) h'.2.1 hs.2.1 (fun q => (h'.2.2 q).trans (hs.2.2 q).symm)

/-- Two words that sound alike, a word before and a word after. -/
example : Spec.StablySorted [u!"ネコ", u!"いぬ", u!"ねこ", u!"ワニ"] [u!"いぬ", u!"ネコ", u!"ねこ", u!"ワニ"] ∧ ¬ Spec.KanaSorted [u!"ネコ", u!"いぬ", u!"ねこ", u!"ワニ"] := by
  refine ⟨⟨by decide, ?_, ?_⟩, ?_⟩
  · unfold Spec.KanaSorted; decide
  · intro q
    unfold Spec.soundsLike
    by_cases h1 : compareKana u!"ネコ" q = 0
    · have h2 : ¬ compareKana u!"いぬ" q = 0 := by
        intro h2
        rw [compareKana_zero_kata] at h1 h2
        exact absurd (h1.trans h2.symm) (by decide)
      simp [List.filter_cons, h1, h2]
    · simp [List.filter_cons, h1]
  · unfold Spec.KanaSorted; decide

end Cjk
