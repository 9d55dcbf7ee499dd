import Verif.Model.PrintRadicals
import Verif.Props.Radkdict
import Verif.Lemmas.Scripts
/-!
# C89: what `print_radicals` prints
-/

namespace Cjk
open Py

namespace Spec
/-- `l` is the list `rs` in code point order. -/
def SortedList (rs l : List Str) : Prop := l.Perm rs ∧ l.Pairwise (fun a b => strLt b a = false)

/-- The file gives radicals for the string: it is one character that occurs on some kanji line. -/
def RadkKnown (ls : List Str) (k : Str) : Prop := ∃ c, k = [c] ∧ ∃ p ∈ radkBody [] ls, c ∈ p.2

/-- Every kanji line of the character stands below some header line. -/
def RadkHeaded (ls : List Str) (k : Str) : Prop := ∀ p ∈ radkBody [] ls, ∀ c ∈ k, c ∈ p.2 → p.1 ≠ none

/-- The line for `k`: its radicals in code point order, each as often as the file lists `k` under it. -/
def RadkLine (ls : List Str) (k line : Str) : Prop :=
  ∃ rs : List Str, (∀ r, rs.count r = (k.map (radkCount ls (some r))).sum) ∧ rs.Pairwise (fun a b => strLt b a = false) ∧
    line = k ++ u!":  " ++ join u!" " rs
end Spec

theorem strLe_trans {a b c : Str} (h1 : strLt b a = false) (h2 : strLt c b = false) : strLt c a = false := by
  cases h : strLt c a with
  | false => rfl
  | true =>
    rcases strLt_trichotomy a b with h3 | h3 | h3
    · rw [strLt_trans h h3] at h2; cases h2
    · rw [← h3, h] at h2; cases h2
    · rw [h3] at h1; cases h1

theorem insertStr_perm (x : Str) (l : List Str) : (insertStr x l).Perm (x :: l) := by
  induction l with
  | nil => exact List.Perm.refl _
  | cons y l ih =>
    simp only [insertStr]
    split
    · exact (ih.cons y).trans (List.Perm.swap x y l)
    · exact List.Perm.refl _

theorem insertStr_sorted (x : Str) (l : List Str) (h : l.Pairwise (fun a b => strLt b a = false)) :
    (insertStr x l).Pairwise (fun a b => strLt b a = false) := by
  induction l with
  | nil => simp [insertStr]
  | cons y l ih =>
    obtain ⟨h1, h2⟩ := List.pairwise_cons.1 h
    simp only [insertStr]
    split
    · rename_i hlt
      refine List.pairwise_cons.2 ⟨?_, ih h2⟩
      intro z hz
      rcases List.mem_cons.1 ((insertStr_perm x l).mem_iff.1 hz) with rfl | hz
      · exact strLt_asymm hlt
      · exact h1 z hz
    · rename_i hlt
      have hxy : strLt y x = false := by simpa using hlt
      refine List.pairwise_cons.2 ⟨?_, h⟩
      intro z hz
      rcases List.mem_cons.1 hz with rfl | hz
      · exact hxy
      · exact strLe_trans hxy (h1 z hz)

theorem sortStrs_spec (l : List Str) : Spec.SortedList l (sortStrs l) := by
  induction l with
  | nil => exact ⟨List.Perm.refl _, List.Pairwise.nil⟩
  | cons x l ih =>
    simp only [sortStrs, List.foldr_cons]
    exact ⟨(insertStr_perm x _).trans (ih.1.cons x), insertStr_sorted x _ ih.2⟩

theorem radicalNames_ok (rs : List (Option Str)) (h : none ∉ rs) : ∃ names, radicalNames rs = .ok names ∧ rs = names.map some := by
  induction rs with
  | nil => exact ⟨[], rfl, rfl⟩
  | cons r rs ih =>
    cases r with
    | none => simp at h
    | some r =>
      obtain ⟨names, h1, h2⟩ := ih (fun hm => h (by simp [hm]))
      exact ⟨r :: names, by simp only [radicalNames, h1], by simp [h2]⟩

theorem radicalNames_error (rs : List (Option Str)) (h : none ∈ rs) : radicalNames rs = .error .typeError := by
  induction rs with
  | nil => simp at h
  | cons r rs ih =>
    cases r with
    | none => rfl
    | some r => simp only [radicalNames, ih (by simpa using h)]

theorem count_map_some (names : List Str) (r : Str) : (names.map some).count (some r) = names.count r := by
  induction names with
  | nil => rfl
  | cons x names ih => simp [List.count_cons, ih]

theorem radicalLine_known (ls : List Str) (rd : RadkDict) (h : radkDict ls = .ok rd) (k : Str) (hk : Spec.RadkKnown ls k)
    (hh : Spec.RadkHeaded ls k) : ∃ line, radicalLine rd k = .ok line ∧ Spec.RadkLine ls k line := by
  obtain ⟨c, rfl, hc⟩ := hk
  have h1 := C39_radicals ls rd h c
  rw [if_pos hc] at h1
  generalize hrs : (Spec.radkRadicals ls).flatMap (fun r => List.replicate (Spec.radkCount ls r c) r) = rs at h1
  have hcount : ∀ r, rs.count r = Spec.radkCount ls r c := by
    intro r
    have := C39_counts ls rd h c r
    rw [h1] at this
    exact this
  have hnone : none ∉ rs := by
    intro hm
    have h2 : 0 < Spec.radkCount ls none c := by rw [← hcount]; exact List.count_pos_iff.2 hm
    unfold Spec.radkCount at h2
    obtain ⟨n, hn, hpos⟩ : ∃ n ∈ ((Spec.radkBody [] ls).filter (fun p => p.1 = none)).map (fun p => p.2.count c), 0 < n := by
      apply Classical.byContradiction
      intro hne
      have : (((Spec.radkBody [] ls).filter (fun p => p.1 = none)).map (fun p => p.2.count c)).sum = 0 := by
        rw [List.sum_eq_zero_iff_forall_eq_nat]
        intro x hx
        exact Nat.eq_zero_of_not_pos (fun hp => hne ⟨x, hx, hp⟩)
      omega
    obtain ⟨p, hp, rfl⟩ := List.mem_map.1 hn
    obtain ⟨hp1, hp2⟩ := List.mem_filter.1 hp
    exact hh p hp1 c (by simp) (List.count_pos_iff.1 hpos) (by simpa using hp2)
  obtain ⟨names, h3, h4⟩ := radicalNames_ok rs hnone
  refine ⟨[c] ++ u!": " ++ u!" " ++ join u!" " (sortStrs names), ?_, sortStrs names, ?_, (sortStrs_spec names).2, by simp⟩
  · simp only [radicalLine, radicalsOf, Dict.getItem, h1, h3, bind, Except.bind]
  · intro r
    rw [(sortStrs_spec names).1.count_eq, ← count_map_some, ← h4, hcount]
    simp

/-- C89: for kanji of the file that all stand below header lines, one line is printed per argument, in order: the kanji, a colon, and
its radicals in code point order. -/
theorem C89_prints (ls : List Str) (rd : RadkDict) (h : radkDict ls = .ok rd) (ks : List Str)
    (hk : ∀ k ∈ ks, Spec.RadkKnown ls k ∧ Spec.RadkHeaded ls k) :
    ∃ out, printRadicals ls ks = (out, none) ∧ out.length = ks.length ∧
      ∀ (i : Nat) k line, ks[i]? = some k → out[i]? = some line → Spec.RadkLine ls k line := by
  simp only [printRadicals, h]
  induction ks with
  | nil => exact ⟨[], rfl, rfl, by simp⟩
  | cons k ks ih =>
    obtain ⟨out, h1, h2, h3⟩ := ih (fun x hx => hk x (by simp [hx]))
    obtain ⟨line, h4, h5⟩ := radicalLine_known ls rd h k (hk k (by simp)).1 (hk k (by simp)).2
    refine ⟨line :: out, by simp only [printLoop, h4, h1], by simp [h2], ?_⟩
    intro i k' line' hk' hl'
    cases i with
    | zero => simp only [List.getElem?_cons_zero, Option.some.injEq] at hk' hl'; subst hk' hl'; exact h5
    | succ i => exact h3 i k' line' (by simpa using hk') (by simpa using hl')

/-- C89: the first argument that is no kanji of the file (an unknown character, or not one character) ends the run with `KeyError`; the
lines of the arguments before it have been printed, the ones behind it are not looked at. -/
theorem C89_unknown (ls : List Str) (rd : RadkDict) (h : radkDict ls = .ok rd) (pre post : List Str) (k : Str)
    (hpre : ∀ x ∈ pre, Spec.RadkKnown ls x ∧ Spec.RadkHeaded ls x) (hk : ¬ Spec.RadkKnown ls k) :
    printRadicals ls (pre ++ k :: post) = ((printRadicals ls pre).1, some .keyError) := by
  simp only [printRadicals, h]
  induction pre with
  | nil =>
    have : radicalLine rd k = .error .keyError := by
      unfold radicalLine radicalsOf
      split
      · rename_i c
        have h1 := C39_radicals ls rd h c
        rw [if_neg (fun hc => hk ⟨c, rfl, hc⟩)] at h1
        simp only [Dict.getItem, h1, bind, Except.bind]
      · rfl
    simp only [List.nil_append, printLoop, this]
  | cons x pre ih =>
    have ih := ih (fun y hy => hpre y (by simp [hy]))
    obtain ⟨line, h4, _⟩ := radicalLine_known ls rd h x (hpre x (by simp)).1 (hpre x (by simp)).2
    simp only [List.cons_append, printLoop, h4, ih]

/-- C89: a kanji of the file that also stands above the first header line has no proper list of radicals: it ends the run with
`TypeError` in the same way. -/
theorem C89_headless (ls : List Str) (rd : RadkDict) (h : radkDict ls = .ok rd) (pre post : List Str) (k : Str)
    (hpre : ∀ x ∈ pre, Spec.RadkKnown ls x ∧ Spec.RadkHeaded ls x) (hk : Spec.RadkKnown ls k) (hh : ¬ Spec.RadkHeaded ls k) :
    printRadicals ls (pre ++ k :: post) = ((printRadicals ls pre).1, some .typeError) := by
  simp only [printRadicals, h]
  induction pre with
  | nil =>
    obtain ⟨c, rfl, hc⟩ := hk
    have h1 := C39_radicals ls rd h c
    rw [if_pos hc] at h1
    generalize hrs : (Spec.radkRadicals ls).flatMap (fun r => List.replicate (Spec.radkCount ls r c) r) = rs at h1
    have hnone : none ∈ rs := by
      have h2 := C39_counts ls rd h c none
      rw [h1] at h2
      apply List.count_pos_iff.1
      have h2 : rs.count none = Spec.radkCount ls none c := h2
      rw [h2]
      apply Nat.pos_of_ne_zero
      intro h0
      apply hh
      intro p hp c' hc' hcp hpn
      rw [List.mem_singleton] at hc'
      subst hc'
      unfold Spec.radkCount at h0
      rw [List.sum_eq_zero_iff_forall_eq_nat] at h0
      have := h0 (p.2.count c') (List.mem_map.2 ⟨p, List.mem_filter.2 ⟨hp, by simpa using hpn⟩, rfl⟩)
      exact (List.count_eq_zero.1 this) hcp
    have : radicalLine rd [c] = .error .typeError := by
      simp only [radicalLine, radicalsOf, Dict.getItem, h1, radicalNames_error rs hnone, bind, Except.bind]
    simp only [List.nil_append, printLoop, this]
  | cons x pre ih =>
    have ih := ih (fun y hy => hpre y (by simp [hy]))
    obtain ⟨line, h4, _⟩ := radicalLine_known ls rd h x (hpre x (by simp)).1 (hpre x (by simp)).2
    simp only [List.cons_append, printLoop, h4, ih]

/-- C89: a file that cannot be read prints nothing. -/
theorem C89_bad_file (ls : List Str) (e : PyErr) (h : radkDict ls = .error e) (ks : List Str) :
    printRadicals ls ks = ([], some e) := by
  simp only [printRadicals, h]

/-- A file whose order is not the code point order. -/
example : printRadicals [u!"# c\n", u!"$ 丨 1\n", u!"亜中\n", u!"$ 一 1\n", u!"亜\n"] [u!"亜", u!"中", u!"愛", u!"亜"] =
    ([u!"亜:  一 丨", u!"中:  丨"], some .keyError) := by decide +kernel

example : ∀ k ∈ [u!"亜", u!"中"], Spec.RadkKnown [u!"# c\n", u!"$ 丨 1\n", u!"亜中\n", u!"$ 一 1\n", u!"亜\n"] k := by
  intro k hk
  simp only [List.mem_cons, List.not_mem_nil, or_false] at hk
  rcases hk with rfl | rfl
  · exact ⟨c!"亜", rfl, (some u!"丨", u!"亜中"), by decide +kernel, by decide⟩
  · exact ⟨c!"中", rfl, (some u!"丨", u!"亜中"), by decide +kernel, by decide⟩

/-- 亜 stands above the first header, too. -/
example : printRadicals [u!"亜\n", u!"$ 丨 1\n", u!"亜中\n"] [u!"中", u!"亜", u!"中"] = ([u!"中:  丨"], some .typeError) ∧
    Spec.RadkKnown [u!"亜\n", u!"$ 丨 1\n", u!"亜中\n"] u!"亜" ∧ ¬ Spec.RadkHeaded [u!"亜\n", u!"$ 丨 1\n", u!"亜中\n"] u!"亜" := by
  refine ⟨by decide +kernel, ⟨c!"亜", rfl, (none, u!"亜"), by decide +kernel, by decide⟩, fun h => ?_⟩
  exact h (none, u!"亜") (by decide +kernel) c!"亜" (by decide) (by decide) rfl

end Cjk
