import Verif.Spec.Canonical

/-!
# NFD is a normal form of canonical equivalence
-/

namespace Cjk

open Py
open Spec (Canon KanaUcd IsSoundMark)

theorem insertMark_comm (U : Ucd) {x y : Chr} (hx : U.ccc x ≠ 0) (hy : U.ccc y ≠ 0) (hxy : U.ccc x ≠ U.ccc y) (l : Str) :
    insertMark U x (insertMark U y l) = insertMark U y (insertMark U x l) := by
  induction l with
  | nil =>
    simp only [insertMark]
    rcases Nat.lt_or_gt_of_ne hxy with h | h
    · rw [if_pos ⟨hx, h⟩, if_neg (by omega)]
    · rw [if_neg (by omega), if_pos ⟨hy, h⟩]
  | cons d rest ih =>
    by_cases h1 : U.ccc x < U.ccc d <;> by_cases h2 : U.ccc y < U.ccc d
    · simp [insertMark, hx, hy, h1, h2, ih]
    · have : U.ccc x < U.ccc y := by omega
      have h3 : ¬ U.ccc y < U.ccc x := by omega
      simp [insertMark, hx, hy, h1, h2, this]
    · have : U.ccc y < U.ccc x := by omega
      have h3 : ¬ U.ccc x < U.ccc y := by omega
      simp [insertMark, hx, hy, h1, h2, this]
    · rcases Nat.lt_or_gt_of_ne hxy with h | h
      · have h3 : ¬ U.ccc y < U.ccc x := by omega
        simp [insertMark, hx, hy, h1, h2, h, h3]
      · have h3 : ¬ U.ccc x < U.ccc y := by omega
        simp [insertMark, hx, hy, h1, h2, h, h3]

theorem insertMark_perm (U : Ucd) (c : Chr) (l : Str) : (insertMark U c l).Perm (c :: l) := by
  induction l with
  | nil => exact .refl _
  | cons d rest ih =>
    simp only [insertMark]
    split
    · exact (List.Perm.cons d ih).trans (List.Perm.swap c d rest)
    · exact .refl _

theorem insertMarks_perm (U : Ucd) (s : Str) : ∀ acc, (s.foldl (fun acc c => insertMark U c acc) acc).Perm (s ++ acc) := by
  induction s with
  | nil => intro acc; exact .refl _
  | cons c s ih =>
    intro acc
    refine (ih _).trans (((insertMark_perm U c acc).append_left s).trans ?_)
    exact List.perm_middle

theorem canonOrder_perm (U : Ucd) (s : Str) : (canonOrder U s).Perm s := by
  have := insertMarks_perm U s []
  rw [List.append_nil] at this
  exact (List.reverse_perm _).trans this

theorem canonOrder_swap (U : Ucd) {x y : Chr} (hx : U.ccc x ≠ 0) (hy : U.ccc y ≠ 0) (hxy : U.ccc x ≠ U.ccc y) (a b : Str) :
    canonOrder U (a ++ x :: y :: b) = canonOrder U (a ++ y :: x :: b) := by
  simp only [canonOrder, List.foldl_append, List.foldl_cons, insertMark_comm U hx hy hxy]

theorem flatMap_decomp_of (U : Ucd) (s : Str) (h : ∀ c ∈ s, U.decomp c = [c]) : s.flatMap U.decomp = s := by
  induction s with
  | nil => rfl
  | cons c s ih => rw [List.flatMap_cons, h c (by simp), ih (fun d hd => h d (by simp [hd]))]; rfl

theorem nfd_of_canon {U : Ucd} (hU : ∀ c, ∀ d ∈ U.decomp c, U.decomp d = [d]) {s t : Str} (h : Canon U s t) : nfd U s = nfd U t := by
  induction h with
  | refl s => rfl
  | symm _ ih => exact ih.symm
  | trans _ _ ih1 ih2 => exact ih1.trans ih2
  | decompose a c b =>
    simp only [nfd, List.flatMap_append, List.flatMap_cons, flatMap_decomp_of U (U.decomp c) (hU c), List.append_assoc]
  | reorder a x y b h1 h2 h3 h4 h5 =>
    simp only [nfd, List.flatMap_append, List.flatMap_cons, h1, h2, List.singleton_append]
    exact canonOrder_swap U h3 h4 h5 _ _

theorem Spec.Canon.context {U : Ucd} {s t : Str} (h : Canon U s t) (a b : Str) : Canon U (a ++ s ++ b) (a ++ t ++ b) := by
  induction h with
  | refl s => exact .refl _
  | symm _ ih => exact ih.symm
  | trans _ _ ih1 ih2 => exact ih1.trans ih2
  | decompose a' c b' =>
    have := Canon.decompose (U := U) (a ++ a') c (b' ++ b)
    simpa [List.append_assoc] using this
  | reorder a' x y b' h1 h2 h3 h4 h5 =>
    have := Canon.reorder (U := U) (a ++ a') x y (b' ++ b) h1 h2 h3 h4 h5
    simpa [List.append_assoc] using this

theorem canon_flatMap (U : Ucd) (s : Str) : Canon U s (s.flatMap U.decomp) := by
  induction s with
  | nil => exact .refl _
  | cons c s ih =>
    have h1 := ih.context [c] []
    have h2 := Canon.decompose (U := U) [] c (s.flatMap U.decomp)
    rw [List.flatMap_cons]
    simp only [List.append_nil, List.nil_append, List.singleton_append] at h1 h2
    exact h1.trans h2

theorem canon_insertMark (U : Ucd) (c : Chr) (hc : U.decomp c = [c]) (acc : Str) (h : ∀ d ∈ acc, U.decomp d = [d]) :
    Canon U (c :: acc).reverse (insertMark U c acc).reverse := by
  induction acc with
  | nil => exact .refl _
  | cons d rest ih =>
    simp only [insertMark]
    split
    case isTrue hlt =>
      have h1 := (ih (fun e he => h e (by simp [he]))).context [] [d]
      have h2 := Canon.reorder (U := U) rest.reverse d c [] (h d (by simp)) hc (by omega) hlt.1 (by omega)
      simp only [List.reverse_cons, List.nil_append, List.append_assoc, List.singleton_append, List.cons_append] at h1 h2 ⊢
      exact h2.trans h1
    case isFalse => exact .refl _

theorem canon_insertMarks (U : Ucd) (s : Str) : ∀ acc, (∀ d ∈ s, U.decomp d = [d]) → (∀ d ∈ acc, U.decomp d = [d]) →
    Canon U (acc.reverse ++ s) (s.foldl (fun acc c => insertMark U c acc) acc).reverse := by
  induction s with
  | nil => intro acc _ _; rw [List.append_nil]; exact .refl _
  | cons c s ih =>
    intro acc h1 h2
    have hc := h1 c (by simp)
    have h3 := (canon_insertMark U c hc acc h2).context [] s
    have h4 := ih (insertMark U c acc) (fun d hd => h1 d (by simp [hd])) (fun d hd => by
      rcases List.mem_cons.1 ((insertMark_perm U c acc).mem_iff.1 hd) with e | e
      · rw [e]; exact hc
      · exact h2 d e)
    simp only [List.reverse_cons, List.nil_append, List.append_assoc, List.singleton_append] at h3
    exact h3.trans h4

theorem canon_nfd {U : Ucd} (hU : ∀ c, ∀ d ∈ U.decomp c, U.decomp d = [d]) (s : Str) : Canon U s (nfd U s) := by
  refine (canon_flatMap U s).trans ?_
  have := canon_insertMarks U (s.flatMap U.decomp) [] (fun d hd => by
    obtain ⟨c, _, h⟩ := List.mem_flatMap.1 hd
    exact hU c d h) (fun d hd => by cases hd)
  exact this

theorem nfd_eq_iff {U : Ucd} (hU : ∀ c, ∀ d ∈ U.decomp c, U.decomp d = [d]) (s t : Str) : nfd U s = nfd U t ↔ Canon U s t := by
  refine ⟨fun h => ?_, nfd_of_canon hU⟩
  exact (canon_nfd hU s).trans (h ▸ (canon_nfd hU t).symm)

theorem canonOrder_two (U : Ucd) (p q : Chr) : canonOrder U [p, q] = if U.ccc q ≠ 0 ∧ U.ccc q < U.ccc p then [q, p] else [p, q] := by
  simp only [canonOrder, List.foldl_cons, List.foldl_nil, insertMark]
  split <;> rfl

/-- Pairs of a sound mark. -/
def Spec.pairsOf (m : Chr) : List (Chr × Chr) := if m = 0x3099 then Spec.voicedPairs else Spec.semivoicedPairs

theorem decomp_pair {U : Ucd} (hU : KanaUcd U) {m c b : Chr} (hm : IsSoundMark m) (h : (c, b) ∈ Spec.pairsOf m) : U.decomp c = [b, m] ∧ U.ccc b = 0 := by
  rcases hm with hm | hm <;> subst hm
  · exact ⟨hU.voiced _ h, hU.base _ (List.mem_append_left _ h)⟩
  · exact ⟨hU.semivoiced _ h, hU.base _ (List.mem_append_right _ h)⟩

theorem pair_of_mem {U : Ucd} (hU : KanaUcd U) {m c : Chr} (hm : IsSoundMark m) (h : m ∈ U.decomp c) : c = m ∨ ∃ b, (c, b) ∈ Spec.pairsOf m := by
  have hb0 : ∀ m', IsSoundMark m' → ∀ b, (c, b) ∈ Spec.pairsOf m' → m = m' := by
    intro m' hm' b hb
    have h1 := decomp_pair hU hm' hb
    rw [h1.1] at h
    rcases List.mem_cons.1 h with e | e
    · have := (hU.mark m hm).2
      rw [e, h1.2] at this
      cases this
    · simpa using e
  rcases hU.other c m hm h with e | ⟨b, e⟩ | ⟨b, e⟩
  · exact .inl e
  · have := hb0 0x3099 (.inl rfl) b e
    exact .inr ⟨b, by rw [this]; exact e⟩
  · have := hb0 0x309a (.inr rfl) b e
    exact .inr ⟨b, by rw [this]; exact e⟩

/-- The texts whose normal form is a character with a given sound mark. -/
theorem nfd_pair_iff {U : Ucd} (hU : KanaUcd U) {m : Chr} (hm : IsSoundMark m) (s : Str) : (∃ b, nfd U s = [b, m]) ↔
    (∃ c b, s = [c] ∧ (c, b) ∈ Spec.pairsOf m) ∨ (∃ x b, s = [x, m] ∧ U.decomp x = [b] ∧ U.ccc b ≤ 8) ∨
      ∃ x b, s = [m, x] ∧ U.decomp x = [b] ∧ 0 < U.ccc b ∧ U.ccc b < 8 := by
  have h8 := (hU.mark m hm).2
  have hself := (hU.mark m hm).1
  have hone : ∀ x, U.decomp x = [m] → x = m := by
    intro x hx
    rcases pair_of_mem hU hm (by rw [hx]; simp) with e | ⟨b, e⟩
    · exact e
    · rw [(decomp_pair hU hm e).1] at hx
      simp at hx
  constructor
  · rintro ⟨b, h⟩
    have hlen : (s.flatMap U.decomp).length = 2 := by
      rw [← (canonOrder_perm U (s.flatMap U.decomp)).length_eq]
      show (nfd U s).length = 2
      rw [h]; rfl
    have hpos : ∀ c, 1 ≤ (U.decomp c).length := fun c => by
      have := hU.ne_nil c
      cases hd : U.decomp c with
      | nil => exact absurd hd this
      | cons _ _ => simp
    match s, h, hlen with
    | [], _, hlen => simp at hlen
    | [c], h, hlen =>
      simp only [List.flatMap_cons, List.flatMap_nil, List.append_nil] at hlen
      have hmem : m ∈ U.decomp c := by
        have : m ∈ nfd U [c] := by rw [h]; simp
        have := (canonOrder_perm U _).mem_iff.1 this
        simpa using this
      rcases pair_of_mem hU hm hmem with e | ⟨b', e⟩
      · rw [e, hself] at hlen
        simp at hlen
      · exact .inl ⟨c, b', rfl, e⟩
    | [x, y], h, hlen =>
      simp only [List.flatMap_cons, List.flatMap_nil, List.append_nil, List.length_append] at hlen
      have hx := hpos x
      have hy := hpos y
      obtain ⟨p, hp⟩ := List.length_eq_one_iff.1 (show (U.decomp x).length = 1 by omega)
      obtain ⟨q, hq⟩ := List.length_eq_one_iff.1 (show (U.decomp y).length = 1 by omega)
      have h' : canonOrder U [p, q] = [b, m] := by
        have : nfd U [x, y] = canonOrder U [p, q] := by simp [nfd, hp, hq]
        rw [← this, h]
      rw [canonOrder_two] at h'
      split at h'
      case isTrue hlt =>
        injection h' with e1 e2
        injection e2 with e2 _
        subst e2
        have := hone x hp
        subst this
        exact .inr (.inr ⟨y, q, rfl, hq, by omega, by omega⟩)
      case isFalse hnlt =>
        injection h' with e1 e2
        injection e2 with e2 _
        subst e2
        have := hone y hq
        subst this
        exact .inr (.inl ⟨x, p, rfl, hp, by omega⟩)
    | x :: y :: z :: rest, _, hlen =>
      simp only [List.flatMap_cons, List.length_append] at hlen
      have := hpos x
      have := hpos y
      have := hpos z
      omega
  · rintro (⟨c, b, rfl, h⟩ | ⟨x, b, rfl, h, hb⟩ | ⟨x, b, rfl, h, hb⟩)
    · obtain ⟨h1, h2⟩ := decomp_pair hU hm h
      refine ⟨b, ?_⟩
      simp only [nfd, List.flatMap_cons, List.flatMap_nil, List.append_nil, h1, canonOrder_two]
      rw [if_neg (by omega)]
    · refine ⟨b, ?_⟩
      simp only [nfd, List.flatMap_cons, List.flatMap_nil, List.append_nil, h, hself, List.singleton_append, canonOrder_two]
      rw [if_neg (by omega)]
    · refine ⟨b, ?_⟩
      simp only [nfd, List.flatMap_cons, List.flatMap_nil, List.append_nil, h, hself, List.singleton_append, canonOrder_two]
      rw [if_pos (by omega)]

end Cjk
