import Verif.Props.DictLines
import Verif.Spec.DictLine
/-!
# Running the line patterns on arbitrary strings
-/

namespace Cjk
open Py

/-- Greedy repetition followed by something that cannot start with a character of the class: only the longest repetition counts. -/
theorem manySplits_flatMap {α : Type} {p : Nat → Bool} (s : Str) (f : Str → List α) (hf : ∀ c t, p c = true → f (c :: t) = []) :
    (manySplits p s).flatMap f = f (s.dropWhile p) := by
  induction s with
  | nil => simp [manySplits]
  | cons c s ih =>
    simp only [manySplits, List.dropWhile_cons]
    cases h : p c with
    | true => simp [ih, hf c s h]
    | false => simp

theorem run_seq_def (a b : Re) (s : Str) (c : Caps) : (Re.seq a b).run s c = (a.run s c).flatMap (fun r => b.run r.1 r.2) := rfl

theorem run_seq_assoc (a b d : Re) (s : Str) (c : Caps) : (Re.seq (.seq a b) d).run s c = (Re.seq a (.seq b d)).run s c := by
  simp only [run_seq_def, List.flatMap_assoc]

theorem run_opt_seq (a b : Re) (s : Str) (c : Caps) : (Re.seq (Re.opt a) b).run s c = (Re.seq a b).run s c ++ b.run s c := by
  simp [Re.opt, Re.run]

theorem run_lit_cons_ne {x : Nat} {l : Str} {b : Re} {s : Str} {c : Caps} (h : s.head? ≠ some x) :
    (Re.seq (Re.lit (x :: l)) b).run s c = [] := by
  apply Re.run_seq_nil_left
  apply Re.run_lit_ne
  rintro ⟨t, rfl⟩
  exact h rfl

theorem run_litSeq_eq (l : Str) (b : Re) (s : Str) (c : Caps) :
    (Re.seq (Re.lit l) b).run s c = if l <+: s then b.run (s.drop l.length) c else [] := by
  rw [run_seq_def, Re.run_lit]
  by_cases h : l <+: s
  · rw [if_pos (List.isPrefixOf_iff_prefix.2 h), if_pos h]; simp
  · rw [if_neg (fun h' => h (List.isPrefixOf_iff_prefix.1 h')), if_neg h]; rfl

theorem takeWhile_all {p : Nat → Bool} {s : Str} {c : Nat} (h : c ∈ s.takeWhile p) : p c = true := by
  induction s with
  | nil => simp at h
  | cons d s ih =>
    rw [List.takeWhile_cons] at h
    split at h
    · rename_i hd
      rcases List.mem_cons.1 h with rfl | h
      · exact hd
      · exact ih h
    · simp at h

theorem notChr_eq (x : Nat) : notChr x = (fun c => c != x) := rfl

theorem cut_eq_none {x : Nat} {s : Str} : Spec.cut x s = none ↔ x ∉ s := by
  unfold Spec.cut; split <;> simp_all

theorem dropWhile_of_mem {x : Nat} {s : Str} (h : x ∈ s) : s.dropWhile (· != x) = x :: (s.dropWhile (· != x)).drop 1 := by
  induction s with
  | nil => simp at h
  | cons c s ih =>
    rw [List.dropWhile_cons]
    by_cases hc : c = x
    · subst hc; simp
    · have : (c != x) = true := by simpa using hc
      rw [this]; simp only [if_true]
      exact ih (by rcases List.mem_cons.1 h with h | h; exact absurd h.symm hc; exact h)

theorem dropWhile_of_not_mem {x : Nat} {s : Str} (h : x ∉ s) : s.dropWhile (· != x) = [] := by
  induction s with
  | nil => rfl
  | cons c s ih =>
    simp only [List.mem_cons, not_or] at h
    rw [List.dropWhile_cons]
    have : (c != x) = true := by simpa using Ne.symm h.1
    rw [this]; exact ih h.2

theorem take_sub_dropWhile (p : Nat → Bool) (s : Str) : s.take (s.length - (s.dropWhile p).length) = s.takeWhile p := by
  have : s.length - (s.dropWhile p).length = (s.takeWhile p).length := by
    have := congrArg List.length (List.takeWhile_append_dropWhile (p := p) (l := s))
    rw [List.length_append] at this; omega
  rw [this]
  have e : (s.takeWhile p ++ s.dropWhile p).take (s.takeWhile p).length = s.takeWhile p := List.take_left' rfl
  rwa [List.takeWhile_append_dropWhile] at e

theorem cut_spec {x : Nat} {s w t : Str} (h : Spec.cut x s = some (w, t)) : s = w ++ x :: t ∧ x ∉ w := by
  unfold Spec.cut at h
  split at h
  · rename_i hm
    cases h
    refine ⟨?_, ?_⟩
    · rw [← dropWhile_of_mem hm]; exact (List.takeWhile_append_dropWhile).symm
    · intro hm'
      have := takeWhile_all hm'
      simp at this
  · cases h

theorem cut_append {x : Nat} {w t : Str} (h : x ∉ w) : Spec.cut x (w ++ x :: t) = some (w, t) := by
  have h1 : (w ++ x :: t).takeWhile (· != x) = w := by
    rw [List.takeWhile_append_of_pos]
    · simp
    · intro c hc; simp only [bne_iff_ne, ne_eq]; rintro rfl; exact h hc
  have h2 : (w ++ x :: t).dropWhile (· != x) = x :: t := by
    rw [List.dropWhile_append_of_pos]
    · simp
    · intro c hc; simp only [bne_iff_ne, ne_eq]; rintro rfl; exact h hc
  unfold Spec.cut
  rw [if_pos (by simp), h1, h2]; rfl

/-- `(?P<n>[^x]+)x...` -/
theorem run_field (n : Str) (x : Nat) (l : Str) (b : Re) (s : Str) (c : Caps) :
    (Re.seq (.group n (Re.plus (notChr x))) (.seq (Re.lit (x :: l)) b)).run s c =
      match Spec.cut x s with
      | none => []
      | some (w, t) => if w ≠ [] ∧ l <+: t then b.run (t.drop l.length) (Dict.set c n w) else [] := by
  cases s with
  | nil => simp [run_seq_def, Re.run, Re.plus, Spec.cut]
  | cons y s =>
    by_cases hy : y = x
    · subst hy
      have : Spec.cut y (y :: s) = some ([], s) := by
        have := cut_append (x := y) (w := []) (t := s) (by simp)
        simpa using this
      rw [this]
      simp [run_seq_def, Re.run, Re.plus, notChr]
    · have hp : notChr x y = true := notChr_of_ne hy
      -- everything behind the first character
      have h1 : (Re.seq (.group n (Re.plus (notChr x))) (.seq (Re.lit (x :: l)) b)).run (y :: s) c =
          (manySplits (notChr x) s).flatMap (fun t => (Re.seq (Re.lit (x :: l)) b).run t
            (Dict.set c n ((y :: s).take ((y :: s).length - t.length)))) := by
        simp only [run_seq_def, Re.run, Re.plus, hp, if_true, List.flatMap_cons, List.flatMap_nil, List.append_nil, List.map_map,
          List.flatMap_map, Function.comp_def]
      rw [h1, manySplits_flatMap]
      · rw [notChr_eq]
        by_cases hm : x ∈ y :: s
        · obtain ⟨w, t, hc⟩ : ∃ w t, Spec.cut x (y :: s) = some (w, t) := by
            unfold Spec.cut; rw [if_pos hm]; exact ⟨_, _, rfl⟩
          have hms : x ∈ s := by rcases List.mem_cons.1 hm with h | h; exact absurd h.symm hy; exact h
          have hd : (y :: s).dropWhile (· != x) = s.dropWhile (· != x) := by
            rw [List.dropWhile_cons]
            have : (y != x) = true := by simpa using hy
            rw [this]; rfl
          have hw : w = (y :: s).takeWhile (· != x) ∧ t = (s.dropWhile (· != x)).drop 1 := by
            unfold Spec.cut at hc; rw [if_pos hm] at hc; cases hc; rw [hd]; exact ⟨rfl, rfl⟩
          have ht : s.dropWhile (· != x) = x :: t := by rw [hw.2]; exact dropWhile_of_mem hms
          have hcap : (y :: s).take ((y :: s).length - (s.dropWhile (· != x)).length) = w := by
            rw [← hd, take_sub_dropWhile, hw.1]
          rw [hcap, hc, ht, run_litSeq_eq]
          have hwne : w ≠ [] := by
            rw [hw.1, List.takeWhile_cons]
            have : (y != x) = true := by simpa using hy
            rw [this]; simp
          simp only [hwne, ne_eq, not_false_eq_true, true_and, List.prefix_cons_iff, List.length_cons, List.drop_succ_cons]
          by_cases hl : l <+: t
          · rw [if_pos hl, if_pos]; simpa using hl
          · rw [if_neg hl, if_neg]; simpa using hl
        · rw [cut_eq_none.2 hm]
          rw [dropWhile_of_not_mem (fun h => hm (List.mem_cons_of_mem _ h))]
          exact run_lit_cons_ne (by simp)
      · intro c' t hc'
        apply run_lit_cons_ne
        simp only [List.head?_cons, ne_eq, Option.some.injEq]
        rintro rfl
        simp [notChr] at hc'

/-- The same without a group. -/
theorem run_field_plain (x : Nat) (l : Str) (b : Re) (s : Str) (c : Caps) :
    (Re.seq (Re.plus (notChr x)) (.seq (Re.lit (x :: l)) b)).run s c =
      match Spec.cut x s with
      | none => []
      | some (w, t) => if w ≠ [] ∧ l <+: t then b.run (t.drop l.length) c else [] := by
  cases s with
  | nil => simp [run_seq_def, Re.run, Re.plus, Spec.cut]
  | cons y s =>
    by_cases hy : y = x
    · subst hy
      have : Spec.cut y (y :: s) = some ([], s) := by
        have := cut_append (x := y) (w := []) (t := s) (by simp)
        simpa using this
      rw [this]
      simp [run_seq_def, Re.run, Re.plus, notChr]
    · have hp : notChr x y = true := notChr_of_ne hy
      have h1 : (Re.seq (Re.plus (notChr x)) (.seq (Re.lit (x :: l)) b)).run (y :: s) c =
          (manySplits (notChr x) s).flatMap (fun t => (Re.seq (Re.lit (x :: l)) b).run t c) := by
        simp only [run_seq_def, Re.run, Re.plus, hp, if_true, List.flatMap_cons, List.flatMap_nil, List.append_nil,
          List.flatMap_map]
      rw [h1, manySplits_flatMap]
      · rw [notChr_eq]
        by_cases hm : x ∈ y :: s
        · obtain ⟨w, t, hc⟩ : ∃ w t, Spec.cut x (y :: s) = some (w, t) := by
            unfold Spec.cut; rw [if_pos hm]; exact ⟨_, _, rfl⟩
          have hms : x ∈ s := by rcases List.mem_cons.1 hm with h | h; exact absurd h.symm hy; exact h
          have hd : (y :: s).dropWhile (· != x) = s.dropWhile (· != x) := by
            rw [List.dropWhile_cons]
            have : (y != x) = true := by simpa using hy
            rw [this]; rfl
          have hw : w = (y :: s).takeWhile (· != x) ∧ t = (s.dropWhile (· != x)).drop 1 := by
            unfold Spec.cut at hc; rw [if_pos hm] at hc; cases hc; rw [hd]; exact ⟨rfl, rfl⟩
          have ht : s.dropWhile (· != x) = x :: t := by rw [hw.2]; exact dropWhile_of_mem hms
          rw [hc, ht, run_litSeq_eq]
          have hwne : w ≠ [] := by
            rw [hw.1, List.takeWhile_cons]
            have : (y != x) = true := by simpa using hy
            rw [this]; simp
          simp only [hwne, ne_eq, not_false_eq_true, true_and, List.prefix_cons_iff, List.length_cons, List.drop_succ_cons]
          by_cases hl : l <+: t
          · rw [if_pos hl, if_pos]; simpa using hl
          · rw [if_neg hl, if_neg]; simpa using hl
        · rw [cut_eq_none.2 hm]
          rw [dropWhile_of_not_mem (fun h => hm (List.mem_cons_of_mem _ h))]
          exact run_lit_cons_ne (by simp)
      · intro c' t hc'
        apply run_lit_cons_ne
        simp only [List.head?_cons, ne_eq, Option.some.injEq]
        rintro rfl
        simp [notChr] at hc'

theorem chomp_dropWhile (s : Str) : (0x0a ∉ s.dropLast) ↔ (s.dropWhile Re.dot = [] ∨ s.dropWhile Re.dot = [0x0a]) := by
  induction s with
  | nil => simp
  | cons c s ih =>
    rw [List.dropWhile_cons]
    by_cases hc : c = 0x0a
    · subst hc
      have : Re.dot 0x0a = false := rfl
      rw [this]
      cases s with
      | nil => simp
      | cons d s => simp [List.dropLast]
    · have : Re.dot c = true := by simp [Re.dot, hc]
      rw [this]; simp only [if_true]
      rw [← ih]
      cases s with
      | nil => simp
      | cons d s => simp [List.dropLast, Ne.symm hc]

/-- `(?P<senses>.*)$` -/
theorem run_rest_eol (n : Str) (s : Str) (c : Caps) :
    (Re.seq (.group n (.many Re.dot)) .eol).run s c =
      match Spec.chomp s with
      | none => []
      | some u => [(s.dropWhile Re.dot, Dict.set c n u)] := by
  have h1 : (Re.seq (.group n (.many Re.dot)) .eol).run s c =
      (manySplits Re.dot s).flatMap (fun t => Re.eol.run t (Dict.set c n (s.take (s.length - t.length)))) := by
    simp only [Re.run, List.map_map, List.flatMap_map, Function.comp_def]
  rw [h1, manySplits_flatMap]
  · simp only [Re.run]
    rw [take_sub_dropWhile]
    unfold Spec.chomp
    by_cases h : 0x0a ∈ s.dropLast
    · rw [if_pos h, if_neg (fun h' => (chomp_dropWhile s).2 h' h)]
    · rw [if_neg h, if_pos ((chomp_dropWhile s).1 h)]; rfl
  · intro c' t hc'
    simp only [Re.run]
    rw [if_neg]
    rintro (h | h)
    · cases h
    · cases h; cases hc'

/-- `(?P<senses>.*)` -/
theorem first_rest (n : Str) (s : Str) (c : Caps) :
    (Re.group n (.many Re.dot)).first s c = some (s.dropWhile Re.dot, Dict.set c n (s.takeWhile (· != 0x0a))) := by
  have e : s = s.takeWhile (· != 0x0a) ++ s.dropWhile (· != 0x0a) := List.takeWhile_append_dropWhile.symm
  have := Re.first_group' (n := n) (Re.first_many (p := Re.dot) (s.takeWhile (· != 0x0a)) (s.dropWhile (· != 0x0a)) c
    (fun x hx => takeWhile_all hx) (by
      intro x hx
      have := List.head?_dropWhile_not (· != 0x0a) s
      rw [hx] at this
      simpa [Re.dot] using this))
  rw [← e] at this
  exact this

/-- `\[(?P<reading>[^\]]+)\]...` -/
theorem run_bracket (close : Str) (b : Re) (s : Str) (c : Caps) :
    (Re.seq (Re.cat [Re.lit u!"[", .group u!"reading" (Re.plus (notChr 0x5d)), Re.lit (0x5d :: close)]) b).run s c =
      match Spec.bracketed close s with
      | (none, _) => []
      | (some r, t) => b.run t (Dict.set c u!"reading" r) := by
  have h1 : (Re.seq (Re.cat [Re.lit u!"[", .group u!"reading" (Re.plus (notChr 0x5d)), Re.lit (0x5d :: close)]) b).run s c =
      (Re.seq (Re.lit u!"[") (.seq (.group u!"reading" (Re.plus (notChr 0x5d))) (.seq (Re.lit (0x5d :: close)) b))).run s c := by
    simp only [Re.cat, run_seq_def, List.flatMap_assoc]
  rw [h1, run_litSeq_eq]
  unfold Spec.bracketed
  match s with
  | [] => simp
  | y :: u =>
    by_cases hy : y = 0x5b
    · subst hy
      rw [if_pos (by simp)]
      simp only [List.length_cons, List.length_nil, Nat.zero_add, List.drop_succ_cons, List.drop_zero, run_field]
      cases hc : Spec.cut 0x5d u with
      | none => rfl
      | some wt =>
        obtain ⟨w, t⟩ := wt
        simp only
        by_cases h : w ≠ [] ∧ close <+: t
        · rw [if_pos h, if_pos h]
        · rw [if_neg h, if_neg h]
    · rw [if_neg (by simp [List.prefix_cons_iff, Ne.symm hy])]
      split
      · rfl
      · rename_i h
        split at h
        · rename_i heq; cases heq; exact absurd rfl hy
        · cases h

end Cjk
