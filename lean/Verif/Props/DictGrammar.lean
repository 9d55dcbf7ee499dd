import Verif.Lemmas.ReRun
import Verif.Py.Split
import Verif.Py.ReGroup
/-!
# C92: the dictionary line formats, exactly

`parse_line` of each of the four formats is computed by a reader that uses no regular expressions (Spec/DictLine.lean), for every string.
-/

namespace Cjk
open Py

/-! ### The sense patterns on arbitrary text -/

/-- The senses found in a text. -/
def sensesFound (f : Re) (t : Str) : List Str := (f.finditer t).map (fun m => (Dict.get? m.2 u!"sense").getD [])

theorem splitChr_takeWhile (sep : Nat) (s : Str) :
    splitChr sep s = match s.dropWhile (· != sep) with
      | [] => [s]
      | _ :: t => s.takeWhile (· != sep) :: splitChr sep t := by
  by_cases h : sep ∈ s
  · have e := dropWhile_of_mem h
    generalize (s.dropWhile (· != sep)).drop 1 = t at e
    rw [e]
    simp only
    have hs : s = s.takeWhile (· != sep) ++ sep :: t := by rw [← e]; exact List.takeWhile_append_dropWhile.symm
    have hn : sep ∉ s.takeWhile (· != sep) := by
      intro hm; have := takeWhile_all hm; simp at this
    conv => lhs; rw [hs]
    rw [splitChr_append_sep, splitChr_of_not_mem hn]
    rfl
  · rw [dropWhile_of_not_mem h, splitChr_of_not_mem h]

theorem slashSense_text (t : Str) : sensesFound slashSense t = Spec.slashPieces t := by
  unfold sensesFound Spec.slashPieces
  induction hn : t.length using Nat.strongRecOn generalizing t with
  | _ n ih =>
    cases t with
    | nil => decide +kernel
    | cons c t =>
      by_cases hc : c = 0x2f
      · subst hc
        have hsp : splitChr 0x2f (0x2f :: t) = [] :: splitChr 0x2f t := by simp [splitChr]
        rw [hsp]
        simp only [List.drop_succ_cons, List.drop_zero]
        have hs := splitChr_takeWhile 0x2f t
        have ht : t = t.takeWhile (· != 0x2f) ++ t.dropWhile (· != 0x2f) := List.takeWhile_append_dropWhile.symm
        by_cases hp : t.takeWhile (· != 0x2f) = []
        · -- an empty piece
          have hskip : slashSense.first (0x2f :: t) [] = none := by
            rw [Re.first_eq_none]
            unfold slashSense
            rw [run_litSeq_eq, if_pos (by simp)]
            rw [List.eq_nil_iff_forall_not_mem]
            rintro ⟨t', c'⟩ hm
            obtain ⟨u, h1, h2, h3, _⟩ := Re.mem_run_group_plus hm
            simp only [List.length_cons, List.length_nil, Nat.zero_add, List.drop_succ_cons, List.drop_zero] at h1
            cases u with
            | nil => exact h2 rfl
            | cons x u =>
              rw [h1, List.cons_append, List.takeWhile_cons] at hp
              have := h3 x (by simp)
              unfold notChr at this
              rw [this] at hp
              simp at hp
          rw [Re.finditer_skip _ _ _ hskip, ih t.length (by simp at hn; omega) t rfl, hs]
          cases hd : t.dropWhile (· != 0x2f) with
          | nil =>
            rw [hp, hd] at ht
            simp [ht]
          | cons y u => simp [hp]
        · have hm : slashSense.first ((u!"/" ++ t.takeWhile (· != 0x2f)) ++ t.dropWhile (· != 0x2f)) [] =
              some (t.dropWhile (· != 0x2f), Dict.set [] u!"sense" (t.takeWhile (· != 0x2f))) := by
            unfold slashSense
            rw [List.append_assoc]
            refine Re.first_seq (Re.first_lit _ _ _) (Re.first_group' (Re.first_plus _ _ [] hp (fun x hx => takeWhile_all hx) ?_))
            intro x hx
            have := List.head?_dropWhile_not (· != 0x2f) t
            rw [hx] at this
            simpa [notChr] using this
          have e : 0x2f :: t = (u!"/" ++ t.takeWhile (· != 0x2f)) ++ t.dropWhile (· != 0x2f) := by
            rw [List.append_assoc, ← ht]; rfl
          rw [e, Re.finditer_match _ _ _ _ (by simp) hm]
          simp only [List.map_cons]
          have hlen : (t.dropWhile (· != 0x2f)).length < n := by
            have := congrArg List.length ht
            rw [List.length_append] at this
            simp at hn; omega
          rw [ih _ hlen _ rfl, hs]
          cases hd : t.dropWhile (· != 0x2f) with
          | nil =>
            have ht' := ht
            rw [hd, List.append_nil] at ht'
            rw [← ht'] at hp ⊢
            simp [hp, splitChr]
          | cons y u =>
            have hy : y = 0x2f := by
              have := List.head?_dropWhile_not (· != 0x2f) t
              rw [hd] at this
              simpa using this
            subst hy
            have hsp' : splitChr 0x2f (0x2f :: u) = [] :: splitChr 0x2f u := by simp [splitChr]
            simp only [hsp', List.drop_succ_cons, List.drop_zero]
            rw [List.filter_cons_of_pos (by simp [hp])]
            rfl
      · have hskip : slashSense.first (c :: t) [] = none := by
          rw [Re.first_eq_none]
          exact run_lit_cons_ne (by simp [hc])
        obtain ⟨p, ps, h1, h2⟩ := splitChr_cons_ne 0x2f hc t
        rw [Re.finditer_skip _ _ _ hskip, ih t.length (by simp at hn; omega) t rfl, h1, h2]
        rfl

theorem jcSense_text (t : Str) : sensesFound jcSense t = (splitChr c!"，" t).filter (· ≠ []) := by
  unfold sensesFound
  induction hn : t.length using Nat.strongRecOn generalizing t with
  | _ n ih =>
    cases t with
    | nil => decide +kernel
    | cons c t =>
      by_cases hc : c = c!"，"
      · subst hc
        have hskip : jcSense.first (c!"，" :: t) [] = none := by
          rw [Re.first_eq_none]
          unfold jcSense
          apply Re.run_seq_nil_left
          simp [Re.run, Re.plus, notChr]
        rw [Re.finditer_skip _ _ _ hskip, ih t.length (by simp at hn; omega) t rfl]
        simp [splitChr]
      · have hs := splitChr_takeWhile c!"，" (c :: t)
        have ht : c :: t = (c :: t).takeWhile (· != c!"，") ++ (c :: t).dropWhile (· != c!"，") := List.takeWhile_append_dropWhile.symm
        have hp : (c :: t).takeWhile (· != c!"，") ≠ [] := by
          rw [List.takeWhile_cons]
          have : (c != c!"，") = true := by simpa using hc
          rw [this]; simp
        generalize hw : (c :: t).takeWhile (· != c!"，") = w at *
        have hall : ∀ x ∈ w, notChr c!"，" x = true := by intro x hx; rw [← hw] at hx; exact takeWhile_all hx
        cases hd : (c :: t).dropWhile (· != c!"，") with
        | nil =>
          rw [hd, List.append_nil] at ht
          rw [hs, hd, ht]
          have hf : jcSense.first (w ++ []) [] = some ([], Dict.set [] u!"sense" w) :=
            Re.first_seq (Re.first_group' (Re.first_plus w [] [] hp hall (by intro x hx; cases hx)))
              ((Re.first_alt_right (Re.run_lit_ne _ _ _ (by rintro ⟨t, ht⟩; cases ht))).trans (Re.first_eps _ _))
          have := Re.finditer_match jcSense w [] _ hp hf
          rw [List.append_nil] at this
          rw [this, jcSense_end]
          simp [hp]
        | cons y u =>
          have hy : y = c!"，" := by
            have := List.head?_dropWhile_not (· != c!"，") (c :: t)
            rw [hd] at this
            simpa using this
          subst hy
          rw [hd] at ht
          rw [hs, hd, ht]
          have hf : jcSense.first ((w ++ u!"，") ++ u) [] = some (u, Dict.set [] u!"sense" w) := by
            rw [List.append_assoc]
            exact Re.first_seq (Re.first_group' (Re.first_plus w _ [] hp hall (by intro x hx; cases hx; rfl)))
              (Re.first_alt_left (Re.first_lit _ _ _))
          have e : w ++ c!"，" :: u = (w ++ u!"，") ++ u := by simp
          have hlen : u.length < n := by
            have := congrArg List.length ht
            simp only [List.length_append, List.length_cons] at this hn
            omega
          rw [e, Re.finditer_match _ _ _ _ (by simp) hf]
          simp only [List.map_cons]
          rw [ih _ hlen u rfl, List.filter_cons_of_pos (by simp [hp])]
          rfl

theorem cjDigit_eq : cjDigit = fun c => u!"１２３４５７８９０".contains c := rfl

theorem cjDigit_dot : cjDigit 0xff0e = false := by decide +kernel
theorem cjDigit_bs : cjDigit 0x5c = false := by decide +kernel

theorem dropWhile_digits {n r : Str} (h : ∀ x ∈ n, cjDigit x = true) :
    (n ++ 0xff0e :: r).dropWhile cjDigit = 0xff0e :: r := by
  rw [List.dropWhile_append_of_pos h, List.dropWhile_cons, cjDigit_dot]; rfl

theorem unnumbered_number {n r : Str} (hn : n ≠ []) (h : ∀ x ∈ n, cjDigit x = true) (hr : r ≠ []) :
    Spec.unnumbered (n ++ 0xff0e :: r) = r := by
  unfold Spec.unnumbered
  rw [← cjDigit_eq, dropWhile_digits h]
  simp only
  rw [if_pos]
  refine ⟨?_, hr⟩
  obtain ⟨x, n, rfl⟩ := List.exists_cons_of_ne_nil hn
  simp only [List.cons_append, List.head?_cons, ne_eq, Option.some.injEq]
  rintro rfl
  have := h 0xff0e (by simp)
  rw [cjDigit_dot] at this
  cases this

/-- A sense number is recognised exactly if digits, the dot and further text are there. -/
theorem unnumbered_cases (w : Str) :
    (∃ n r, w = n ++ 0xff0e :: r ∧ n ≠ [] ∧ (∀ x ∈ n, cjDigit x = true) ∧ r ≠ []) ∨
    ((¬ ∃ n r, w = n ++ 0xff0e :: r ∧ n ≠ [] ∧ (∀ x ∈ n, cjDigit x = true) ∧ r ≠ []) ∧ Spec.unnumbered w = w) := by
  by_cases h : ∃ n r, w = n ++ 0xff0e :: r ∧ n ≠ [] ∧ (∀ x ∈ n, cjDigit x = true) ∧ r ≠ []
  · exact Or.inl h
  · refine Or.inr ⟨h, ?_⟩
    unfold Spec.unnumbered
    rw [← cjDigit_eq]
    split
    · rename_i r hd
      split
      · rename_i hc
        refine absurd ⟨w.takeWhile cjDigit, r, ?_, ?_, fun x hx => takeWhile_all hx, hc.2⟩ h
        · rw [← hd]; exact List.takeWhile_append_dropWhile.symm
        · intro h0
          have e : w = w.takeWhile cjDigit ++ w.dropWhile cjDigit := List.takeWhile_append_dropWhile.symm
          rw [h0, hd] at e
          rw [e] at hc
          exact hc.1 rfl
      · rfl
    · rfl

/-- One sense at the front, up to the next backslash or the end. -/
theorem cjSense_front (w t : Str) (hw : w ≠ []) (hb : 0x5c ∉ w) (ht : ∀ x, t.head? = some x → x = 0x5c) :
    ∃ c, (∀ r, Re.first (Re.opt (.group u!"3" (Re.lit u!"\\n"))) t c = some r → cjSense.first (w ++ t) [] = some r) ∧
      Dict.get? c u!"sense" = some (Spec.unnumbered w) := by
  have hsense : ∀ (s : Str) (c : Caps), s ≠ [] → 0x5c ∉ s →
      (Re.group u!"sense" (Re.plus (notChr 0x5c))).first (s ++ t) c = some (t, Dict.set c u!"sense" s) := by
    intro s c h1 h2
    refine Re.first_group' (Re.first_plus s t c h1 (all_notChr h2) ?_)
    intro x hx; rw [ht x hx]; rfl
  rcases unnumbered_cases w with ⟨n, s, rfl, hn, hd, hs⟩ | ⟨hno, hu⟩
  · refine ⟨Dict.set (Dict.set [] u!"1" (n ++ u!"．")) u!"sense" s, ?_, ?_⟩
    · intro r hr
      have hsp : n ++ 0xff0e :: s ++ t = (n ++ u!"．") ++ (s ++ t) := by simp
      rw [hsp]
      refine Re.first_seq (Re.first_alt_left (Re.first_group' ?_)) (Re.first_seq (hsense s _ hs ?_) hr)
      · rw [List.append_assoc]
        refine Re.first_seq (Re.first_plus n _ _ hn hd ?_) (Re.first_lit _ _ _)
        intro x hx; cases hx; exact cjDigit_dot
      · intro h; exact hb (by simp [h])
    · rw [Dict.get?_set, if_pos rfl, unnumbered_number hn hd hs]
  · refine ⟨Dict.set [] u!"sense" w, ?_, by rw [Dict.get?_set, if_pos rfl, hu]⟩
    intro r hr
    have hrest := Re.first_seq (hsense w [] hw hb) hr
    have hrun : cjSense.run (w ++ t) [] = _ := run_opt_seq (.group u!"1" (.seq (Re.plus cjDigit) (Re.lit u!"．")))
      (.seq (.group u!"sense" (Re.plus (notChr 0x5c))) (Re.opt (.group u!"3" (Re.lit u!"\\n")))) (w ++ t) []
    have hnil : (Re.seq (.group u!"1" (.seq (Re.plus cjDigit) (Re.lit u!"．")))
        (.seq (.group u!"sense" (Re.plus (notChr 0x5c))) (Re.opt (.group u!"3" (Re.lit u!"\\n"))))).run (w ++ t) [] = [] := by
      rw [List.eq_nil_iff_forall_not_mem]
      rintro ⟨t', c'⟩ hm
      obtain ⟨s1, c1, h1, h2⟩ := Re.mem_run_seq hm
      obtain ⟨s2, c2, h3, _⟩ := Re.mem_run_seq h2
      obtain ⟨v, rfl, hv, hvb, _⟩ := Re.mem_run_group_plus h3
      obtain ⟨c3, h4, _⟩ := Re.mem_run_group h1
      obtain ⟨s3, c4, h5, h6⟩ := Re.mem_run_seq h4
      obtain ⟨n, h7, hn, hd, _⟩ := Re.mem_run_plus h5
      obtain ⟨rfl, _⟩ := Re.mem_run_lit1 h6
      -- the number and the dot lie within `w`
      have hlen : (n ++ [0xff0e]) <+: w := by
        have hp1 : (n ++ [0xff0e]) <+: w ++ t := ⟨v ++ s2, by rw [h7]; simp⟩
        rcases List.prefix_or_prefix_of_prefix hp1 (List.prefix_append w t) with h | h
        · exact h
        · obtain ⟨z, hz⟩ := h
          cases z with
          | nil => rw [List.append_nil] at hz; rw [hz]; exact List.prefix_refl _
          | cons y z =>
            exfalso
            have : t.head? = some y := by
              have h8 : w ++ t = w ++ (y :: z ++ (v ++ s2)) := by
                rw [h7, ← List.append_assoc, hz]; simp
              rw [List.append_cancel_left h8]; rfl
            have hy := ht y this
            subst hy
            have hmem : 0x5c ∈ n ++ [0xff0e] := by rw [← hz]; simp
            rcases List.mem_append.1 hmem with h | h
            · have := hd _ h; rw [cjDigit_bs] at this; cases this
            · simp at h
      obtain ⟨r', hr'⟩ := hlen
      have hs1 : v ++ s2 = r' ++ t := by
        have : n ++ [0xff0e] ++ (v ++ s2) = n ++ [0xff0e] ++ (r' ++ t) := by
          rw [← List.append_assoc _ r' t, hr', h7]; simp
        exact List.append_cancel_left this
      refine hno ⟨n, r', by rw [← hr']; simp, hn, hd, ?_⟩
      rintro rfl
      rw [List.nil_append] at hs1
      obtain ⟨y, v, rfl⟩ := List.exists_cons_of_ne_nil hv
      have := ht y (by rw [← hs1]; rfl)
      subst this
      have := hvb 0x5c (by simp)
      simp [notChr] at this
    unfold Re.first at hrest ⊢
    rw [hrun, hnil, List.nil_append]
    exact hrest

theorem cjPieces_n (p : Str) (ps : List Str) : Spec.cjPieces true ((c!"n" :: p) :: ps) = Spec.cjPieces false (p :: ps) := by
  simp [Spec.cjPieces]

theorem cjPieces_not_n (u : Str) (h : u.head? ≠ some c!"n") :
    Spec.cjPieces true (splitChr 0x5c u) = Spec.cjPieces false (splitChr 0x5c u) := by
  cases u with
  | nil => rfl
  | cons c u =>
    by_cases hc : c = 0x5c
    · subst hc
      have : splitChr 0x5c (0x5c :: u) = [] :: splitChr 0x5c u := by simp [splitChr]
      rw [this]; rfl
    · obtain ⟨p, ps, _, h2⟩ := splitChr_cons_ne 0x5c hc u
      rw [h2]
      have : ¬ ((c :: p).head? = some c!"n") := by simpa using h
      simp only [Spec.cjPieces, this, and_false, if_false]

theorem cjSense_text (t : Str) : sensesFound cjSense t = Spec.cjPieces false (splitChr 0x5c t) := by
  unfold sensesFound
  induction hn : t.length using Nat.strongRecOn generalizing t with
  | _ n ih =>
    cases t with
    | nil => decide +kernel
    | cons c t =>
      by_cases hc : c = 0x5c
      · subst hc
        have hskip : cjSense.first (0x5c :: t) [] = none := by
          rw [Re.first_eq_none]
          simp [cjSense, Re.cat, Re.run, Re.opt, Re.plus, notChr, cjDigit_bs]
        rw [Re.finditer_skip _ _ _ hskip, ih t.length (by simp at hn; omega) t rfl]
        have : splitChr 0x5c (0x5c :: t) = [] :: splitChr 0x5c t := by simp [splitChr]
        rw [this]; rfl
      · have hs := splitChr_takeWhile 0x5c (c :: t)
        have ht : c :: t = (c :: t).takeWhile (· != 0x5c) ++ (c :: t).dropWhile (· != 0x5c) := List.takeWhile_append_dropWhile.symm
        have hp : (c :: t).takeWhile (· != 0x5c) ≠ [] := by
          rw [List.takeWhile_cons]
          have : (c != 0x5c) = true := by simpa using hc
          rw [this]; simp
        have hb : 0x5c ∉ (c :: t).takeWhile (· != 0x5c) := by
          intro h; have := takeWhile_all h; simp at this
        generalize (c :: t).takeWhile (· != 0x5c) = w at *
        cases hd : (c :: t).dropWhile (· != 0x5c) with
        | nil =>
          rw [hd, List.append_nil] at ht
          rw [hs, hd, ht]
          obtain ⟨cp, h1, h2⟩ := cjSense_front w [] hp hb (by intro x hx; cases hx)
          have hend : Re.first (Re.opt (.group u!"3" (Re.lit u!"\\n"))) [] cp = some ([], cp) :=
            (Re.first_alt_right rfl).trans (Re.first_eps _ _)
          have := Re.finditer_match cjSense w [] _ hp (h1 _ hend)
          rw [List.append_nil] at this
          rw [this, cjSense_end]
          simp [h2, Spec.cjPieces, hp]
        | cons y u =>
          have hy : y = 0x5c := by
            have := List.head?_dropWhile_not (· != 0x5c) (c :: t)
            rw [hd] at this
            simpa using this
          subst hy
          rw [hd] at ht
          rw [hs, hd, ht]
          obtain ⟨cp, h1, h2⟩ := cjSense_front w (0x5c :: u) hp hb (by intro x hx; cases hx; rfl)
          have hlen : u.length + 1 < n := by
            have := congrArg List.length ht
            have hpl := List.length_pos_iff.2 hp
            simp only [List.length_append, List.length_cons] at this hn
            omega
          have hpieces : ∀ ps, Spec.cjPieces false (w :: ps) = Spec.unnumbered w :: Spec.cjPieces true ps := by
            intro ps; simp [Spec.cjPieces, hp]
          simp only
          rw [hpieces]
          by_cases hu : u.head? = some c!"n"
          · obtain ⟨v, rfl⟩ : ∃ v, u = c!"n" :: v := by
              cases u with
              | nil => cases hu
              | cons z v => cases hu; exact ⟨v, rfl⟩
            have hopt : Re.first (Re.opt (.group u!"3" (Re.lit u!"\\n"))) (u!"\\n" ++ v) cp =
                some (v, Dict.set cp u!"3" u!"\\n") := Re.first_alt_left (Re.first_group' (Re.first_lit _ _ _))
            have hf := h1 _ hopt
            have e : w ++ 0x5c :: c!"n" :: v = (w ++ u!"\\n") ++ v := by simp
            rw [e] at hf ⊢
            rw [Re.finditer_match _ _ _ _ (by simp) hf]
            obtain ⟨p, ps, h3, h4⟩ := splitChr_cons_ne 0x5c (show c!"n" ≠ 0x5c by decide) v
            rw [List.map_cons, ih _ (by simp at hlen; omega) v rfl, h3, h4, cjPieces_n]
            congr 1
            rw [Dict.get?_set, if_neg (by decide), h2]; rfl
          · have hopt : Re.first (Re.opt (.group u!"3" (Re.lit u!"\\n"))) (0x5c :: u) cp = some (0x5c :: u, cp) := by
              refine (Re.first_alt_right ?_).trans (Re.first_eps _ _)
              simp only [Re.run, List.map_eq_nil_iff]
              apply Re.run_lit_ne
              rintro ⟨z, hz⟩
              apply hu
              simp only [List.cons_append, List.nil_append, List.cons.injEq, true_and] at hz
              rw [← hz]; rfl
            rw [Re.finditer_match _ _ _ _ hp (h1 _ hopt)]
            have hskip : cjSense.first (0x5c :: u) [] = none := by
              rw [Re.first_eq_none]
              simp [cjSense, Re.cat, Re.run, Re.opt, Re.plus, notChr, cjDigit_bs]
            rw [List.map_cons, Re.finditer_skip _ _ _ hskip, ih _ (by omega) u rfl, cjPieces_not_n u hu, h2]
            rfl

/-! ### `parse_line` in terms of the match -/

theorem unspaced_eq (s : Str) : Spec.unspaced s = Spec.noSpaces s := rfl

theorem parseLine_none (f : RegexFormat) (s : Str) (h : f.line.run s [] = []) : f.parseLine s = .error .formatError := by
  unfold RegexFormat.parseLine Re.pyMatch Re.first
  rw [h]; rfl

theorem parseLine_some (f : RegexFormat) (s : Str) (t : Str) (caps : Caps) (w sl : Str) (r : Option Str)
    (hm : f.line.first s [] = some (t, caps)) (hw : Dict.get? caps u!"word" = some w)
    (hr : Dict.get? caps u!"reading" = r) (hrne : ∀ x, r = some x → x ≠ []) (hs : Dict.get? caps u!"senses" = some sl) :
    f.parseLine s = Spec.lineEntry w r (sensesFound f.sense sl) := by
  have hpm : f.line.pyMatch s = some caps := by unfold Re.pyMatch; rw [hm]; rfl
  unfold Spec.lineEntry
  by_cases h : sensesFound f.sense sl = []
  · rw [if_pos h]
    unfold sensesFound at h
    unfold RegexFormat.parseLine
    simp only [hpm, hw, hs, h, List.isEmpty_nil, if_true]
  · rw [if_neg h]
    exact parseLine_of_match f s caps w sl r _ hpm hw hr hrne hs rfl h

theorem bracketed_some {close t : Str} {r u : Str} (h : Spec.bracketed close t = (some r, u)) :
    r ≠ [] ∧ t = 0x5b :: (r ++ 0x5d :: (close ++ u)) := by
  unfold Spec.bracketed at h
  split at h
  · rename_i v
    cases hc : Spec.cut 0x5d v with
    | none => rw [hc] at h; cases h
    | some wt =>
      obtain ⟨w, z⟩ := wt
      rw [hc] at h
      simp only at h
      split at h
      · rename_i hp
        cases h
        obtain ⟨x, rfl⟩ := hp.2
        refine ⟨hp.1, ?_⟩
        rw [(cut_spec hc).1]
        simp
      · cases h
  · cases h

theorem bracketed_none {close t : Str} {u : Str} (h : Spec.bracketed close t = (none, u)) : u = t := by
  unfold Spec.bracketed at h
  split at h
  · rename_i v
    cases hc : Spec.cut 0x5d v with
    | none => rw [hc] at h; cases h; rfl
    | some wt =>
      obtain ⟨w, z⟩ := wt
      rw [hc] at h
      simp only at h
      split at h
      · cases h
      · cases h; rfl
  · cases h; rfl

theorem chomp_none_append (p s : Str) (h : Spec.chomp s = none) : Spec.chomp (p ++ s) = none := by
  unfold Spec.chomp at *
  have hm : 0x0a ∈ s.dropLast := by
    by_cases hm : 0x0a ∈ s.dropLast
    · exact hm
    · rw [if_neg hm] at h; cases h
  have hne : s ≠ [] := by rintro rfl; simp at hm
  rw [if_pos]
  rw [List.dropLast_append_of_ne_nil hne]
  exact List.mem_append_right _ hm

/-! ### The formats -/

/-- C92: EDICT lines. -/
theorem C92_edict (s : Str) : edict.parseLine s = Spec.readEdict s := by
  have hrun : edict.line.run s [] = match Spec.cut 0x20 s with
      | none => []
      | some (w, t) => if w ≠ [] ∧ [] <+: t then
          (Re.seq (Re.opt (Re.cat [Re.lit u!"[", .group u!"reading" (Re.plus (notChr 0x5d)), Re.lit u!"] "]))
            (.seq (.group u!"senses" (.many Re.dot)) .eol)).run t (Dict.set [] u!"word" w) else [] :=
    run_field u!"word" 0x20 [] _ s []
  unfold Spec.readEdict
  cases hc : Spec.cut 0x20 s with
  | none => rw [hc] at hrun; exact parseLine_none _ _ hrun
  | some wt =>
    obtain ⟨word, t⟩ := wt
    rw [hc] at hrun
    simp only [List.nil_prefix, and_true] at hrun ⊢
    by_cases hw : word = []
    · rw [if_neg (by simpa using hw)] at hrun
      rw [if_pos hw]
      exact parseLine_none _ _ hrun
    · rw [if_pos hw, run_opt_seq, run_bracket u!" ", run_rest_eol _ t] at hrun
      rw [if_neg hw]
      cases hb : Spec.bracketed u!" " t with
      | mk r u =>
        rw [hb] at hrun
        cases r with
        | none =>
          have := bracketed_none hb
          subst this
          simp only [List.nil_append] at hrun ⊢
          cases hch : Spec.chomp u with
          | none => rw [hch] at hrun; exact parseLine_none _ _ hrun
          | some x =>
            rw [hch] at hrun
            simp only at hrun ⊢
            rw [parseLine_some edict s _ _ word x none (by unfold Re.first; rw [hrun]; rfl) rfl rfl (by simp) rfl]
            congr 1
            exact slashSense_text x
        | some r =>
          obtain ⟨hr, ht⟩ := bracketed_some hb
          simp only at hrun ⊢
          rw [run_rest_eol] at hrun
          cases hch : Spec.chomp u with
          | none =>
            have h2 : Spec.chomp t = none := by
              rw [ht, show 0x5b :: (r ++ 0x5d :: (u!" " ++ u)) = (0x5b :: (r ++ 0x5d :: u!" ")) ++ u by simp]
              exact chomp_none_append _ _ hch
            rw [hch, h2] at hrun
            exact parseLine_none _ _ hrun
          | some x =>
            rw [hch] at hrun
            simp only [List.singleton_append] at hrun ⊢
            rw [parseLine_some edict s _ _ word x (some r) (by unfold Re.first; rw [hrun]; rfl) rfl rfl
              (by rintro _ ⟨⟩; exact hr) rfl]
            congr 1
            exact slashSense_text x

/-- C92: CEDICT lines. -/
theorem C92_cedict (s : Str) : cedict.parseLine s = Spec.readCedict s := by
  have hrun : cedict.line.run s [] = match Spec.cut 0x20 s with
      | none => []
      | some (w, t) => if w ≠ [] ∧ [] <+: t then
          (Re.seq (.group u!"word" (Re.plus (notChr 0x20))) (.seq (Re.lit u!" ")
          (Re.seq (Re.opt (Re.cat [Re.lit u!"[", .group u!"reading" (Re.plus (notChr 0x5d)), Re.lit u!"]"]))
            (.group u!"senses" (.many Re.dot))))).run t [] else [] :=
    run_field_plain 0x20 [] _ s []
  unfold Spec.readCedict
  cases hc : Spec.cut 0x20 s with
  | none => rw [hc] at hrun; exact parseLine_none _ _ hrun
  | some wt =>
    obtain ⟨trad, t⟩ := wt
    rw [hc] at hrun
    simp only [List.nil_prefix, and_true] at hrun ⊢
    rw [run_field] at hrun
    cases hc2 : Spec.cut 0x20 t with
    | none => rw [hc2] at hrun; simp only [ite_self] at hrun; exact parseLine_none _ _ hrun
    | some wt2 =>
      obtain ⟨word, u⟩ := wt2
      rw [hc2] at hrun
      simp only [List.nil_prefix, and_true] at hrun ⊢
      by_cases htr : trad = []
      · rw [if_neg (by simpa using htr)] at hrun
        rw [if_pos (Or.inl htr)]
        exact parseLine_none _ _ hrun
      · by_cases hw : word = []
        · rw [if_pos htr, if_neg (by simpa using hw)] at hrun
          rw [if_pos (Or.inr hw)]
          exact parseLine_none _ _ hrun
        · rw [if_pos htr, if_pos hw, run_opt_seq, run_bracket []] at hrun
          simp only [List.length_nil, List.drop_zero] at hrun
          rw [if_neg (by simp [htr, hw])]
          cases hb : Spec.bracketed [] u with
          | mk r v =>
            rw [hb] at hrun
            cases r with
            | none =>
              have := bracketed_none hb
              subst this
              simp only [List.nil_append] at hrun ⊢
              rw [parseLine_some cedict s _ _ word _ none (by unfold Re.first; rw [hrun]; exact first_rest _ _ _) rfl rfl (by simp) rfl]
              congr 1
              exact slashSense_text _
            | some r =>
              obtain ⟨hr, ht⟩ := bracketed_some hb
              simp only at hrun ⊢
              have hfirst := first_rest u!"senses" v (Dict.set (Dict.set [] u!"word" word) u!"reading" r)
              have hf : cedict.line.first s [] = some (v.dropWhile Re.dot,
                  Dict.set (Dict.set (Dict.set [] u!"word" word) u!"reading" r) u!"senses" (v.takeWhile (· != 0x0a))) := by
                unfold Re.first at hfirst ⊢
                rw [hrun, List.head?_append, hfirst]; rfl
              rw [parseLine_some cedict s _ _ word _ (some r) hf rfl rfl (by rintro _ ⟨⟩; exact hr) rfl]
              congr 1
              exact slashSense_text _

/-- C92: jc_kdic lines. -/
theorem C92_jc_kdic (s : Str) : jcKdic.parseLine s = Spec.readJcKdic s := by
  have hrun : jcKdic.line.run s [] = match Spec.cut 0x20 s with
      | none => []
      | some (w, t) => if w ≠ [] ∧ u!"[" <+: t then
          (Re.seq (.group u!"reading" (Re.plus (notChr 0x5d))) (.seq (Re.lit u!"]\t")
            (.seq (.group u!"senses" (.many Re.dot)) .eol))).run (t.drop 1) (Dict.set [] u!"word" w) else [] :=
    run_field u!"word" 0x20 u!"[" _ s []
  unfold Spec.readJcKdic
  cases hc : Spec.cut 0x20 s with
  | none => rw [hc] at hrun; exact parseLine_none _ _ hrun
  | some wt =>
    obtain ⟨word, t⟩ := wt
    rw [hc] at hrun
    simp only at hrun ⊢
    by_cases hbr : u!"[" <+: t
    · obtain ⟨v, rfl⟩ := hbr
      simp only [List.cons_append, List.nil_append, List.drop_succ_cons, List.drop_zero, List.prefix_cons_iff] at hrun
      rw [run_field] at hrun
      have hbd : Spec.bracketed u!"\t" (u!"[" ++ v) = match Spec.cut 0x5d v with
        | some (r, v') => if r ≠ [] ∧ u!"\t" <+: v' then (some r, v'.drop 1) else (none, u!"[" ++ v)
        | none => (none, u!"[" ++ v) := rfl
      rw [hbd]
      cases hc2 : Spec.cut 0x5d v with
      | none => rw [hc2] at hrun; simp only [ite_self] at hrun; exact parseLine_none _ _ hrun
      | some wt2 =>
        obtain ⟨r, v'⟩ := wt2
        rw [hc2] at hrun
        simp only at hrun ⊢
        by_cases hr : r ≠ [] ∧ u!"\t" <+: v'
        · rw [if_pos hr, run_rest_eol] at hrun
          rw [if_pos hr]
          simp only [List.length_cons, List.length_nil, Nat.zero_add] at hrun ⊢
          cases hch : Spec.chomp (v'.drop 1) with
          | none => rw [hch] at hrun; simp only [ite_self] at hrun; exact parseLine_none _ _ hrun
          | some x =>
            rw [hch] at hrun
            simp only at hrun ⊢
            by_cases hw : word = []
            · rw [if_neg (by simp [hw])] at hrun
              rw [if_pos hw]
              exact parseLine_none _ _ hrun
            · rw [if_pos (by simpa using hw)] at hrun
              rw [if_neg hw]
              rw [parseLine_some jcKdic s _ _ word x (some r) (by unfold Re.first; rw [hrun]; rfl) rfl rfl
                (by rintro _ ⟨⟩; exact hr.1) rfl]
              congr 1
              exact jcSense_text x
        · rw [if_neg hr] at hrun
          simp only [ite_self] at hrun
          rw [if_neg hr]
          exact parseLine_none _ _ hrun
    · rw [if_neg (fun h => hbr h.2)] at hrun
      have : Spec.bracketed u!"\t" t = (none, t) := by
        unfold Spec.bracketed
        split
        · exact absurd (by simp) hbr
        · rfl
      rw [this]
      exact parseLine_none _ _ hrun

/-- C92: cj_kdic lines. -/
theorem C92_cj_kdic (s : Str) : cjKdic.parseLine s = Spec.readCjKdic s := by
  have hrun : cjKdic.line.run s [] = match Spec.cut 0x09 s with
      | none => []
      | some (w, t) => if w ≠ [] ∧ [] <+: t then
          (Re.seq (.group u!"reading" (Re.plus (notChr 0x5c))) (.seq (Re.lit u!"\\n")
            (.seq (.group u!"senses" (.many Re.dot)) .eol))).run t (Dict.set [] u!"word" w) else [] :=
    run_field u!"word" 0x09 [] _ s []
  unfold Spec.readCjKdic
  cases hc : Spec.cut 0x09 s with
  | none => rw [hc] at hrun; exact parseLine_none _ _ hrun
  | some wt =>
    obtain ⟨word, t⟩ := wt
    rw [hc] at hrun
    simp only [List.nil_prefix, and_true] at hrun ⊢
    rw [run_field] at hrun
    cases hc2 : Spec.cut 0x5c t with
    | none => rw [hc2] at hrun; simp only [ite_self] at hrun; exact parseLine_none _ _ hrun
    | some wt2 =>
      obtain ⟨r, u⟩ := wt2
      rw [hc2] at hrun
      simp only at hrun ⊢
      by_cases hw : word = []
      · rw [if_neg (by simp [hw])] at hrun
        rw [if_pos (Or.inl hw)]
        exact parseLine_none _ _ hrun
      · rw [if_pos hw] at hrun
        by_cases hr : r = []
        · rw [if_neg (by simp [hr])] at hrun
          rw [if_pos (Or.inr (Or.inl hr))]
          exact parseLine_none _ _ hrun
        · by_cases hu : u.head? = some c!"n"
          · obtain ⟨v, rfl⟩ : ∃ v, u = c!"n" :: v := by
              cases u with
              | nil => cases hu
              | cons z v => cases hu; exact ⟨v, rfl⟩
            rw [if_pos (by simp [hr]), run_rest_eol] at hrun
            rw [if_neg (by simp [hw, hr])]
            simp only [List.length_cons, List.length_nil, Nat.zero_add, List.drop_succ_cons, List.drop_zero] at hrun ⊢
            cases hch : Spec.chomp v with
            | none => rw [hch] at hrun; exact parseLine_none _ _ hrun
            | some x =>
              rw [hch] at hrun
              simp only at hrun ⊢
              rw [parseLine_some cjKdic s _ _ word x (some r) (by unfold Re.first; rw [hrun]; rfl) rfl rfl
                (by rintro _ ⟨⟩; exact hr) rfl]
              congr 1
              exact cjSense_text x
          · rw [if_pos (Or.inr (Or.inr hu))]
            rw [if_neg] at hrun
            · exact parseLine_none _ _ hrun
            · rintro ⟨_, z, rfl⟩
              exact hu rfl

/-- C92: a line is either read or refused with FormatError, never with another exception. -/
theorem C92_only_format_error (f : RegexFormat) (hf : f ∈ knownFormats) (s : Str) (e : PyErr) (h : f.parseLine s = .error e) :
    e = .formatError := by
  have key : ∀ (w : Str) (r : Option Str) (l : List Str), Spec.lineEntry w r l = .error e → e = .formatError := by
    intro w r l h
    unfold Spec.lineEntry at h
    split at h
    · cases h; rfl
    · cases h
  simp only [knownFormats, List.mem_cons, List.not_mem_nil, or_false] at hf
  rcases hf with rfl | rfl | rfl | rfl
  · rw [C92_edict] at h
    unfold Spec.readEdict at h
    repeat' split at h
    all_goals first | (cases h; rfl) | exact key _ _ _ h
  · rw [C92_jc_kdic] at h
    unfold Spec.readJcKdic at h
    repeat' split at h
    all_goals first | (cases h; rfl) | exact key _ _ _ h
  · rw [C92_cj_kdic] at h
    unfold Spec.readCjKdic at h
    repeat' split at h
    all_goals first | (cases h; rfl) | exact key _ _ _ h
  · rw [C92_cedict] at h
    unfold Spec.readCedict at h
    repeat' split at h
    all_goals first | (cases h; rfl) | exact key _ _ _ h

-- Lines that no writer of the format would produce, read through the specification.
example : edict.parseLine u!"a [b /x//y" = .ok ⟨u!"a", [u!"a"], [u!"x", u!"y"]⟩ := by rw [C92_edict]; decide +kernel
example : edict.parseLine u!"a [b] x" = .error .formatError := by rw [C92_edict]; decide +kernel
example : cedict.parseLine u!"a b [c]d/x\ny" = .ok ⟨u!"b", [u!"c"], [u!"x"]⟩ := by rw [C92_cedict]; decide +kernel
example : jcKdic.parseLine u!"a [b]\t，x，，y" = .ok ⟨u!"a", [u!"b"], [u!"x", u!"y"]⟩ := by rw [C92_jc_kdic]; decide +kernel
example : cjKdic.parseLine u!"a\tb\\n１．x\\n\\ny\\n６．z" = .ok ⟨u!"a", [u!"b"], [u!"x", u!"ny", u!"６．z"]⟩ := by
  rw [C92_cj_kdic]; decide +kernel

end Cjk
