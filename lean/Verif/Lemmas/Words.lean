import Verif.Spec.Words
/-!
# `str.split` yields the words of a text
-/

namespace Py

theorem Gap.nil : Gap [] := by intro c hc; simp at hc

theorem Gap.cons {c : Nat} {g : Str} (hc : isSpace c = true) (h : Gap g) : Gap (c :: g) := by
  intro x hx
  rcases List.mem_cons.1 hx with rfl | hx
  · exact hc
  · exact h x hx

theorem HasWords.space {c : Nat} {s : Str} {ws : List Str} (hc : isSpace c = true) (h : HasWords s ws) : HasWords (c :: s) ws := by
  cases h with
  | none hg => exact .none (.cons hc hg)
  | last hg hw hg' => exact .last (g := c :: _) (.cons hc hg) hw hg'
  | more hg hw hg' hne hr => exact .more (g := c :: _) (.cons hc hg) hw hg' hne hr

theorem splitWsAux_gap {g : Str} (h : Gap g) (t : Str) : splitWsAux [] (g ++ t) = splitWsAux [] t := by
  induction g with
  | nil => rfl
  | cons x g ih =>
    simp only [List.cons_append, splitWsAux, h x (by simp), if_true, List.isEmpty_nil]
    exact ih (fun c hc => h c (by simp [hc]))

theorem hasWords_splitWs (s : Str) : HasWords s (splitWs s) := by
  have aux : ∀ (s cur : Str), (∀ c ∈ cur, isSpace c = false) → HasWords (cur.reverse ++ s) (splitWsAux cur s) := by
    intro s
    induction s with
    | nil =>
      intro cur hc
      unfold splitWsAux
      cases cur with
      | nil => exact .none Gap.nil
      | cons x cur =>
        exact .last (g := []) (g' := []) Gap.nil ⟨by simp, fun c h => hc c (List.mem_reverse.1 h)⟩ Gap.nil
    | cons x s ih =>
      intro cur hc
      unfold splitWsAux
      split
      · rename_i hx
        cases cur with
        | nil => exact HasWords.space hx (ih [] (by simp))
        | cons y cur =>
          have := HasWords.more (g := []) (g' := [x]) Gap.nil
            (w := (y :: cur).reverse) ⟨by simp, fun c h => hc c (List.mem_reverse.1 h)⟩ (.cons hx Gap.nil) (by simp) (ih [] (by simp))
          simpa using this
      · rename_i hx
        have := ih (x :: cur) (by
          intro c h
          rcases List.mem_cons.1 h with rfl | h
          · simpa using hx
          · exact hc c h)
        simpa using this
  exact aux s [] (by simp)

theorem splitWs_of_hasWords {s : Str} {ws : List Str} (h : HasWords s ws) : splitWs s = ws := by
  unfold splitWs
  induction h with
  | none hg =>
    have := splitWsAux_gap hg []
    rw [List.append_nil] at this
    rw [this]; rfl
  | @last g w g' hg hw hg' =>
    rw [List.append_assoc, splitWsAux_gap hg, splitWsAux_word [] w _ hw.2, splitWsAux_spaces _ hg', List.append_nil]
    have hr : w.reverse.isEmpty = false := by simpa using hw.1
    simp [splitWsAux, hw.1]
  | @more g w g' rest ws hg hw hg' hne _ ih =>
    rw [List.append_assoc, List.append_assoc, splitWsAux_gap hg, splitWsAux_word [] w _ hw.2, List.append_nil]
    obtain ⟨x, g'', rfl⟩ := List.exists_cons_of_ne_nil hne
    rw [List.cons_append]
    have hr : w.reverse.isEmpty = false := by simpa using hw.1
    simp only [splitWsAux, hg' x (by simp), if_true, hr, Bool.false_eq_true, if_false, List.reverse_reverse]
    rw [splitWsAux_gap (fun c hc => hg' c (by simp [hc])), ih]

/-- The words of a text are what `str.split` returns. -/
theorem splitWs_eq_iff (s : Str) (ws : List Str) : splitWs s = ws ↔ HasWords s ws :=
  ⟨fun h => h ▸ hasWords_splitWs s, splitWs_of_hasWords⟩

end Py
