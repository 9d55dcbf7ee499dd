import Verif.Py.Base
/-!
# Iterating over a text file

A file opened in text mode, with the default `newline=None`: the three line endings `\n`, `\r\n` and `\r` are all delivered as `\n`.
-/

namespace Py

/-- The lines delivered by iterating over a text file with the given characters; `acc` is the line begun. -/
def fileLinesAux : Str → Str → List Str
  | acc, [] => if acc = [] then [] else [acc]
  | acc, 0x0d :: 0x0a :: rest => (acc ++ [0x0a]) :: fileLinesAux [] rest
  | acc, c :: rest => if c = 0x0d ∨ c = 0x0a then (acc ++ [0x0a]) :: fileLinesAux [] rest else fileLinesAux (acc ++ [c]) rest

/-- The lines delivered by iterating over a text file. -/
def fileLines (text : Str) : List Str := fileLinesAux [] text

/-- No line ending inside. -/
def NoEol (s : Str) : Prop := 0x0d ∉ s ∧ 0x0a ∉ s

instance (s : Str) : Decidable (NoEol s) := by unfold NoEol; infer_instance

/-- The line endings a text file may use. -/
def IsEol (e : Str) : Prop := e = [0x0a] ∨ e = [0x0d, 0x0a]

theorem fileLinesAux_line (s : Str) (hs : NoEol s) (e : Str) (he : IsEol e) (rest : Str) : ∀ acc : Str,
    fileLinesAux acc (s ++ e ++ rest) = (acc ++ s ++ [0x0a]) :: fileLinesAux [] rest := by
  induction s with
  | nil =>
    intro acc
    rcases he with rfl | rfl
    · simp [fileLinesAux]
    · simp [fileLinesAux]
  | cons c s ih =>
    intro acc
    have hs' : NoEol s := ⟨fun h => hs.1 (by simp [h]), fun h => hs.2 (by simp [h])⟩
    have hc : ¬ (c = 0x0d ∨ c = 0x0a) := by
      rintro (rfl | rfl)
      · exact hs.1 (by simp)
      · exact hs.2 (by simp)
    have : fileLinesAux acc (c :: (s ++ e ++ rest)) = fileLinesAux (acc ++ [c]) (s ++ e ++ rest) := by
      rw [fileLinesAux]
      · rw [if_neg hc]
      · intro r h1 _
        exact absurd (Or.inl h1) hc
    rw [List.cons_append, List.cons_append, this, ih hs']
    simp

theorem fileLinesAux_last (s : Str) (hs : NoEol s) : ∀ acc : Str, fileLinesAux acc s = if acc ++ s = [] then [] else [acc ++ s] := by
  induction s with
  | nil => intro acc; simp [fileLinesAux]
  | cons c s ih =>
    intro acc
    have hs' : NoEol s := ⟨fun h => hs.1 (by simp [h]), fun h => hs.2 (by simp [h])⟩
    have hc : ¬ (c = 0x0d ∨ c = 0x0a) := by
      rintro (rfl | rfl)
      · exact hs.1 (by simp)
      · exact hs.2 (by simp)
    have : fileLinesAux acc (c :: s) = fileLinesAux (acc ++ [c]) s := by
      rw [fileLinesAux]
      · rw [if_neg hc]
      · intro r h1 _
        exact absurd (Or.inl h1) hc
    rw [this, ih hs']
    simp

/-- A text made of lines, each with one of the line endings, is delivered as these lines, each ending with `\n`. -/
theorem fileLines_lines (ls : List (Str × Str)) (h : ∀ l ∈ ls, NoEol l.1 ∧ IsEol l.2) :
    fileLines (ls.flatMap (fun l => l.1 ++ l.2)) = ls.map (fun l => l.1 ++ [0x0a]) := by
  unfold fileLines
  induction ls with
  | nil => simp [fileLinesAux]
  | cons l ls ih =>
    rw [List.flatMap_cons, fileLinesAux_line l.1 (h l (by simp)).1 l.2 (h l (by simp)).2, ih (fun x hx => h x (by simp [hx]))]
    simp

/-- The same with a last line that has no line ending. -/
theorem fileLines_lines_last (ls : List (Str × Str)) (h : ∀ l ∈ ls, NoEol l.1 ∧ IsEol l.2) (s : Str) (hs : NoEol s) (hne : s ≠ []) :
    fileLines (ls.flatMap (fun l => l.1 ++ l.2) ++ s) = ls.map (fun l => l.1 ++ [0x0a]) ++ [s] := by
  unfold fileLines
  induction ls with
  | nil => simp [fileLinesAux_last s hs, hne]
  | cons l ls ih =>
    have e : (l :: ls).flatMap (fun l => l.1 ++ l.2) ++ s = l.1 ++ l.2 ++ (ls.flatMap (fun l => l.1 ++ l.2) ++ s) := by simp
    rw [e, fileLinesAux_line l.1 (h l (by simp)).1 l.2 (h l (by simp)).2, ih (fun x hx => h x (by simp [hx]))]
    simp

/-- The text whose lines end with `\n`. -/
theorem fileLines_nl (ls : List Str) (h : ∀ l ∈ ls, NoEol l) : fileLines (ls.flatMap (fun l => l ++ [0x0a])) = ls.map (fun l => l ++ [0x0a]) := by
  have := fileLines_lines (ls.map (fun l => (l, [0x0a]))) (by
    intro l hl
    obtain ⟨x, hx, rfl⟩ := List.mem_map.1 hl
    exact ⟨h x hx, Or.inl rfl⟩)
  rw [List.flatMap_map, List.map_map] at this
  exact this

theorem fileLinesAux_cr (s : Str) (hs : NoEol s) (rest : Str) (hr : rest.head? ≠ some 0x0a) : ∀ acc : Str,
    fileLinesAux acc (s ++ [0x0d] ++ rest) = (acc ++ s ++ [0x0a]) :: fileLinesAux [] rest := by
  induction s with
  | nil =>
    intro acc
    have : fileLinesAux acc (0x0d :: rest) = (acc ++ [0x0a]) :: fileLinesAux [] rest := by
      rw [fileLinesAux]
      · simp
      · rintro r - rfl
        simp at hr
    simpa using this
  | cons c s ih =>
    intro acc
    have hs' : NoEol s := ⟨fun h => hs.1 (by simp [h]), fun h => hs.2 (by simp [h])⟩
    have hc : ¬ (c = 0x0d ∨ c = 0x0a) := by
      rintro (rfl | rfl)
      · exact hs.1 (by simp)
      · exact hs.2 (by simp)
    have : fileLinesAux acc (c :: (s ++ [0x0d] ++ rest)) = fileLinesAux (acc ++ [c]) (s ++ [0x0d] ++ rest) := by
      rw [fileLinesAux]
      · rw [if_neg hc]
      · intro r h1 _
        exact absurd (Or.inl h1) hc
    rw [List.cons_append, List.cons_append, this, ih hs']
    simp

/-- Whichever of the three line endings a file uses throughout, the same lines are delivered. -/
theorem fileLines_uniform (e : Str) (he : e = [0x0a] ∨ e = [0x0d, 0x0a] ∨ e = [0x0d]) (ls : List Str) (h : ∀ l ∈ ls, NoEol l) :
    fileLines (ls.flatMap (fun l => l ++ e)) = ls.map (fun l => l ++ [0x0a]) := by
  unfold fileLines
  induction ls with
  | nil => simp [fileLinesAux]
  | cons l ls ih =>
    have hl := h l (by simp)
    rw [List.flatMap_cons, List.map_cons, ← ih (fun x hx => h x (by simp [hx]))]
    rcases he with rfl | rfl | rfl
    · simpa using fileLinesAux_line l hl _ (Or.inl rfl) _ []
    · simpa using fileLinesAux_line l hl _ (Or.inr rfl) _ []
    · refine (fileLinesAux_cr l hl _ ?_ []).trans (by simp)
      cases ls with
      | nil => simp
      | cons l2 ls =>
        cases l2 with
        | nil => simp
        | cons c l2 =>
          have := (h (c :: l2) (by simp)).2
          simp only [List.flatMap_cons, List.cons_append, List.head?_cons, ne_eq, Option.some.injEq]
          rintro rfl
          simp at this

end Py
