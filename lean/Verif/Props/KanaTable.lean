import Verif.Model.KanaTable
import Verif.Spec.KanaTable
/-!
# Properties of `cjktools/kana_table.py` (C07, C08)
-/

namespace Cjk
open Py

/-! ### Order independence of the construction -/

theorem foldl_update_eq (rows : Dict Str Str) (d : Dict Str Str) :
    rows.foldl (fun d row => d.update (row.2.map (fun e => ([e], row.1)))) d =
      d.update (rows.flatMap (fun row => row.2.map (fun e => ([e], row.1)))) := by
  induction rows generalizing d with
  | nil => rfl
  | cons r rows ih => rw [List.foldl_cons, ih, List.flatMap_cons, Dict.update_append]

/-- The pairs (kana, consonant line) of the table. -/
def consonantPairs : Dict Str Str := kanaRows.flatMap (fun row => row.2.map (fun e => ([e], row.1)))

theorem consonantPairs_WF : consonantPairs.WF := by decide +kernel

theorem toConsonant_get? (rows : Dict Str Str) (h : rows.Perm kanaRows) (k : Str) :
    (KanaTable.build rows).toConsonant.get? k = consonantPairs.get? k := by
  have hp : (rows.flatMap (fun row => row.2.map (fun e => ([e], row.1)))).Perm consonantPairs :=
    List.Perm.flatMap_right _ h
  have hn : (List.map Prod.fst (rows.flatMap (fun row => row.2.map (fun e => ([e], row.1))))).Nodup :=
    (hp.map Prod.fst).nodup_iff.2 consonantPairs_WF
  show Dict.get? (rows.foldl (fun d row => d.update (row.2.map (fun e => ([e], row.1)))) []) k = _
  rw [foldl_update_eq]
  show Dict.get? (Dict.ofList _) k = _
  rw [Dict.ofList_of_nodup _ hn]
  exact Dict.get?_perm hn hp k

theorem insertChr_comm (a b : Chr) (s : Str) : insertChr a (insertChr b s) = insertChr b (insertChr a s) := by
  induction s with
  | nil =>
    simp only [insertChr]
    by_cases h : a ≤ b <;> by_cases h' : b ≤ a
    · have : a = b := by omega
      subst this; rfl
    · simp [h, h']
    · simp [h, h']
    · omega
  | cons c s ih =>
    simp only [insertChr]
    by_cases hb : b ≤ c <;> by_cases ha : a ≤ c <;> simp only [ha, hb, if_true, if_false, insertChr]
    · by_cases h : a ≤ b <;> by_cases h' : b ≤ a <;> simp only [h, h', if_true, if_false]
      · have : a = b := by omega
        subst this; rfl
      · omega
    · have h : ¬ a ≤ b := by omega
      simp [h]
    · have h : ¬ b ≤ a := by omega
      simp [h]
    · rw [ih]

theorem sortChrs_perm {s t : Str} (h : s.Perm t) : sortChrs s = sortChrs t := by
  unfold sortChrs
  induction h with
  | nil => rfl
  | cons a _ ih => simp [ih]
  | swap a b l => simp only [List.foldr_cons]; exact insertChr_comm _ _ _
  | trans _ _ ih1 ih2 => rw [ih1, ih2]

theorem minLen_of_all {rows : List Str} {n : Nat} (hne : rows ≠ []) (h : ∀ r ∈ rows, r.length = n) :
    minLen rows = n := by
  induction rows with
  | nil => exact absurd rfl hne
  | cons r rows ih =>
    cases rows with
    | nil => simpa [minLen] using h
    | cons r' rows =>
      have := ih (by simp) (fun x hx => h x (by simp [hx]))
      simp only [minLen]
      rw [this, h r (by simp)]; simp

theorem toVowel_eq (rows : Dict Str Str) (h : rows.Perm kanaRows) :
    (KanaTable.build rows).toVowel = kanaTable.toVowel := by
  have hv : rows.values.Perm kanaRows.values := h.map Prod.snd
  have h5 : ∀ r ∈ kanaRows.values, r.length = 5 := by decide
  have m1 : minLen kanaRows.values = 5 := minLen_of_all (by decide) h5
  have m2 : minLen rows.values = 5 := by
    refine minLen_of_all ?_ (fun r hr => h5 r (hv.mem_iff.1 hr))
    intro e; rw [e] at hv; have := hv.length_eq; simp [Dict.values, kanaRows] at this
  show (zipStar rows.values).foldl addColumn [] = (zipStar kanaRows.values).foldl addColumn []
  unfold zipStar
  rw [m1, m2, List.foldl_map, List.foldl_map]
  congr 1
  funext d i
  unfold addColumn
  rw [sortChrs_perm (hv.map _)]

/-- C08: every lookup gives the same answer for every iteration order of the rows. -/
theorem C08_order_independent (rows : Dict Str Str) (h : rows.Perm kanaRows) (k : Str) :
    (KanaTable.build rows).getCoords k = kanaTable.getCoords k ∧
    (KanaTable.build rows).toVowelLine k = kanaTable.toVowelLine k ∧
    (KanaTable.build rows).toConsonantLine k = kanaTable.toConsonantLine k ∧
    ∀ v, (KanaTable.build rows).fromCoords k v = kanaTable.fromCoords k v := by
  have hc : (KanaTable.build rows).toConsonant.get? k = kanaTable.toConsonant.get? k := by
    rw [toConsonant_get? rows h]; exact (toConsonant_get? kanaRows (List.Perm.refl _) k).symm
  have hv := toVowel_eq rows h
  have ht : Dict.get? (KanaTable.build rows).table k = Dict.get? kanaTable.table k :=
    Dict.get?_perm ((h.map Prod.fst).nodup_iff.2 (by decide : (List.map Prod.fst kanaRows).Nodup)) h k
  refine ⟨?_, ?_, hc, ?_⟩
  · simp only [KanaTable.getCoords, Dict.getItem, hc, hv]
  · simp only [KanaTable.toVowelLine, hv]
  · intro v; simp only [KanaTable.fromCoords, Dict.getItem, ht]

/-! ### The finite table -/

/-- All cells of the grid, as (line, column, kana). -/
def cells : List (Nat × Nat × Chr) :=
  (List.range 13).flatMap (fun i => (List.range 5).map (fun j => (i, j, (Spec.grid.getD i []).getD j 0)))

theorem At_iff_cells (i j : Nat) (k : Chr) : Spec.At i j k ↔ (i, j, k) ∈ cells := by
  unfold Spec.At cells
  constructor
  · rintro ⟨row, h1, h2⟩
    have hi : i < 13 := by
      rcases Nat.lt_or_ge i 13 with h | h
      · exact h
      · rw [List.getElem?_eq_none (by simpa [Spec.grid] using h)] at h1; cases h1
    have hrow : row ∈ Spec.grid := List.mem_of_getElem? h1
    have h5 : ∀ r ∈ Spec.grid, r.length = 5 := by decide
    have hj : j < 5 := by
      rcases Nat.lt_or_ge j 5 with h | h
      · exact h
      · rw [List.getElem?_eq_none (by rw [h5 row hrow]; exact h)] at h2; cases h2
    simp only [List.mem_flatMap, List.mem_range, List.mem_map, Prod.mk.injEq]
    refine ⟨i, hi, j, hj, rfl, rfl, ?_⟩
    simp [List.getD_eq_getElem?_getD, h1, h2]
  · simp only [List.mem_flatMap, List.mem_range, List.mem_map, Prod.mk.injEq]
    rintro ⟨i', hi, j', hj, rfl, rfl, rfl⟩
    have key : ∀ i < 13, ∀ j < 5, ∃ row ∈ Spec.grid[i]?, (row[j]?) = some ((Spec.grid.getD i []).getD j 0) := by
      decide +kernel
    obtain ⟨row, h1, h2⟩ := key i' hi j' hj
    exact ⟨row, h1, h2⟩

/-- C08: on a kana of the grid, `to_consonant_line` is the head of its line and `to_vowel_line` the
vowel of its column; `わ` has vowel `あ`; everything else has neither. -/
theorem C08_lines_exact (i j : Nat) (k : Chr) (h : Spec.At i j k) :
    kanaTable.toConsonantLine [k] = some [Spec.lineHead i] ∧
    kanaTable.toVowelLine [k] = some [Spec.columnVowel j] ∧
    kanaTable.getCoords [k] = .ok ([Spec.lineHead i], [Spec.columnVowel j]) := by
  rw [At_iff_cells] at h
  have key : ∀ c ∈ cells, kanaTable.toConsonantLine [c.2.2] = some [Spec.lineHead c.1] ∧
    kanaTable.toVowelLine [c.2.2] = some [Spec.columnVowel c.2.1] ∧
    kanaTable.getCoords [c.2.2] = .ok ([Spec.lineHead c.1], [Spec.columnVowel c.2.1]) := by decide +kernel
  exact key _ h

theorem toConsonant_keys : ∀ s ∈ kanaTable.toConsonant.keys, ∃ c ∈ cells, s = [c.2.2] := by decide +kernel
theorem toVowel_keys : ∀ s ∈ kanaTable.toVowel.keys, ∃ c ∈ cells, s = [c.2.2] := by decide +kernel

/-- C08: outside the grid there is no line (and `get_coords` raises `KeyError`); `わ` is the one
exception for vowels. -/
theorem C08_outside_table (s : Str) (h : ∀ i j k, Spec.At i j k → s ≠ [k]) :
    kanaTable.toConsonantLine s = none ∧
    kanaTable.toVowelLine s = (if s = u!"わ" then some u!"あ" else none) ∧
    kanaTable.getCoords s = .error .keyError := by
  have h1 : kanaTable.toConsonant.get? s = none := by
    rw [Dict.get?_eq_none_iff]
    intro hk
    obtain ⟨⟨i, j, k⟩, hc, rfl⟩ := toConsonant_keys s hk
    exact h i j k ((At_iff_cells _ _ _).2 hc) rfl
  have h2 : kanaTable.toVowel.get? s = none := by
    rw [Dict.get?_eq_none_iff]
    intro hk
    obtain ⟨⟨i, j, k⟩, hc, rfl⟩ := toVowel_keys s hk
    exact h i j k ((At_iff_cells _ _ _).2 hc) rfl
  refine ⟨h1, ?_, ?_⟩
  · simp only [KanaTable.toVowelLine, h2]
  · simp only [KanaTable.getCoords, Dict.getItem, h1]; rfl

/-- C07: `get_coords` succeeds exactly on the kana of the grid, and then `from_coords` inverts it. -/
theorem C07_coords_round_trip (s : Str) :
    (∀ c v, kanaTable.getCoords s = .ok (c, v) →
      (∃ i j k, Spec.At i j k ∧ s = [k]) ∧ kanaTable.fromCoords c v = .ok s) ∧
    (kanaTable.getCoords s = .error .keyError ↔ ∀ i j k, Spec.At i j k → s ≠ [k]) := by
  by_cases hs : ∀ i j k, Spec.At i j k → s ≠ [k]
  · have := (C08_outside_table s hs).2.2
    refine ⟨?_, fun _ => hs, fun _ => this⟩
    intro c v h; rw [this] at h; cases h
  · have hs' : ∃ i j k, Spec.At i j k ∧ s = [k] := by
      apply Classical.byContradiction
      intro hn; apply hs
      intro i j k ha e; exact hn ⟨i, j, k, ha, e⟩
    obtain ⟨i, j, k, ha, rfl⟩ := hs'
    have hg := (C08_lines_exact i j k ha).2.2
    constructor
    · intro c v h
      rw [hg] at h; cases h
      refine ⟨⟨i, j, k, ha, rfl⟩, ?_⟩
      have key : ∀ c ∈ cells, kanaTable.fromCoords [Spec.lineHead c.1] [Spec.columnVowel c.2.1] = .ok [c.2.2] := by
        decide +kernel
      exact key _ ((At_iff_cells _ _ _).1 ha)
    · rw [hg]; simp only [reduceCtorEq, false_iff]; exact hs

/-- C07: conversely `get_coords` inverts `from_coords` on every consonant line and single vowel on
which it succeeds. -/
theorem C07_from_coords_round_trip (c : Str) (v : Chr) (s : Str)
    (h : kanaTable.fromCoords c [v] = .ok s) : kanaTable.getCoords s = .ok (c, [v]) := by
  -- `c` must be one of the 13 keys and `v` one of the five vowels
  have hc : c ∈ kanaTable.table.keys := by
    rw [← Dict.get?_isSome_iff]
    cases hg : kanaTable.table.get? c with
    | some _ => rfl
    | none => simp [KanaTable.fromCoords, Dict.getItem, hg, bind, Except.bind] at h
  have hv : v ∈ kanaVowels := by
    apply Classical.byContradiction
    intro hv
    have hi : index kanaVowels [v] = .error .valueError := by
      simp only [kanaVowels, List.mem_cons, List.not_mem_nil, or_false, not_or] at hv
      obtain ⟨h1, h2, h3, h4, h5⟩ := hv
      simp [index, index.go, kanaVowels, List.isPrefixOf, h1, h2, h3, h4, h5]
    have hg : ∃ row, Dict.getItem kanaTable.table c = .ok row := by
      rw [← Dict.get?_isSome_iff] at hc
      cases hg : kanaTable.table.get? c with
      | some row => exact ⟨row, by simp [Dict.getItem, hg]⟩
      | none => simp [hg] at hc
    obtain ⟨row, hrow⟩ := hg
    simp only [KanaTable.fromCoords, hrow, hi, bind, Except.bind] at h
    cases h
  have key : ∀ c ∈ kanaTable.table.keys, ∀ v ∈ kanaVowels, ∃ s, kanaTable.fromCoords c [v] = .ok s ∧
      kanaTable.getCoords s = .ok (c, [v]) := by
    have key' : ∀ c ∈ kanaTable.table.keys, ∀ v ∈ kanaVowels,
      (match kanaTable.fromCoords c [v] with
        | .ok s => decide (kanaTable.getCoords s = .ok (c, [v])) | .error _ => false) = true := by decide +kernel
    intro c hc v hv
    have := key' c hc v hv
    cases hf : kanaTable.fromCoords c [v] with
    | error e => simp [hf] at this
    | ok s => simp [hf] at this; exact ⟨s, rfl, this⟩
  obtain ⟨s', h1, h2⟩ := key c hc v hv
  rw [h1] at h; cases h; exact h2

/-- The restriction to a single vowel is needed: `str.index` accepts substrings, e.g. the empty one. -/
theorem C07_from_coords_substring :
    kanaTable.fromCoords u!"か" [] = .ok u!"か" ∧ kanaTable.getCoords u!"か" = .ok (u!"か", u!"あ") := by
  decide +kernel

example : Spec.At 2 3 c!"げ" ∧ kanaTable.getCoords u!"げ" = .ok (u!"が", u!"え") := by
  rw [At_iff_cells]; decide +kernel
example : ∀ i j k, Spec.At i j k → u!"やや" ≠ [k] := by intro i j k _; simp
example : kanaRows.reverse.Perm kanaRows := List.reverse_perm _

end Cjk
