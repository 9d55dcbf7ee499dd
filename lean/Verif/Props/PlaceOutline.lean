import Verif.Spec.PlaceOutline
import Verif.Props.PlaceInit
import Verif.Lemmas.Words
/-!
# C91: `Place.from_file` on arbitrary files
-/

namespace Cjk
open Py Spec

theorem lastAt_snoc (ds : List Int) (x d : Int) :
    lastAt (ds ++ [x]) d = if x = d then some ds.length else lastAt ds d := by
  unfold lastAt
  rw [List.length_append, List.length_singleton, List.range_succ, List.filter_append]
  have h1 : (List.range ds.length).filter (fun j => decide ((ds ++ [x])[j]? = some d)) =
      (List.range ds.length).filter (fun j => decide (ds[j]? = some d)) := by
    apply List.filter_congr
    intro j hj
    rw [List.getElem?_append_left (List.mem_range.1 hj)]
  rw [h1]
  by_cases h : x = d
  · simp [h]
  · simp [h]

theorem lastAt_lt {ds : List Int} {d : Int} {j : Nat} (h : lastAt ds d = some j) : j < ds.length := by
  unfold lastAt at h
  have := List.mem_of_getLast? h
  exact List.mem_range.1 (List.mem_filter.1 this).1

theorem parentLine_lt {ds : List Int} {d : Int} {j : Nat} (hne : ds ≠ []) (h : parentLine ds d = some j) : j < ds.length := by
  unfold parentLine at h
  split at h
  · cases h; exact List.length_pos_iff.2 hne
  · exact lastAt_lt h

theorem entriesOf_snoc (rs : List PlaceRec) (r : PlaceRec) (i : Nat) (hne : rs ≠ []) :
    entriesOf (rs ++ [r]) i = entriesOf rs i ++
      (if parentLine (rs.map Prod.fst) r.1 = some i then [(r.2.1, rs.length)] else []) := by
  unfold entriesOf
  rw [List.length_append, List.length_singleton, List.range_succ, List.filterMap_append]
  congr 1
  · apply List.filterMap_congr
    intro j hj
    have hj := List.mem_range.1 hj
    rw [List.getElem?_append_left hj, List.take_append_of_le_length (Nat.le_of_lt hj)]
  · have h0 : rs.length ≠ 0 := fun h => hne (List.length_eq_zero_iff.1 h)
    have h1 : (rs ++ [r])[rs.length]? = some r := by simp
    have h2 : (rs ++ [r]).take rs.length = rs := by simp
    simp only [List.filterMap_cons, h1, h2, h0, ne_eq, not_false_eq_true, true_and, List.filterMap_nil]
    split
    · rename_i h; split at h
      · cases h
      · rename_i hn; rw [if_neg hn]
    · rename_i h; split at h
      · rename_i hp; cases h; rw [if_pos hp]
      · cases h

/-- Lines do not belong to lines that come later. -/
theorem entriesOf_beyond (rs : List PlaceRec) (i : Nat) (hi : rs.length ≤ i) : entriesOf rs i = [] := by
  unfold entriesOf
  rw [List.filterMap_eq_nil_iff]
  intro j hj
  have hj := List.mem_range.1 hj
  cases hr : rs[j]? with
  | none => rfl
  | some r =>
    simp only
    rw [if_neg]
    rintro ⟨h0, h1⟩
    have := parentLine_lt (by
      intro h
      have hl : ((rs.take j).map Prod.fst).length = 0 := by rw [h]; rfl
      rw [List.length_map, List.length_take] at hl; omega) h1
    rw [List.length_map, List.length_take] at this; omega

/-- The state of the loop after the lines `rs`. -/
structure LoadInv (st : LoadState) (rs : List PlaceRec) : Prop where
  store : HoldsOutline st.store rs
  last : ∃ ld : Nat, (rs.map Prod.fst).getLast? = some (ld : Int) ∧ st.lastDepth = ld ∧ st.path.length = ld + 1 ∧ st.path[0]? = some 0 ∧
    ∀ d < ld, ∃ j, st.path[d + 1]? = some j ∧ lastAt (rs.map Prod.fst) d = some j
  node : st.lastNode + 1 = rs.length

theorem lastAt_getLast {ds : List Int} {d : Int} (h : ds.getLast? = some d) : lastAt ds d = some (ds.length - 1) := by
  obtain ⟨pre, rfl⟩ := List.getLast?_eq_some_iff.1 h
  rw [lastAt_snoc]; simp

theorem loadStep_inv {st : LoadState} {rs : List PlaceRec} (h : LoadInv st rs) (line : Str) (r : PlaceRec)
    (hp : placeFromLine line = .ok r) (a : Int) (ha : (rs.map Prod.fst).getLast? = some a) :
    (0 ≤ r.1 → r.1 ≤ a + 1 → ∃ st', loadStep st line = .ok st' ∧ LoadInv st' (rs ++ [r])) ∧
    (r.1 < 0 → loadStep st line = .error .indexError) ∧
    (a + 1 < r.1 → loadStep st line = .error .genericException) := by
  obtain ⟨hs, ⟨ld, l1, l2, l3, l4, l5⟩, hn⟩ := h
  obtain ⟨d, label, reading, aliases⟩ := r
  rw [ha, Option.some.injEq] at l1
  subst l1
  have hne : rs ≠ [] := by rintro rfl; simp at ha
  simp only
  unfold loadStep
  rw [hp]
  simp only [bind_ok]
  refine ⟨?_, ?_, ?_⟩
  · intro h0 h1
    obtain ⟨d, rfl⟩ := Int.eq_ofNat_of_zero_le h0
    -- the new path
    obtain ⟨Q, hQ, hQlen, hQ0, hQd⟩ : ∃ Q, loadPath st (d : Int) = .ok Q ∧ Q.length = d + 1 ∧ Q[0]? = some 0 ∧
        ∀ e < d, ∃ j, Q[e + 1]? = some j ∧ lastAt (rs.map Prod.fst) e = some j := by
      by_cases hd : d = ld + 1
      · subst hd
        refine ⟨st.path ++ [st.lastNode], by unfold loadPath; rw [l2]; simp, by simp [l3], ?_, ?_⟩
        · rw [List.getElem?_append_left (by omega)]; exact l4
        · intro e he
          by_cases hel : e < ld
          · obtain ⟨j, hj1, hj2⟩ := l5 e hel
            exact ⟨j, by rw [List.getElem?_append_left (by omega)]; exact hj1, hj2⟩
          · have : e = ld := by omega
            subst this
            refine ⟨st.lastNode, by rw [List.getElem?_append_right (by omega)]; simp [l3], ?_⟩
            rw [lastAt_getLast ha]
            simp; omega
      · have hle : d ≤ ld := by omega
        have hat : LoadAt st d (st.path.take (d + 1)) := ⟨ld, l2, l3, Or.inr ⟨hle, rfl⟩⟩
        refine ⟨st.path.take (d + 1), loadPath_at hat, loadAt_length hat, ?_, ?_⟩
        · rw [List.getElem?_take_of_lt (by omega)]; exact l4
        · intro e he
          obtain ⟨j, hj1, hj2⟩ := l5 e (by omega)
          exact ⟨j, by rw [List.getElem?_take_of_lt (by omega)]; exact hj1, hj2⟩
    obtain ⟨p, hp1, hp2⟩ : ∃ p, Q.getLast? = some p ∧ parentLine (rs.map Prod.fst) d = some p := by
      have hlast : Q.getLast? = Q[d]? := by rw [List.getLast?_eq_getElem?, hQlen]; rfl
      cases d with
      | zero => exact ⟨0, by rw [hlast]; exact hQ0, rfl⟩
      | succ d =>
        obtain ⟨j, hj1, hj2⟩ := hQd d (by omega)
        refine ⟨j, by rw [hlast]; exact hj1, ?_⟩
        unfold parentLine
        rw [if_neg (by omega), ← hj2]
        congr 1
        omega
    have hplt := parentLine_lt (by simpa using hne) hp2
    simp only [List.length_map] at hplt
    rw [hQ]
    simp only [bind_ok, storeAppend, hp1]
    refine ⟨_, rfl, ⟨⟨?_, ?_⟩, ?_, ?_⟩⟩
    · simp [hs.1]
    · intro i r hr
      rw [entriesOf_snoc _ _ _ hne]
      simp only [hp2, Option.some.injEq]
      rw [List.getElem?_modify]
      by_cases hi : i < rs.length
      · rw [List.getElem?_append_left hi] at hr
        rw [List.getElem?_append_left (by rw [hs.1]; exact hi), hs.2 i r hr]
        by_cases hpi : p = i
        · subst hpi
          simp only [if_true, Option.map_eq_map, Option.map_some, Dict.ofList, Dict.update_append, Dict.update_cons, Dict.update_nil, hs.1]
        · simp [hpi]
      · have hi' : i = rs.length := by
          have := (List.getElem?_eq_some_iff.1 hr).1
          simp at this; omega
        subst hi'
        rw [List.getElem?_append_right (by omega)] at hr
        simp only [Nat.sub_self, List.getElem?_cons_zero, Option.some.injEq] at hr
        subst hr
        rw [List.getElem?_append_right (by rw [hs.1]; exact Nat.le_refl _), hs.1]
        have : p ≠ rs.length := by omega
        simp [this, entriesOf_beyond, Dict.ofList, Dict.update_nil]
    · refine ⟨d, by simp, rfl, hQlen, hQ0, ?_⟩
      intro e he
      obtain ⟨j, hj1, hj2⟩ := hQd e he
      refine ⟨j, hj1, ?_⟩
      rw [List.map_append, List.map_singleton, lastAt_snoc, if_neg (by simp; omega)]
      exact hj2
    · simp [hs.1]
  · intro hneg
    have : loadPath st d = .ok [] := by
      unfold loadPath
      rw [l2, if_neg (by omega), if_neg (by omega), if_pos (by omega)]
      unfold dropEnd
      rw [l3, show ld + 1 - ((ld : Int) - d).toNat = 0 by omega]
      rfl
    rw [this]
    rfl
  · intro hbig
    have : loadPath st d = .error .genericException := by
      unfold loadPath
      rw [l2, if_neg (by omega), if_neg (by omega), if_neg (by omega)]
    rw [this]
    rfl

theorem outlineOk_snoc {ds : List Int} {a d : Int} (ha : ds.getLast? = some a) :
    OutlineOk (ds ++ [d]) ↔ OutlineOk ds ∧ 0 ≤ d ∧ d ≤ a + 1 := by
  have hne : ds ≠ [] := by rintro rfl; simp at ha
  have hpos : 0 < ds.length := List.length_pos_iff.2 hne
  have hal : ds[ds.length - 1]? = some a := by rw [← List.getLast?_eq_getElem?]; exact ha
  unfold OutlineOk
  rw [List.getElem?_append_left hpos]
  constructor
  · rintro ⟨h1, h2⟩
    refine ⟨⟨h1, fun i x y hx hy => ?_⟩, ?_⟩
    · have hl := (List.getElem?_eq_some_iff.1 hy).1
      exact h2 i x y (by rw [List.getElem?_append_left (by omega)]; exact hx) (by rw [List.getElem?_append_left hl]; exact hy)
    · refine h2 (ds.length - 1) a d (by rw [List.getElem?_append_left (by omega)]; exact hal) ?_
      rw [show ds.length - 1 + 1 = ds.length by omega]; simp
  · rintro ⟨⟨h1, h2⟩, h3⟩
    refine ⟨h1, fun i x y hx hy => ?_⟩
    by_cases hi : i + 1 < ds.length
    · rw [List.getElem?_append_left hi] at hy
      rw [List.getElem?_append_left (by omega)] at hx
      exact h2 i x y hx hy
    · have hl := (List.getElem?_eq_some_iff.1 hy).1
      simp at hl
      have hi' : i = ds.length - 1 := by omega
      subst hi'
      rw [List.getElem?_append_left (by omega), hal] at hx
      rw [List.getElem?_append_right (by omega), show ds.length - 1 + 1 - ds.length = 0 by omega] at hy
      cases hx; cases hy; exact h3

theorem loadLoop_inv {st : LoadState} {rs : List PlaceRec} (h : LoadInv st rs) (lines : List Str) (rs' : List PlaceRec)
    (hp : lines.map placeFromLine = rs'.map .ok) (ho : OutlineOk ((rs ++ rs').map Prod.fst)) :
    ∃ st', loadLoop st lines = .ok st' ∧ LoadInv st' (rs ++ rs') := by
  induction lines generalizing st rs rs' with
  | nil =>
    cases rs' with
    | nil => exact ⟨st, rfl, by simpa using h⟩
    | cons _ _ => simp at hp
  | cons line lines ih =>
    cases rs' with
    | nil => simp at hp
    | cons r rs' =>
      simp only [List.map_cons, List.cons.injEq] at hp
      obtain ⟨ld, l1, _⟩ := h.last
      have hpre : ∀ (ds es : List Int), OutlineOk (ds ++ es) → ds ≠ [] → OutlineOk ds := by
        intro ds es ⟨k1, k2⟩ hne
        refine ⟨?_, fun i x y hx hy => ?_⟩
        · rw [List.getElem?_append_left (List.length_pos_iff.2 hne)] at k1; exact k1
        · have hl := (List.getElem?_eq_some_iff.1 hy).1
          exact k2 i x y (by rw [List.getElem?_append_left (by omega)]; exact hx) (by rw [List.getElem?_append_left hl]; exact hy)
      have ho1 : OutlineOk (rs.map Prod.fst ++ [r.1]) := by
        apply hpre _ (rs'.map Prod.fst)
        · simpa using ho
        · simp
      have := (outlineOk_snoc l1).1 ho1
      obtain ⟨st1, e1, h1⟩ := (loadStep_inv h line r hp.1 ld l1).1 this.2.1 this.2.2
      obtain ⟨st2, e2, h2⟩ := ih h1 rs' hp.2 (by simpa using ho)
      refine ⟨st2, ?_, by simpa using h2⟩
      simp only [loadLoop, e1, bind_ok, e2]

theorem loadInv_start (r : PlaceRec) (h0 : r.1 = 0) : LoadInv ⟨[⟨r.2.1, r.2.2.1, r.2.2.2, []⟩], [0], 0, 0⟩ [r] := by
  refine ⟨⟨rfl, ?_⟩, ⟨0, by simp [h0], rfl, rfl, rfl, by intro d hd; omega⟩, rfl⟩
  intro i x hx
  cases i with
  | zero =>
    simp only [List.getElem?_cons_zero, Option.some.injEq] at hx
    subst hx
    simp [entriesOf, List.range_succ, Dict.ofList, Dict.update_nil]
  | succ i => simp at hx

/-- C91: a file whose lines can all be read and whose depths form an outline (0 first, never negative, never more than one deeper than
the line before) is loaded as that outline: one place per line with the details of the line, each belonging to the last earlier line
one level up; of the entries of one place with the same label the last one stays. -/
theorem C91_outline (lines : List Str) (rs : List PlaceRec) (hp : lines.map placeFromLine = rs.map .ok)
    (ho : OutlineOk (rs.map Prod.fst)) : ∃ st, placeFromFile lines = .ok st ∧ HoldsOutline st rs := by
  cases rs with
  | nil => simp [OutlineOk] at ho
  | cons r rs =>
    cases lines with
    | nil => simp at hp
    | cons line lines =>
      simp only [List.map_cons, List.cons.injEq] at hp
      have h0 : r.1 = 0 := by simpa [OutlineOk] using ho.1
      obtain ⟨st, e, h⟩ := loadLoop_inv (loadInv_start r h0) lines rs hp.2 (by simpa using ho)
      obtain ⟨d, label, reading, aliases⟩ := r
      simp only at h0 e
      subst h0
      refine ⟨st.store, ?_, h.store⟩
      simp only [placeFromFile, hp.1, bind_ok, ne_eq, not_true_eq_false, if_false, e, Except.map]

/-- The error for a line that follows lines of an outline the last of which has depth `a`. -/
def Spec.outlineError (a : Int) (line : Str) (e : PyErr) : Prop :=
  placeFromLine line = .error e ∨
  ∃ r, placeFromLine line = .ok r ∧ ((r.1 < 0 ∧ e = .indexError) ∨ (a + 1 < r.1 ∧ e = .genericException))

/-- C91: the first line that cannot be read, is negative or jumps down by more than one level ends the loading with its error, whatever
follows it. -/
theorem C91_error (lines : List Str) (rs : List PlaceRec) (hp : lines.map placeFromLine = rs.map .ok)
    (ho : OutlineOk (rs.map Prod.fst)) (a : Int) (ha : (rs.map Prod.fst).getLast? = some a) (bad : Str) (rest : List Str) (e : PyErr)
    (he : Spec.outlineError a bad e) : placeFromFile (lines ++ bad :: rest) = .error e := by
  cases rs with
  | nil => simp at ha
  | cons r rs =>
    cases lines with
    | nil => simp at hp
    | cons line lines =>
      simp only [List.map_cons, List.cons.injEq] at hp
      have h0 : r.1 = 0 := by simpa [OutlineOk] using ho.1
      obtain ⟨st, e1, h⟩ := loadLoop_inv (loadInv_start r h0) lines rs hp.2 (by simpa using ho)
      have hbad : loadStep st bad = .error e := by
        rcases he with he | ⟨x, hx, ⟨h1, rfl⟩ | ⟨h1, rfl⟩⟩
        · unfold loadStep; rw [he]; rfl
        · exact (loadStep_inv h bad x hx a ha).2.1 h1
        · exact (loadStep_inv h bad x hx a ha).2.2 h1
      obtain ⟨d, label, reading, aliases⟩ := r
      simp only at h0 e1
      subst h0
      simp only [List.cons_append, placeFromFile, hp.1, ne_eq, not_true_eq_false, if_false, loadLoop_append, e1, Except.bind,
        loadLoop, hbad, bind, Except.map]

/-- C91: an empty file, an unreadable first line and a first line of another depth than 0. -/
theorem C91_first_line : placeFromFile [] = .error .stopIteration ∧
    (∀ line rest e, placeFromLine line = .error e → placeFromFile (line :: rest) = .error e) ∧
    (∀ line rest r, placeFromLine line = .ok r → r.1 ≠ 0 → placeFromFile (line :: rest) = .error .genericException) := by
  refine ⟨rfl, ?_, ?_⟩
  · intro line rest e h
    simp only [placeFromFile, h, bind, Except.bind]
  · intro line rest r h hne
    obtain ⟨d, label, reading, aliases⟩ := r
    simp only at hne
    simp only [placeFromFile, h, bind_ok, ne_eq, hne, not_false_eq_true, if_true]

/-- Every file is covered by exactly one of the three theorems: the cases are complete. -/
theorem C91_cases (lines : List Str) :
    lines = [] ∨ (∃ line rest, lines = line :: rest ∧ ((∃ e, placeFromLine line = .error e) ∨ ∃ r, placeFromLine line = .ok r ∧ r.1 ≠ 0)) ∨
    (∃ rs : List PlaceRec, lines.map placeFromLine = rs.map .ok ∧ OutlineOk (rs.map Prod.fst)) ∨
    (∃ (pre : List Str) (rs : List PlaceRec) (a : Int) (bad : Str) (rest : List Str) (e : PyErr), lines = pre ++ bad :: rest ∧ pre.map placeFromLine = rs.map .ok ∧ OutlineOk (rs.map Prod.fst) ∧
      (rs.map Prod.fst).getLast? = some a ∧ Spec.outlineError a bad e) := by
  cases lines with
  | nil => exact Or.inl rfl
  | cons line rest =>
    right
    cases h : placeFromLine line with
    | error e => exact Or.inl ⟨line, rest, rfl, Or.inl ⟨e, h⟩⟩
    | ok r =>
      by_cases h0 : r.1 = 0
      · right
        have gen : ∀ (ls pre : List Str) (rs : List PlaceRec) (a : Int), pre.map placeFromLine = rs.map .ok →
            OutlineOk (rs.map Prod.fst) → (rs.map Prod.fst).getLast? = some a →
            (∃ rs : List PlaceRec, (pre ++ ls).map placeFromLine = rs.map .ok ∧ OutlineOk (rs.map Prod.fst)) ∨
            (∃ (pre' : List Str) (rs : List PlaceRec) (a : Int) (bad : Str) (rest : List Str) (e : PyErr), pre ++ ls = pre' ++ bad :: rest ∧ pre'.map placeFromLine = rs.map .ok ∧
              OutlineOk (rs.map Prod.fst) ∧ (rs.map Prod.fst).getLast? = some a ∧ Spec.outlineError a bad e) := by
          intro ls
          induction ls with
          | nil => intro pre rs a h1 h2 _; exact Or.inl ⟨rs, by simpa using h1, h2⟩
          | cons l ls ih =>
            intro pre rs a h1 h2 h3
            cases hl : placeFromLine l with
            | error e => exact Or.inr ⟨pre, rs, a, l, ls, e, rfl, h1, h2, h3, Or.inl hl⟩
            | ok x =>
              by_cases c1 : x.1 < 0
              · exact Or.inr ⟨pre, rs, a, l, ls, _, rfl, h1, h2, h3, Or.inr ⟨x, hl, Or.inl ⟨c1, rfl⟩⟩⟩
              · by_cases c2 : a + 1 < x.1
                · exact Or.inr ⟨pre, rs, a, l, ls, _, rfl, h1, h2, h3, Or.inr ⟨x, hl, Or.inr ⟨c2, rfl⟩⟩⟩
                · have := ih (pre ++ [l]) (rs ++ [x]) x.1 (by simp [h1, hl])
                    (by rw [List.map_append, List.map_singleton]; exact (outlineOk_snoc h3).2 ⟨h2, by omega, by omega⟩) (by simp)
                  simpa using this
        have := gen rest [line] [r] 0 (by simp [h]) ⟨by simp [h0], by intro i a b _ hb; simp at hb⟩ (by simp [h0])
        simpa using this
      · exact Or.inl ⟨line, rest, rfl, Or.inr ⟨r, h, h0⟩⟩

/-- An outline with a second line of depth 0, a label used twice and aliases. -/
def demoOutline : List Spec.PlaceRec :=
  [(0, u!"world", none, none), (1, u!"japan", some u!"nihon", none), (2, u!"tokyo", none, some [u!"edo", u!"tokei"]),
   (0, u!"moon", none, none), (1, u!"base", none, none), (0, u!"japan", none, none)]

example : [u!"0 world None\n", u!"1 japan nihon\n", u!"2 tokyo None edo:tokei\n", u!"0 moon None\n", u!"1 base None", u!"0 japan None"].map
    placeFromLine = demoOutline.map .ok := by decide +kernel
example : Spec.OutlineOk (demoOutline.map Prod.fst) := by
  refine ⟨rfl, ?_⟩
  intro i a b ha hb
  match i with
  | 0 | 1 | 2 | 3 | 4 => cases ha; cases hb; decide
  | i + 5 => simp [demoOutline] at hb
example : (List.range 6).map (fun i => Dict.ofList (Spec.entriesOf demoOutline i)) =
    [[(u!"japan", 5), (u!"moon", 3)], [(u!"tokyo", 2)], [], [(u!"base", 4)], [], []] := by decide +kernel

/-- C91: what a single line says: its words are a whole number, a label, a reading (`None` for no reading) and possibly aliases
separated by colons. -/
theorem C91_line (line : Str) (d : Int) (label : Str) (reading : Option Str) (aliases : Option (List Str)) :
    placeFromLine line = .ok (d, label, reading, aliases) ↔
    ∃ depth rd : Str, pyInt 10 depth = .ok d ∧ reading = (if rd = u!"None" then none else some rd) ∧
      ((aliases = none ∧ HasWords line [depth, label, rd]) ∨
       ∃ al : Str, aliases = some (splitChr c!":" al) ∧ HasWords line [depth, label, rd, al]) := by
  have nosp : ∀ w ∈ splitWs line, 0x20 ∉ w := by
    intro w hw h
    have := (splitWs_words line w hw).2 _ h
    exact absurd this (by decide)
  have init : ∀ (l r : Str) (a : Option (List Str)), 0x20 ∉ l → 0x20 ∉ r → (∀ x ∈ a.getD [], 0x20 ∉ x) →
      placeInit l (readReading r) a = .ok () := by
    intro l r a h1 h2 h3
    unfold placeInit
    rw [if_neg]
    simp only [isInfix_singleton, mem_join_nil]
    rintro (h | h | ⟨x, h, h'⟩)
    · exact h1 h
    · unfold readReading at h
      split at h
      · simp at h
      · exact h2 h
    · exact h3 x h h'
  simp only [← splitWs_eq_iff]
  unfold placeFromLine
  rw [splitWs_rstrip]
  constructor
  · intro h
    split at h
    · rename_i depth l rd hw
      cases hd : pyInt 10 depth with
      | error e => simp [hd, bind, Except.bind] at h
      | ok d' =>
        have hi := init l rd none (nosp l (by simp [hw])) (nosp rd (by simp [hw])) (by simp)
        simp only [hd, hi, bind, Except.bind, Except.ok.injEq, Prod.mk.injEq] at h
        obtain ⟨rfl, rfl, rfl, rfl⟩ := h
        exact ⟨depth, rd, hd, rfl, Or.inl ⟨rfl, hw⟩⟩
    · rename_i depth l rd al hw
      cases hd : pyInt 10 depth with
      | error e => simp [hd, bind, Except.bind] at h
      | ok d' =>
        have hal : ∀ x ∈ (some (splitChr c!":" al)).getD [], 0x20 ∉ x := by
          intro x hx h
          obtain ⟨_, pre, post, e, _⟩ := (mem_splitChr _ _ _).1 hx
          exact nosp al (by simp [hw]) (by rw [e]; simp [h])
        have hi := init l rd _ (nosp l (by simp [hw])) (nosp rd (by simp [hw])) hal
        simp only [hd, hi, bind, Except.bind, Except.ok.injEq, Prod.mk.injEq] at h
        obtain ⟨rfl, rfl, rfl, rfl⟩ := h
        exact ⟨depth, rd, hd, rfl, Or.inr ⟨al, rfl, hw⟩⟩
    · cases h
  · rintro ⟨depth, rd, hd, rfl, ⟨rfl, hw⟩ | ⟨al, rfl, hw⟩⟩
    · have hi := init label rd none (nosp label (by simp [hw])) (nosp rd (by simp [hw])) (by simp)
      rw [hw]
      simp only [hd, hi, bind, Except.bind]
      rfl
    · have hal : ∀ x ∈ (some (splitChr c!":" al)).getD [], 0x20 ∉ x := by
        intro x hx h
        obtain ⟨_, pre, post, e, _⟩ := (mem_splitChr _ _ _).1 hx
        exact nosp al (by simp [hw]) (by rw [e]; simp [h])
      have hi := init label rd _ (nosp label (by simp [hw])) (nosp rd (by simp [hw])) hal
      rw [hw]
      simp only [hd, hi, bind, Except.bind]
      rfl

/-- C91: every other line is refused with ValueError. -/
theorem C91_line_error (line : Str) (e : PyErr) (h : placeFromLine line = .error e) : e = .valueError := by
  have int : ∀ (s : Str) (e : PyErr), pyInt 10 s = .error e → e = .valueError := by
    intro s e h
    unfold pyInt at h
    simp only at h
    split at h <;> simp_all
  have init : ∀ (l : Str) (r : Option Str) (a : Option (List Str)) (e : PyErr), placeInit l r a = .error e → e = .valueError := by
    intro l r a e h
    unfold placeInit at h
    split at h <;> cases h; rfl
  unfold placeFromLine at h
  split at h
  · rename_i depth l rd _
    cases hd : pyInt 10 depth with
    | error e' => simp only [hd, bind, Except.bind] at h; cases h; exact int _ _ hd
    | ok d =>
      cases hi : placeInit l (readReading rd) none with
      | error e' => simp only [hd, hi, bind, Except.bind] at h; cases h; exact init _ _ _ _ hi
      | ok u => simp only [hd, hi, bind, Except.bind] at h; cases h
  · rename_i depth l rd al _
    cases hd : pyInt 10 depth with
    | error e' => simp only [hd, bind, Except.bind] at h; cases h; exact int _ _ hd
    | ok d =>
      cases hi : placeInit l (readReading rd) (some (splitChr c!":" al)) with
      | error e' => simp only [hd, hi, bind, Except.bind] at h; cases h; exact init _ _ _ _ hi
      | ok u => simp only [hd, hi, bind, Except.bind] at h; cases h
  · cases h; rfl

end Cjk
