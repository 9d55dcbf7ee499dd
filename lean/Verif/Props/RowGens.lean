import Verif.Spec.RowGens
import Verif.Props.LineIter
/-!
# C150: `load_file` reads when rows are asked for
-/

namespace Cjk
open Py
open Spec (rowAsks rowLines rowsShown holdsFile gaveRow rowsSeen OnlyStream)

theorem csvNext_rows (d : CsvDialect) (lim : Nat) (ls : List Str) : ∀ r : CsvR,
    ∃ t, ls = t ++ (csvNext d lim r ls).2 ∧
      ((csvNext d lim r ls).1 = none → csvRowsD d lim r ls = ([], none) ∧ csvRowsD d lim r t = ([], none)) ∧
      (∀ e, (csvNext d lim r ls).1 = some (.error e) → csvRowsD d lim r ls = ([], some e) ∧ csvRowsD d lim r t = ([], some e)) ∧
      (∀ row, (csvNext d lim r ls).1 = some (.ok row) →
        csvRowsD d lim r ls = (row :: (csvRowsD d lim .init (csvNext d lim r ls).2).1, (csvRowsD d lim .init (csvNext d lim r ls).2).2) ∧
        ((∀ more, csvRowsD d lim r (t ++ more) = (row :: (csvRowsD d lim .init more).1, (csvRowsD d lim .init more).2)) ∨
          ((csvNext d lim r ls).2 = [] ∧ csvRowsD d lim r t = ([row], none)))) := by
  induction ls with
  | nil =>
    intro r
    refine ⟨[], ?_⟩
    by_cases h : r.field ≠ [] ∨ r.mode = .inQuoted
    · by_cases hs : d.strict = true
      · have hn : csvNext d lim r [] = (some (.error .genericException), []) := by rw [csvNext, if_pos h, if_pos hs]
        have hr : csvRowsD d lim r [] = ([], some .genericException) := by rw [csvRowsD, if_pos h, if_pos hs]
        rw [hn, hr]
        refine ⟨rfl, (fun h => by cases h), ?_, (fun _ h => by cases h)⟩
        intro e he
        cases he
        exact ⟨rfl, rfl⟩
      · have hn : csvNext d lim r [] = (some (.ok (r.save .startRecord).fields), []) := by rw [csvNext, if_pos h, if_neg hs]
        have hr : csvRowsD d lim r [] = ([(r.save .startRecord).fields], none) := by rw [csvRowsD, if_pos h, if_neg hs]
        have hi : csvRowsD d lim .init [] = ([], none) := by simp [csvRowsD, CsvR.init]
        rw [hn]
        refine ⟨rfl, (fun h => by cases h), (fun _ h => by cases h), ?_⟩
        intro row hrow
        cases hrow
        rw [hr, hi]
        exact ⟨rfl, .inr ⟨rfl, rfl⟩⟩
    · have hn : csvNext d lim r [] = (none, []) := by rw [csvNext, if_neg h]
      have hr : csvRowsD d lim r [] = ([], none) := by rw [csvRowsD, if_neg h]
      rw [hn, hr]
      exact ⟨rfl, fun _ => ⟨rfl, rfl⟩, (fun _ h => by cases h), (fun _ h => by cases h)⟩
  | cons l ls ih =>
    intro r
    cases hl : r.line d lim l with
    | error e =>
      have hn : csvNext d lim r (l :: ls) = (some (.error e), ls) := by rw [csvNext]; simp only [hl]
      have hr : ∀ ls, csvRowsD d lim r (l :: ls) = ([], some e) := fun ls => by rw [csvRowsD]; simp only [hl]
      refine ⟨[l], ?_⟩
      rw [hn, hr, hr]
      refine ⟨rfl, (fun h => by cases h), ?_, (fun _ h => by cases h)⟩
      intro e he
      cases he
      exact ⟨rfl, rfl⟩
    | ok r' =>
      by_cases hm : r'.mode = .startRecord
      · have hn : csvNext d lim r (l :: ls) = (some (.ok r'.fields), ls) := by rw [csvNext]; simp only [hl, if_pos hm]
        have hr : ∀ ls, csvRowsD d lim r (l :: ls) = (r'.fields :: (csvRowsD d lim .init ls).1, (csvRowsD d lim .init ls).2) :=
          fun ls => by rw [csvRowsD]; simp only [hl, if_pos hm]
        refine ⟨[l], ?_⟩
        rw [hn]
        refine ⟨rfl, (fun h => by cases h), (fun _ h => by cases h), ?_⟩
        intro row hrow
        cases hrow
        exact ⟨hr ls, .inl fun more => hr more⟩
      · have hn : csvNext d lim r (l :: ls) = csvNext d lim r' ls := by rw [csvNext]; simp only [hl, if_neg hm]
        have hr : ∀ ls, csvRowsD d lim r (l :: ls) = csvRowsD d lim r' ls := fun ls => by rw [csvRowsD]; simp only [hl, if_neg hm]
        obtain ⟨t, h1, h2, h3, h4⟩ := ih r'
        refine ⟨l :: t, ?_⟩
        rw [hn, hr, hr]
        refine ⟨by rw [List.cons_append, ← h1], h2, h3, ?_⟩
        intro row hrow
        obtain ⟨h5, h6⟩ := h4 row hrow
        refine ⟨h5, ?_⟩
        rcases h6 with h6 | h6
        · exact .inl fun more => by rw [List.cons_append, hr]; exact h6 more
        · exact .inr h6

theorem rowStep_suffix (lim : Nat) (w : RowWorld) (op : RowOp) : ∃ t, w.rest = t ++ (w.step lim op).1.rest := by
  have sh : ∀ i d, ∃ t, w.rest = t ++ (w.askShared lim i d).1.rest := by
    intro i d
    obtain ⟨t, h, -⟩ := csvNext_rows d lim w.rest .init
    refine ⟨t, ?_⟩
    unfold RowWorld.askShared
    generalize csvNext d lim .init w.rest = q at h
    obtain ⟨_ | _ | _, rest⟩ := q <;> exact h
  have ow : ∀ i d l, (w.askOwn lim i d l).1.rest = w.rest := by
    intro i d l
    unfold RowWorld.askOwn
    generalize csvNext d lim .init l = q
    obtain ⟨_ | _ | _, rest⟩ := q <;> rfl
  cases op with
  | loadFile src o => exact ⟨[], rfl⟩
  | close i => exact ⟨[], rfl⟩
  | change f l => exact ⟨[], rfl⟩
  | readLine =>
    rw [RowWorld.step]
    cases h : w.rest with
    | nil => exact ⟨[], by simp [h]⟩
    | cons l ls => exact ⟨[l], rfl⟩
  | next i =>
    rw [RowWorld.step]
    cases w.gens[i]? with
    | none => exact ⟨[], rfl⟩
    | some g =>
      cases g with
      | finished => exact ⟨[], rfl⟩
      | shared d => exact sh i d
      | own d l => exact ⟨[], (ow i d l).symm⟩
      | fresh src o =>
        simp only [RowWorld.askFresh]
        cases src with
        | none => simp only; cases o.dialect with
          | error e => exact ⟨[], rfl⟩
          | ok d => exact sh i d
        | some f => simp only; cases w.disk f with
          | none => exact ⟨[], rfl⟩
          | some l => simp only; cases o.dialect with
            | error e => exact ⟨[], rfl⟩
            | ok d => exact ⟨[], (ow i d l).symm⟩

/-- C150: every line of the stream goes to one step: the lines taken by the steps of a program in their order, followed by those that are left, are the lines of
the stream. -/
theorem C150_each_line_once (lim : Nat) (w : RowWorld) (ops : List RowOp) : (w.run lim ops).flatMap rowLines ++ (w.final lim ops).rest = w.rest := by
  induction ops generalizing w with
  | nil => rfl
  | cons op ops ih =>
    obtain ⟨t, ht⟩ := rowStep_suffix lim w op
    rw [RowWorld.run, RowWorld.final, List.flatMap_cons, List.append_assoc, ih, rowLines]
    simp only
    rw [taken_append ht, ← ht]

theorem rowAsks_empty (lim : Nat) (w : RowWorld) (ops : List RowOp) (i : Nat) (h : w.rest = []) : (rowAsks i (w.run lim ops)).flatMap rowLines = [] := by
  have h1 := C150_each_line_once lim w ops
  rw [h, List.append_eq_nil_iff] at h1
  rw [List.flatMap_eq_nil_iff] at h1 ⊢
  exact fun e he => h1.1 e (List.mem_filter.1 he).1

theorem put_get (w : RowWorld) (i : Nat) (g : RowGen) (b : Bool) (h : i < w.gens.length) : (w.put i g b).gens[i]? = some g := by
  simp [RowWorld.put, h]

theorem put_get_ne (w : RowWorld) (i j : Nat) (g : RowGen) (b : Bool) (h : j ≠ i) : (w.put j g b).gens[i]? = w.gens[i]? := by
  simp [RowWorld.put, h]

theorem put_opened_ne (w : RowWorld) (i j : Nat) (g : RowGen) (b : Bool) (h : j ≠ i) : (i ∈ (w.put j g b).opened ↔ i ∈ w.opened) := by
  cases b <;> simp [RowWorld.put, Ne.symm h]

theorem put_opened (w : RowWorld) (i : Nat) (g : RowGen) (b : Bool) : (i ∈ (w.put i g b).opened ↔ b = true) := by
  cases b <;> simp [RowWorld.put]

/-- What asking the i-th generator can do to the world: the stream moves on and the generator has a new state. -/
theorem ask_put (lim : Nat) (w : RowWorld) (i : Nat) (h : i < w.gens.length) :
    (w.step lim (.next i)).1 = w ∨ ∃ rest g b, (w.step lim (.next i)).1 = RowWorld.put { w with rest := rest } i g b := by
  have sh : ∀ d, ∃ rest g b, (w.askShared lim i d).1 = RowWorld.put { w with rest := rest } i g b := by
    intro d
    unfold RowWorld.askShared
    generalize csvNext d lim .init w.rest = q
    obtain ⟨_ | _ | _, rest⟩ := q <;> exact ⟨_, _, _, rfl⟩
  have ow : ∀ d l, ∃ rest g b, (w.askOwn lim i d l).1 = RowWorld.put { w with rest := rest } i g b := by
    intro d l
    unfold RowWorld.askOwn
    generalize csvNext d lim .init l = q
    obtain ⟨_ | _ | _, rest⟩ := q <;> exact ⟨w.rest, _, _, rfl⟩
  rw [RowWorld.step]
  cases w.gens[i]? with
  | none => exact .inl rfl
  | some g =>
    cases g with
    | finished => exact .inl rfl
    | shared d => exact .inr (sh d)
    | own d l => exact .inr (ow d l)
    | fresh src o =>
      refine .inr ?_
      simp only [RowWorld.askFresh]
      cases src with
      | none => simp only; cases o.dialect with
        | error e => exact ⟨w.rest, _, _, rfl⟩
        | ok d => exact sh d
      | some f => simp only; cases w.disk f with
        | none => exact ⟨w.rest, _, _, rfl⟩
        | some l => simp only; cases o.dialect with
          | error e => exact ⟨w.rest, _, _, rfl⟩
          | ok d => exact ow d l

/-- Steps about others leave a generator and its file alone. -/
theorem others_keep (lim : Nat) (w : RowWorld) (i : Nat) (g : RowGen) (op : RowOp) (hg : w.gens[i]? = some g) (h1 : op ≠ .next i) (h2 : op ≠ .close i) :
    (w.step lim op).1.gens[i]? = some g ∧ (i ∈ (w.step lim op).1.opened ↔ i ∈ w.opened) := by
  have hlt : i < w.gens.length := (List.getElem?_eq_some_iff.1 hg).1
  cases op with
  | loadFile src o => exact ⟨by rw [RowWorld.step]; simp only; rw [List.getElem?_append_left hlt]; exact hg, Iff.rfl⟩
  | close j =>
    have hj : j ≠ i := fun h => h2 (by rw [h])
    exact ⟨(put_get_ne w i j _ _ hj).trans hg, put_opened_ne w i j _ _ hj⟩
  | change f l => exact ⟨hg, Iff.rfl⟩
  | readLine =>
    rw [RowWorld.step]
    cases w.rest with
    | nil => exact ⟨hg, Iff.rfl⟩
    | cons l ls => exact ⟨hg, Iff.rfl⟩
  | next j =>
    have hj : j ≠ i := fun h => h1 (by rw [h])
    by_cases hjl : j < w.gens.length
    · rcases ask_put lim w j hjl with h | ⟨rest, g', b, h⟩
      · rw [h]; exact ⟨hg, Iff.rfl⟩
      · rw [h]; exact ⟨(put_get_ne _ i j _ _ hj).trans hg, put_opened_ne _ i j _ _ hj⟩
    · have : w.gens[j]? = none := by simpa using hjl
      have hs : w.step lim (.next j) = (w, .nothing) := by simp only [RowWorld.step, this]
      rw [hs]; exact ⟨hg, Iff.rfl⟩

theorem rowAsks_cons_self (lim : Nat) (w : RowWorld) (i : Nat) (ops : List RowOp) :
    rowAsks i (w.run lim (.next i :: ops)) = ⟨.next i, w.disk, w.rest, (w.step lim (.next i)).1.rest, (w.step lim (.next i)).2⟩ ::
      rowAsks i ((w.step lim (.next i)).1.run lim ops) := by
  rw [RowWorld.run, rowAsks, List.filter_cons, if_pos (by simp)]
  rfl

theorem rowAsks_cons_other (lim : Nat) (w : RowWorld) (i : Nat) (op : RowOp) (ops : List RowOp) (h : op ≠ .next i) :
    rowAsks i (w.run lim (op :: ops)) = rowAsks i ((w.step lim op).1.run lim ops) := by
  rw [RowWorld.run, rowAsks, List.filter_cons, if_neg (by cases op <;> simp; rintro rfl; exact h rfl)]
  rfl

theorem rowsShown_stop (n : Nat) : rowsShown n ([], none) = List.replicate n .stop := by simp [rowsShown]

theorem rowsShown_raised (n : Nat) (e : PyErr) : rowsShown (n + 1) ([], some e) = .raised e :: List.replicate n .stop := by
  simp [rowsShown, List.take_replicate]

theorem rowsShown_row (n : Nat) (r : List Str) (a : List (List Str)) (b : Option PyErr) :
    rowsShown (n + 1) (r :: a, b) = .row r :: rowsShown n (a, b) := by
  simp only [rowsShown, List.map_cons, List.cons_append, List.take_succ_cons, List.cons.injEq, true_and]
  rw [List.replicate_succ', ← List.append_assoc, List.take_append_of_le_length]
  simp
  omega

/-- A generator that has finished shows its end. -/
theorem asks_finished (lim : Nat) (i : Nat) (ops : List RowOp) : ∀ w : RowWorld, w.gens[i]? = some .finished →
    (rowAsks i (w.run lim ops)).map RowEvent.seen = List.replicate (rowAsks i (w.run lim ops)).length .stop ∧
      (rowAsks i (w.run lim ops)).flatMap rowLines = [] := by
  induction ops with
  | nil => intro w _; exact ⟨rfl, rfl⟩
  | cons op ops ih =>
    intro w hg
    have hlt : i < w.gens.length := (List.getElem?_eq_some_iff.1 hg).1
    by_cases h1 : op = .next i
    · subst h1
      have hs : w.step lim (.next i) = (w, .stop) := by simp only [RowWorld.step, hg]
      rw [rowAsks_cons_self, hs]
      obtain ⟨h2, h3⟩ := ih w hg
      refine ⟨by rw [List.map_cons, h2, List.length_cons, List.replicate_succ], ?_⟩
      rw [List.flatMap_cons, h3]
      simp [rowLines]
    · rw [rowAsks_cons_other lim w i op ops h1]
      by_cases h2 : op = .close i
      · subst h2
        exact ih _ (put_get w i _ _ hlt)
      · exact ih _ (others_keep lim w i _ op hg h1 h2).1

theorem asks_shared (lim : Nat) (i : Nat) (d : CsvDialect) (ops : List RowOp) : ∀ w : RowWorld, w.gens[i]? = some (.shared d) → RowOp.close i ∉ ops →
    (rowAsks i (w.run lim ops)).map RowEvent.seen =
      rowsShown (rowAsks i (w.run lim ops)).length (csvRowsD d lim .init ((rowAsks i (w.run lim ops)).flatMap rowLines)) := by
  induction ops with
  | nil => intro w _ _; simp [RowWorld.run, rowAsks, rowsShown]
  | cons op ops ih =>
    intro w hg hc
    have hlt : i < w.gens.length := (List.getElem?_eq_some_iff.1 hg).1
    rw [List.mem_cons, not_or] at hc
    by_cases h1 : op = .next i
    · subst h1
      have hs : w.step lim (.next i) = w.askShared lim i d := by simp only [RowWorld.step, hg]
      rw [rowAsks_cons_self, List.map_cons, List.flatMap_cons, List.length_cons]
      obtain ⟨t, h2, h3, h4, h5⟩ := csvNext_rows d lim w.rest .init
      rw [hs]
      unfold RowWorld.askShared
      generalize csvNext d lim .init w.rest = q at h2 h3 h4 h5
      obtain ⟨_ | e | row, rest⟩ := q
      · simp only at h2 ⊢
        obtain ⟨h6, h7⟩ := asks_finished lim i ops (RowWorld.put { w with rest := rest } i .finished false) (put_get _ i _ _ hlt)
        rw [h6, h7, List.append_nil]
        simp only [rowLines]
        rw [taken_append (after := (RowWorld.put { w with rest := rest } i .finished false).rest) h2, (h3 rfl).2, rowsShown_stop, List.replicate_succ]
      · simp only at h2 ⊢
        obtain ⟨h6, h7⟩ := asks_finished lim i ops (RowWorld.put { w with rest := rest } i .finished false) (put_get _ i _ _ hlt)
        rw [h6, h7, List.append_nil]
        simp only [rowLines]
        rw [taken_append (after := (RowWorld.put { w with rest := rest } i .finished false).rest) h2, (h4 e rfl).2, rowsShown_raised]
      · simp only at h2 ⊢
        have h6 := ih (RowWorld.put { w with rest := rest } i (.shared d) false) (put_get _ i _ _ hlt) hc.2
        have h7 := rowAsks_empty lim (RowWorld.put { w with rest := rest } i (.shared d) false) ops i
        rw [h6]
        have h8 : rowLines ⟨.next i, w.disk, w.rest, (RowWorld.put { w with rest := rest } i (.shared d) false).rest, .row row⟩ = t := taken_append h2
        rw [h8]
        rcases (h5 row rfl).2 with h9 | ⟨h9, h10⟩
        · rw [h9, rowsShown_row]
        · simp only at h9
          rw [h7 h9, List.append_nil, h10, rowsShown_row]
          simp [csvRowsD, CsvR.init]
    · rw [rowAsks_cons_other lim w i op ops h1]
      exact ih _ (others_keep lim w i _ op hg h1 (Ne.symm hc.1)).1 hc.2

theorem asks_own (lim : Nat) (i : Nat) (d : CsvDialect) (ops : List RowOp) : ∀ (w : RowWorld) (left : List Str), w.gens[i]? = some (.own d left) →
    RowOp.close i ∉ ops →
    (rowAsks i (w.run lim ops)).map RowEvent.seen = rowsShown (rowAsks i (w.run lim ops)).length (csvRowsD d lim .init left) ∧
      (rowAsks i (w.run lim ops)).flatMap rowLines = [] := by
  induction ops with
  | nil => intro w _ _ _; simp [RowWorld.run, rowAsks, rowsShown]
  | cons op ops ih =>
    intro w left hg hc
    have hlt : i < w.gens.length := (List.getElem?_eq_some_iff.1 hg).1
    rw [List.mem_cons, not_or] at hc
    by_cases h1 : op = .next i
    · subst h1
      have hs : w.step lim (.next i) = w.askOwn lim i d left := by simp only [RowWorld.step, hg]
      rw [rowAsks_cons_self, List.map_cons, List.flatMap_cons, List.length_cons]
      obtain ⟨t, h2, h3, h4, h5⟩ := csvNext_rows d lim left .init
      rw [hs]
      unfold RowWorld.askOwn
      generalize csvNext d lim .init left = q at h2 h3 h4 h5
      obtain ⟨_ | e | row, rest⟩ := q
      · simp only at h2 ⊢
        obtain ⟨h6, h7⟩ := asks_finished lim i ops (RowWorld.put w i .finished false) (put_get _ i _ _ hlt)
        rw [h6, h7, (h3 rfl).1, rowsShown_stop, List.replicate_succ]
        exact ⟨rfl, by simp [rowLines, RowWorld.put]⟩
      · simp only at h2 ⊢
        obtain ⟨h6, h7⟩ := asks_finished lim i ops (RowWorld.put w i .finished false) (put_get _ i _ _ hlt)
        rw [h6, h7, (h4 e rfl).1, rowsShown_raised]
        exact ⟨rfl, by simp [rowLines, RowWorld.put]⟩
      · simp only at h2 ⊢
        obtain ⟨h6, h7⟩ := ih (RowWorld.put w i (.own d rest) true) rest (put_get _ i _ _ hlt) hc.2
        rw [h6, h7, (h5 row rfl).1, rowsShown_row]
        exact ⟨rfl, by simp [rowLines, RowWorld.put]⟩
    · rw [rowAsks_cons_other lim w i op ops h1]
      exact ih _ left (others_keep lim w i _ op hg h1 (Ne.symm hc.1)).1 hc.2

theorem asks_fresh_stream (lim : Nat) (i : Nat) (o : CsvOptions) (ops : List RowOp) : ∀ w : RowWorld, w.gens[i]? = some (.fresh none o) → RowOp.close i ∉ ops →
    (rowAsks i (w.run lim ops)).map RowEvent.seen =
      rowsShown (rowAsks i (w.run lim ops)).length (loadFileWith lim o ((rowAsks i (w.run lim ops)).flatMap rowLines)) := by
  induction ops with
  | nil => intro w _ _; simp [RowWorld.run, rowAsks, rowsShown]
  | cons op ops ih =>
    intro w hg hc
    have hlt : i < w.gens.length := (List.getElem?_eq_some_iff.1 hg).1
    by_cases h1 : op = .next i
    · subst h1
      cases hd : o.dialect with
      | error e =>
        have hs : w.step lim (.next i) = (w.put i .finished false, .raised e) := by simp only [RowWorld.step, hg, RowWorld.askFresh, hd]
        rw [List.mem_cons, not_or] at hc
        rw [rowAsks_cons_self, List.map_cons, List.flatMap_cons, List.length_cons, hs]
        obtain ⟨h6, h7⟩ := asks_finished lim i ops (RowWorld.put w i .finished false) (put_get _ i _ _ hlt)
        rw [h6]
        simp only [loadFileWith, hd]
        rw [rowsShown_raised]
      | ok d =>
        have e1 : w.step lim (.next i) = ({ w with gens := w.gens.set i (.shared d) } : RowWorld).step lim (.next i) := by
          simp only [RowWorld.step, hg, RowWorld.askFresh, hd]
          rw [List.getElem?_set_self hlt]
          simp only [RowWorld.askShared]
          generalize csvNext d lim .init w.rest = q
          obtain ⟨_ | e | row, rest⟩ := q <;> simp [RowWorld.put]
        have e2 : rowAsks i (w.run lim (.next i :: ops)) = rowAsks i (({ w with gens := w.gens.set i (.shared d) } : RowWorld).run lim (.next i :: ops)) := by
          rw [rowAsks_cons_self, rowAsks_cons_self, e1]
        rw [e2]
        simp only [loadFileWith, hd]
        exact asks_shared lim i d (.next i :: ops) _ (by simp [hlt]) hc
    · rw [List.mem_cons, not_or] at hc
      rw [rowAsks_cons_other lim w i op ops h1]
      exact ih _ (others_keep lim w i _ op hg h1 (Ne.symm hc.1)).1 hc.2

theorem asks_fresh_file (lim : Nat) (i : Nat) (f : Path) (o : CsvOptions) (ops : List RowOp) : ∀ w : RowWorld, w.gens[i]? = some (.fresh (some f) o) →
    RowOp.close i ∉ ops →
    (rowAsks i (w.run lim ops)).flatMap rowLines = [] ∧
    ∀ e es, rowAsks i (w.run lim ops) = e :: es → (e :: es).map RowEvent.seen =
      rowsShown (e :: es).length (match e.disk f with | none => ([], some .osError) | some lines => loadFileWith lim o lines) := by
  induction ops with
  | nil => intro w _ _; exact ⟨rfl, fun e es h => by cases h⟩
  | cons op ops ih =>
    intro w hg hc
    have hlt : i < w.gens.length := (List.getElem?_eq_some_iff.1 hg).1
    have hc' := hc
    rw [List.mem_cons, not_or] at hc
    by_cases h1 : op = .next i
    · subst h1
      have fin : ∀ e, w.step lim (.next i) = (w.put i .finished false, .raised e) →
          (rowAsks i (w.run lim (.next i :: ops))).flatMap rowLines = [] ∧
            (rowAsks i (w.run lim (.next i :: ops))).map RowEvent.seen = rowsShown (rowAsks i (w.run lim (.next i :: ops))).length ([], some e) := by
        intro e hs
        obtain ⟨h6, h7⟩ := asks_finished lim i ops (RowWorld.put w i .finished false) (put_get _ i _ _ hlt)
        rw [rowAsks_cons_self, List.map_cons, List.flatMap_cons, List.length_cons, hs, h6, h7, rowsShown_raised]
        exact ⟨by simp [rowLines, RowWorld.put], rfl⟩
      have main : (rowAsks i (w.run lim (.next i :: ops))).flatMap rowLines = [] ∧
          (rowAsks i (w.run lim (.next i :: ops))).map RowEvent.seen = rowsShown (rowAsks i (w.run lim (.next i :: ops))).length
            (match w.disk f with | none => ([], some .osError) | some lines => loadFileWith lim o lines) := by
        cases hf : w.disk f with
        | none => exact fin _ (by simp only [RowWorld.step, hg, RowWorld.askFresh, hf])
        | some lines =>
          simp only [loadFileWith]
          cases hd : o.dialect with
          | error e => exact fin _ (by simp only [RowWorld.step, hg, RowWorld.askFresh, hf, hd])
          | ok d =>
            have e1 : w.step lim (.next i) = ({ w with gens := w.gens.set i (.own d lines) } : RowWorld).step lim (.next i) := by
              simp only [RowWorld.step, hg, RowWorld.askFresh, hd, hf]
              rw [List.getElem?_set_self hlt]
              simp only [RowWorld.askOwn]
              generalize csvNext d lim .init lines = q
              obtain ⟨_ | e | row, rest⟩ := q <;> simp [RowWorld.put]
            have e2 : rowAsks i (w.run lim (.next i :: ops)) = rowAsks i (({ w with gens := w.gens.set i (.own d lines) } : RowWorld).run lim (.next i :: ops)) := by
              rw [rowAsks_cons_self, rowAsks_cons_self, e1]
            rw [e2]
            exact (asks_own lim i d (.next i :: ops) _ lines (by simp [hlt]) hc').symm
      refine ⟨main.1, ?_⟩
      intro e es he
      rw [← he, main.2]
      rw [rowAsks_cons_self, List.cons.injEq] at he
      rw [← he.1]
    · rw [rowAsks_cons_other lim w i op ops h1]
      exact ih _ (others_keep lim w i _ op hg h1 (Ne.symm hc.1)).1 hc.2

theorem loadFile_get (w : RowWorld) (src : Option Path) (o : CsvOptions) (lim : Nat) :
    (w.step lim (.loadFile src o)).1.gens[w.gens.length]? = some (.fresh src o) := by simp [RowWorld.step]

/-- C150: whatever else a program does, a generator over the stream shows what `load_file` makes of the lines that it took itself. -/
theorem C150_stream (lim : Nat) (w : RowWorld) (o : CsvOptions) (ops : List RowOp) (hc : RowOp.close w.gens.length ∉ ops) :
    (rowAsks w.gens.length (w.run lim (.loadFile none o :: ops))).map RowEvent.seen =
      rowsShown (rowAsks w.gens.length (w.run lim (.loadFile none o :: ops))).length
        (loadFileWith lim o ((rowAsks w.gens.length (w.run lim (.loadFile none o :: ops))).flatMap rowLines)) := by
  rw [rowAsks_cons_other lim w _ _ ops (by simp)]
  exact asks_fresh_stream lim _ o ops _ (loadFile_get w none o lim) hc

/-- C150: whatever else a program does, a generator over a file shows what `load_file` makes of the file as it is when the generator is first asked, or the error
if it cannot be opened then, and takes nothing from the stream. -/
theorem C150_file (lim : Nat) (w : RowWorld) (f : Path) (o : CsvOptions) (ops : List RowOp) (hc : RowOp.close w.gens.length ∉ ops) :
    (rowAsks w.gens.length (w.run lim (.loadFile (some f) o :: ops))).flatMap rowLines = [] ∧
    ∀ e es, rowAsks w.gens.length (w.run lim (.loadFile (some f) o :: ops)) = e :: es → (e :: es).map RowEvent.seen =
      rowsShown (e :: es).length (match e.disk f with | none => ([], some .osError) | some lines => loadFileWith lim o lines) := by
  rw [rowAsks_cons_other lim w _ _ ops (by simp)]
  exact asks_fresh_file lim _ f o ops _ (loadFile_get w (some f) o lim) hc

/-- C150: a generator that was closed shows its end, takes nothing and has no file open. -/
theorem C150_closed (lim : Nat) (w : RowWorld) (i : Nat) (hi : i < w.gens.length) (ops : List RowOp) :
    (∀ e ∈ rowAsks i (w.run lim (.close i :: ops)), e.seen = .stop ∧ e.after = e.before) ∧ i ∉ (w.final lim (.close i :: ops)).opened := by
  have main : ∀ (ops : List RowOp) (w : RowWorld), w.gens[i]? = some .finished → i ∉ w.opened →
      (∀ e ∈ rowAsks i (w.run lim ops), e.seen = .stop ∧ e.after = e.before) ∧ i ∉ (w.final lim ops).opened := by
    intro ops
    induction ops with
    | nil => intro w _ h; exact ⟨(fun e he => by cases he), h⟩
    | cons op ops ih =>
      intro w hg ho
      have hlt : i < w.gens.length := (List.getElem?_eq_some_iff.1 hg).1
      by_cases h1 : op = .next i
      · subst h1
        have hs : w.step lim (.next i) = (w, .stop) := by simp only [RowWorld.step, hg]
        rw [rowAsks_cons_self, RowWorld.final, hs]
        obtain ⟨h2, h3⟩ := ih w hg ho
        refine ⟨?_, h3⟩
        intro e he
        rcases List.mem_cons.1 he with rfl | he
        · exact ⟨rfl, rfl⟩
        · exact h2 e he
      · rw [rowAsks_cons_other lim w i op ops h1, RowWorld.final]
        by_cases h2 : op = .close i
        · subst h2
          exact ih _ (put_get w i _ _ hlt) (fun h => by cases (put_opened w i _ _).1 h)
        · obtain ⟨h3, h4⟩ := others_keep lim w i _ op hg h1 h2
          exact ih _ h3 (fun h => ho (h4.1 h))
  rw [rowAsks_cons_other lim w i _ ops (by simp), RowWorld.final]
  exact main ops _ (put_get w i _ _ hi) (fun h => by cases (put_opened w i _ _).1 h)

/-- What asking a generator over the stream shows. -/
theorem askShared_seen (lim : Nat) (w : RowWorld) (i : Nat) (d : CsvDialect) (o : CsvOptions) (hd : o.dialect = .ok d) :
    (∀ r, (w.askShared lim i d).2 = .row r → loadFileWith lim o w.rest =
      (r :: (loadFileWith lim o (w.askShared lim i d).1.rest).1, (loadFileWith lim o (w.askShared lim i d).1.rest).2)) ∧
    (∀ x, (w.askShared lim i d).2 = .raised x → loadFileWith lim o w.rest = ([], some x)) ∧
    ((w.askShared lim i d).2 = .stop → loadFileWith lim o w.rest = ([], none) ∧ (w.askShared lim i d).1.rest = []) := by
  obtain ⟨t, h2, h3, h4, h5⟩ := csvNext_rows d lim w.rest .init
  have hz : ∀ (ls : List Str) (r : CsvR), (csvNext d lim r ls).1 = none → (csvNext d lim r ls).2 = [] := by
    intro ls
    induction ls with
    | nil => intro r _; rw [csvNext]; by_cases h1 : r.field ≠ [] ∨ r.mode = .inQuoted <;> by_cases h2 : d.strict = true <;> simp [h1, h2]
    | cons l ls ih =>
      intro r h
      rw [csvNext] at h ⊢
      cases hl : r.line d lim l with
      | error e => simp [hl] at h
      | ok r' =>
        simp only [hl] at h ⊢
        by_cases hm : r'.mode = .startRecord
        · simp [hm] at h
        · rw [if_neg hm] at h ⊢
          exact ih r' h
  have h6 := hz w.rest .init
  unfold RowWorld.askShared
  simp only [loadFileWith, hd]
  generalize csvNext d lim .init w.rest = q at h2 h3 h4 h5 h6
  obtain ⟨_ | e | row, rest⟩ := q
  · exact ⟨(fun r h => by cases h), (fun x h => by cases h), fun _ => ⟨(h3 rfl).1, h6 rfl⟩⟩
  · refine ⟨(fun r h => by cases h), ?_, (fun h => by cases h)⟩
    intro x h
    cases h
    exact (h4 e rfl).1
  · refine ⟨?_, (fun x h => by cases h), (fun h => by cases h)⟩
    intro r h
    cases h
    exact (h5 row rfl).1

/-- The states of a generator over the stream with these options. -/
def RowGen.OfStream (o : CsvOptions) (g : RowGen) : Prop := g = .fresh none o ∨ (∃ d, o.dialect = .ok d ∧ g = .shared d) ∨ g = .finished

theorem askShared_ofStream (lim : Nat) (w : RowWorld) (i : Nat) (d : CsvDialect) (o : CsvOptions) (hd : o.dialect = .ok d) :
    ∃ rest g, (w.askShared lim i d).1 = RowWorld.put { w with rest := rest } i g false ∧ g.OfStream o := by
  unfold RowWorld.askShared
  generalize csvNext d lim .init w.rest = q
  obtain ⟨_ | e | row, rest⟩ := q
  · exact ⟨_, _, rfl, .inr (.inr rfl)⟩
  · exact ⟨_, _, rfl, .inr (.inr rfl)⟩
  · exact ⟨_, _, rfl, .inr (.inl ⟨d, hd, rfl⟩)⟩

/-- What a call of a generator over the stream does. -/
def StreamAsk (lim : Nat) (w : RowWorld) (i : Nat) (o : CsvOptions) (q : RowWorld × RowSeen) : Prop :=
  (∃ rest g', q.1 = RowWorld.put { w with rest := rest } i g' false ∧ g'.OfStream o ∨ q.1 = w) ∧
  (∀ r, q.2 = .row r → loadFileWith lim o w.rest = (r :: (loadFileWith lim o q.1.rest).1, (loadFileWith lim o q.1.rest).2)) ∧
  (∀ x, q.2 = .raised x → loadFileWith lim o w.rest = ([], some x)) ∧
  (q.2 = .stop → q.1.rest = w.rest ∨ loadFileWith lim o w.rest = ([], none) ∧ q.1.rest = []) ∧
  q.2 ≠ .nothing ∧ (∀ l, q.2 ≠ .line l)

theorem askShared_all (lim : Nat) (w : RowWorld) (i : Nat) (d : CsvDialect) (o : CsvOptions) (hd : o.dialect = .ok d) : StreamAsk lim w i o (w.askShared lim i d) := by
  obtain ⟨h1, h2, h3⟩ := askShared_seen lim w i d o hd
  obtain ⟨rest, g', h4⟩ := askShared_ofStream lim w i d o hd
  have h5 : (w.askShared lim i d).2 ≠ .nothing ∧ (∀ l, (w.askShared lim i d).2 ≠ .line l) := by
    unfold RowWorld.askShared
    generalize csvNext d lim .init w.rest = q
    obtain ⟨_ | e | row, rest⟩ := q <;> exact ⟨by simp, by simp⟩
  exact ⟨⟨rest, g', .inl h4⟩, h1, h2, fun h => .inr (h3 h), h5⟩

theorem ask_ofStream (lim : Nat) (w : RowWorld) (i : Nat) (o : CsvOptions) (g : RowGen) (hg : w.gens[i]? = some g) (hs : g.OfStream o) :
    StreamAsk lim w i o (w.step lim (.next i)) := by
  have sh : ∀ d, o.dialect = .ok d → w.step lim (.next i) = w.askShared lim i d → StreamAsk lim w i o (w.step lim (.next i)) := fun d hd he => by
    rw [he]; exact askShared_all lim w i d o hd
  rcases hs with rfl | ⟨d, hd, rfl⟩ | rfl
  · cases hd : o.dialect with
    | ok d => exact sh d hd (by simp only [RowWorld.step, hg, RowWorld.askFresh, hd])
    | error e =>
      have he : w.step lim (.next i) = (w.put i .finished false, .raised e) := by simp only [RowWorld.step, hg, RowWorld.askFresh, hd]
      rw [he]
      refine ⟨⟨w.rest, .finished, .inl ⟨rfl, .inr (.inr rfl)⟩⟩, (fun r h => by cases h), ?_, (fun h => by cases h), (fun h => by cases h), (fun l h => by cases h)⟩
      intro x h
      cases h
      simp only [loadFileWith, hd]
  · exact sh d hd (by simp only [RowWorld.step, hg])
  · have he : w.step lim (.next i) = (w, .stop) := by simp only [RowWorld.step, hg]
    rw [he]
    exact ⟨⟨w.rest, .finished, .inr rfl⟩, (fun r h => by cases h), (fun r h => by cases h), fun _ => .inl rfl, (fun h => by cases h), (fun l h => by cases h)⟩

theorem others_ofStream (lim : Nat) (w : RowWorld) (i : Nat) (o : CsvOptions) (g : RowGen) (hg : w.gens[i]? = some g) (hs : g.OfStream o) (op : RowOp) :
    ∃ g', (w.step lim op).1.gens[i]? = some g' ∧ g'.OfStream o ∧ (i ∉ w.opened → i ∉ (w.step lim op).1.opened) := by
  have hlt : i < w.gens.length := (List.getElem?_eq_some_iff.1 hg).1
  by_cases h1 : op = .next i
  · subst h1
    obtain ⟨⟨rest, g', h | h⟩, -⟩ := ask_ofStream lim w i o g hg hs
    · rw [h.1]
      exact ⟨g', put_get _ i _ _ hlt, h.2, fun _ hm => by cases (put_opened _ i _ _).1 hm⟩
    · rw [h]; exact ⟨g, hg, hs, id⟩
  · by_cases h2 : op = .close i
    · subst h2
      exact ⟨.finished, put_get _ i _ _ hlt, .inr (.inr rfl), fun _ hm => by cases (put_opened _ i _ _).1 hm⟩
    · obtain ⟨h3, h4⟩ := others_keep lim w i g op hg h1 h2
      exact ⟨g, h3, hs, fun h hm => h (h4.1 hm)⟩

/-- C150: a generator over the stream takes the lines of one row at a time and no more: in every call, what `load_file` would have made of the lines that were left
is the row that was shown and what it makes of the lines that are left now; or it is the exception that was raised; or nothing is left.  It has no file of its own
open. -/
theorem C150_row_by_row (lim : Nat) (w : RowWorld) (hw : w.gens.length ∉ w.opened) (o : CsvOptions) (ops : List RowOp) :
    (∀ e ∈ rowAsks w.gens.length (w.run lim (.loadFile none o :: ops)),
      (∃ r, e.seen = .row r ∧ loadFileWith lim o e.before = (r :: (loadFileWith lim o e.after).1, (loadFileWith lim o e.after).2)) ∨
      (∃ x, e.seen = .raised x ∧ loadFileWith lim o e.before = ([], some x)) ∨
      (e.seen = .stop ∧ (e.after = e.before ∨ loadFileWith lim o e.before = ([], none) ∧ e.after = []))) ∧
    w.gens.length ∉ (w.final lim (.loadFile none o :: ops)).opened := by
  have main : ∀ (i : Nat) (ops : List RowOp) (w : RowWorld) (g : RowGen), w.gens[i]? = some g → g.OfStream o → i ∉ w.opened →
      (∀ e ∈ rowAsks i (w.run lim ops),
        (∃ r, e.seen = .row r ∧ loadFileWith lim o e.before = (r :: (loadFileWith lim o e.after).1, (loadFileWith lim o e.after).2)) ∨
        (∃ x, e.seen = .raised x ∧ loadFileWith lim o e.before = ([], some x)) ∨
        (e.seen = .stop ∧ (e.after = e.before ∨ loadFileWith lim o e.before = ([], none) ∧ e.after = []))) ∧
      i ∉ (w.final lim ops).opened := by
    intro i ops
    induction ops with
    | nil => intro w g _ _ h; exact ⟨(fun e he => by cases he), h⟩
    | cons op ops ih =>
      intro w g hg hs ho
      obtain ⟨g', h1, h2, h3⟩ := others_ofStream lim w i o g hg hs op
      obtain ⟨h4, h5⟩ := ih _ g' h1 h2 (h3 ho)
      rw [RowWorld.final]
      refine ⟨?_, h5⟩
      by_cases hop : op = .next i
      · subst hop
        rw [rowAsks_cons_self]
        intro e he
        rcases List.mem_cons.1 he with rfl | he
        · obtain ⟨-, a1, a2, a3, a4, a5⟩ := ask_ofStream lim w i o g hg hs
          simp only
          generalize hq : (w.step lim (.next i)).2 = q at a1 a2 a3 a4 a5
          cases q with
          | nothing => exact absurd rfl a4
          | row r => exact .inl ⟨r, rfl, a1 r rfl⟩
          | raised x => exact .inr (.inl ⟨x, rfl, a2 x rfl⟩)
          | stop => exact .inr (.inr ⟨rfl, a3 rfl⟩)
          | line l => exact absurd rfl (a5 l)
        · exact h4 e he
      · rw [rowAsks_cons_other lim w i op ops hop]
        exact h4
  rw [rowAsks_cons_other lim w _ _ ops (by simp), RowWorld.final]
  exact main _ ops _ _ (loadFile_get w none o lim) (.inl rfl) hw

/-- C150: several generators over one stream with the same options share its rows: the rows that a program gets from any of them, in the order in which it gets
them, followed by those of the lines that are left, are the rows of the stream. -/
theorem C150_shared (lim : Nat) (w : RowWorld) (hw : w.gens = []) (o : CsvOptions) (ops : List RowOp) (ho : OnlyStream o ops)
    (hr : ∀ e ∈ w.run lim ops, ∀ x, e.seen ≠ .raised x) :
    loadFileWith lim o w.rest =
      (rowsSeen (w.run lim ops) ++ (loadFileWith lim o (w.final lim ops).rest).1, (loadFileWith lim o (w.final lim ops).rest).2) := by
  have main : ∀ (ops : List RowOp) (w : RowWorld), (∀ g ∈ w.gens, g.OfStream o) → OnlyStream o ops → (∀ e ∈ w.run lim ops, ∀ x, e.seen ≠ .raised x) →
      loadFileWith lim o w.rest =
        (rowsSeen (w.run lim ops) ++ (loadFileWith lim o (w.final lim ops).rest).1, (loadFileWith lim o (w.final lim ops).rest).2) := by
    intro ops
    induction ops with
    | nil => intros; rfl
    | cons op ops ih =>
      intro w hw ho hr
      have ho' : OnlyStream o ops := fun op h => ho op (List.mem_cons_of_mem _ h)
      have hr' : ∀ e ∈ (w.step lim op).1.run lim ops, ∀ x, e.seen ≠ .raised x := fun e he => hr e (by rw [RowWorld.run]; exact List.mem_cons_of_mem _ he)
      have hx : ∀ x, (w.step lim op).2 ≠ .raised x := hr _ (by rw [RowWorld.run]; exact List.mem_cons_self)
      have putOk : ∀ (rest : List Str) (i : Nat) (g : RowGen), g.OfStream o → ∀ g' ∈ (RowWorld.put { w with rest := rest } i g false).gens, g'.OfStream o := by
        intro rest i g hg g' hg'
        rcases List.mem_or_eq_of_mem_set hg' with h | h
        · exact hw g' h
        · rw [h]; exact hg
      rw [RowWorld.run, RowWorld.final, rowsSeen, List.filterMap_cons]
      rcases ho op List.mem_cons_self with rfl | ⟨i, rfl⟩ | ⟨i, rfl⟩
      · refine ih (w.step lim (.loadFile none o)).1 ?_ ho' hr'
        intro g hg
        rcases List.mem_append.1 hg with h | h
        · exact hw g h
        · exact .inl (List.mem_singleton.1 h)
      · cases hg : w.gens[i]? with
        | none =>
          have hs : w.step lim (.next i) = (w, .nothing) := by simp only [RowWorld.step, hg]
          rw [hs] at hr' ⊢
          exact ih w hw ho' hr'
        | some g =>
          obtain ⟨a0, a1, a2, a3, a4, a5⟩ := ask_ofStream lim w i o g hg (hw g (List.mem_of_getElem? hg))
          have hw' : ∀ g ∈ (w.step lim (.next i)).1.gens, g.OfStream o := by
            obtain ⟨rest, g', h | h⟩ := a0
            · rw [h.1]; exact putOk rest i g' h.2
            · rw [h]; exact hw
          have h6 := ih _ hw' ho' hr'
          simp only
          generalize hq : (w.step lim (.next i)).2 = q at a1 a2 a3 a4 a5 hx
          cases q with
          | nothing => exact absurd rfl a4
          | row r => rw [a1 r rfl, h6]; rfl
          | raised x => exact absurd rfl (hx x)
          | stop =>
            rcases a3 rfl with h | ⟨h7, h8⟩
            · rw [← h]; exact h6
            · rw [h7]
              refine Eq.trans ?_ h6
              rw [h8]
              simp only [loadFileWith] at h7 ⊢
              cases hd : o.dialect with
              | error e => simp [hd] at h7
              | ok d => simp [csvRowsD, CsvR.init]
          | line l => exact absurd rfl (a5 l)
      · exact ih (w.step lim (.close i)).1 (putOk w.rest i .finished (.inr (.inr rfl))) ho' hr'
  exact main ops w (by rw [hw]; exact fun g hg => by cases hg) ho hr

/-- Whether a generator over a file has it open. -/
def RowGen.HasFile (g : RowGen) (b : Bool) : Prop := (∃ f o, g = .fresh (some f) o ∧ b = false) ∨ (∃ d l, g = .own d l ∧ b = true) ∨ (g = .finished ∧ b = false)

theorem askOwn_file (lim : Nat) (w : RowWorld) (i : Nat) (d : CsvDialect) (l : List Str) :
    ∃ g b, (w.askOwn lim i d l).1 = w.put i g b ∧ g.HasFile b ∧ b = gaveRow (w.askOwn lim i d l).2 := by
  unfold RowWorld.askOwn
  generalize csvNext d lim .init l = q
  obtain ⟨_ | e | row, rest⟩ := q
  · exact ⟨_, _, rfl, .inr (.inr ⟨rfl, rfl⟩), rfl⟩
  · exact ⟨_, _, rfl, .inr (.inr ⟨rfl, rfl⟩), rfl⟩
  · exact ⟨_, _, rfl, .inr (.inl ⟨d, rest, rfl, rfl⟩), rfl⟩

theorem ask_file (lim : Nat) (w : RowWorld) (i : Nat) (g : RowGen) (b : Bool) (hg : w.gens[i]? = some g) (hb : g.HasFile b) (ho : i ∈ w.opened ↔ b = true) :
    ∃ g' b', (w.step lim (.next i)).1.gens[i]? = some g' ∧ g'.HasFile b' ∧ (i ∈ (w.step lim (.next i)).1.opened ↔ b' = true) ∧
      b' = gaveRow (w.step lim (.next i)).2 := by
  have hlt : i < w.gens.length := (List.getElem?_eq_some_iff.1 hg).1
  have fin : ∀ e, w.step lim (.next i) = (w.put i .finished false, .raised e) → ∃ g' b', (w.step lim (.next i)).1.gens[i]? = some g' ∧ g'.HasFile b' ∧
      (i ∈ (w.step lim (.next i)).1.opened ↔ b' = true) ∧ b' = gaveRow (w.step lim (.next i)).2 := by
    intro e hs
    rw [hs]
    exact ⟨.finished, false, put_get _ i _ _ hlt, .inr (.inr ⟨rfl, rfl⟩), put_opened _ i _ _, rfl⟩
  have own : ∀ d l, w.step lim (.next i) = w.askOwn lim i d l → ∃ g' b', (w.step lim (.next i)).1.gens[i]? = some g' ∧ g'.HasFile b' ∧
      (i ∈ (w.step lim (.next i)).1.opened ↔ b' = true) ∧ b' = gaveRow (w.step lim (.next i)).2 := by
    intro d l hs
    obtain ⟨g', b', h1, h2, h3⟩ := askOwn_file lim w i d l
    rw [hs, h1]
    exact ⟨g', b', put_get _ i _ _ hlt, h2, put_opened _ i _ _, h3⟩
  rcases hb with ⟨f, o, rfl, rfl⟩ | ⟨d, l, rfl, rfl⟩ | ⟨rfl, rfl⟩
  · cases hf : w.disk f with
    | none => exact fin .osError (by simp only [RowWorld.step, hg, RowWorld.askFresh, hf])
    | some lines =>
      cases hd : o.dialect with
      | error e => exact fin e (by simp only [RowWorld.step, hg, RowWorld.askFresh, hf, hd])
      | ok d => exact own d lines (by simp only [RowWorld.step, hg, RowWorld.askFresh, hf, hd])
  · exact own d l (by simp only [RowWorld.step, hg])
  · have hs : w.step lim (.next i) = (w, .stop) := by simp only [RowWorld.step, hg]
    rw [hs]
    exact ⟨.finished, false, hg, .inr (.inr ⟨rfl, rfl⟩), ho, rfl⟩

/-- C150: a generator over a file has it open from its first row until it shows its end or an exception or is closed. -/
theorem C150_open (lim : Nat) (w : RowWorld) (hw : w.gens.length ∉ w.opened) (f : Path) (o : CsvOptions) (ops : List RowOp) :
    w.gens.length ∈ (w.final lim (.loadFile (some f) o :: ops)).opened ↔ holdsFile w.gens.length (w.run lim (.loadFile (some f) o :: ops)) false = true := by
  have main : ∀ (i : Nat) (ops : List RowOp) (w : RowWorld) (g : RowGen) (b : Bool), w.gens[i]? = some g → g.HasFile b → (i ∈ w.opened ↔ b = true) →
      (i ∈ (w.final lim ops).opened ↔ holdsFile i (w.run lim ops) b = true) := by
    intro i ops
    induction ops with
    | nil => intro w g b _ _ h; exact h
    | cons op ops ih =>
      intro w g b hg hb ho
      have hlt : i < w.gens.length := (List.getElem?_eq_some_iff.1 hg).1
      rw [RowWorld.final, RowWorld.run, holdsFile]
      by_cases h1 : op = .next i
      · subst h1
        obtain ⟨g', b', a1, a2, a3, a4⟩ := ask_file lim w i g b hg hb ho
        simp only [if_pos]
        rw [← a4]
        exact ih _ g' b' a1 a2 a3
      · by_cases h2 : op = .close i
        · subst h2
          simp only [if_pos]
          exact ih _ .finished false (put_get _ i _ _ hlt) (.inr (.inr ⟨rfl, rfl⟩)) (put_opened _ i _ _)
        · obtain ⟨h3, h4⟩ := others_keep lim w i g op hg h1 h2
          have h5 := ih _ g b h3 hb (h4.trans ho)
          cases op with
          | next j => simp only; rw [if_neg (fun h : j = i => h1 (by rw [h]))]; exact h5
          | close j => simp only; rw [if_neg (fun h : j = i => h2 (by rw [h]))]; exact h5
          | loadFile => exact h5
          | readLine => exact h5
          | change => exact h5
  rw [RowWorld.final, RowWorld.run, holdsFile]
  exact main _ ops _ _ false (loadFile_get w (some f) o lim) (.inl ⟨f, o, rfl, rfl⟩) ⟨fun h => absurd h hw, fun h => by cases h⟩

/-- C150: `load_file` itself shows nothing, takes nothing and opens nothing, whatever it is called with. -/
theorem C150_lazy (lim : Nat) (w : RowWorld) (src : Option Path) (o : CsvOptions) :
    (w.step lim (.loadFile src o)).2 = .nothing ∧ (w.step lim (.loadFile src o)).1.rest = w.rest ∧ (w.step lim (.loadFile src o)).1.opened = w.opened :=
  ⟨rfl, rfl, rfl⟩

/-- What a file contains after some steps of a program: what was written last. -/
def Spec.fileAfter (f : Path) (c : Option (List Str)) : List RowOp → Option (List Str)
  | [] => c
  | .change g lines :: ops => Spec.fileAfter f (if g = f then lines else c) ops
  | _ :: ops => Spec.fileAfter f c ops

theorem step_disk (lim : Nat) (w : RowWorld) (op : RowOp) (f : Path) : (w.step lim op).1.disk f = Spec.fileAfter f (w.disk f) [op] := by
  have put : ∀ (w : RowWorld) i g b, (w.put i g b).disk = w.disk := fun _ _ _ _ => rfl
  have own : ∀ i d l, (w.askOwn lim i d l).1.disk = w.disk := by
    intro i d l; unfold RowWorld.askOwn; split <;> rfl
  have sh : ∀ i d, (w.askShared lim i d).1.disk = w.disk := by
    intro i d; unfold RowWorld.askShared; split <;> rfl
  cases op with
  | loadFile src o => rfl
  | close i => rfl
  | readLine => simp only [RowWorld.step]; split <;> rfl
  | change g lines =>
    simp only [RowWorld.step, Spec.fileAfter]
    by_cases h : f = g
    · rw [if_pos h, if_pos h.symm]
    · rw [if_neg h, if_neg (fun e => h e.symm)]
  | next i =>
    simp only [RowWorld.step, Spec.fileAfter]
    split
    · rfl
    · unfold RowWorld.askFresh
      split
      · split
        · rfl
        · rw [sh]
      · split
        · rfl
        · split
          · rfl
          · rw [own]
    · rw [own]
    · rw [sh]
    · rfl

/-- C150: the files of a step are those that were there at the start, with what the program wrote into them since: each file as it was written last, and no other one changed. -/
theorem C150_files (lim : Nat) (w : RowWorld) (ops : List RowOp) (i : Nat) (e : RowEvent) (he : (w.run lim ops)[i]? = some e) (f : Path) :
    e.disk f = Spec.fileAfter f (w.disk f) (ops.take i) := by
  induction ops generalizing w i with
  | nil => simp [RowWorld.run] at he
  | cons op ops ih =>
    cases i with
    | zero => simp only [RowWorld.run, List.getElem?_cons_zero, Option.some.injEq] at he; rw [← he]; rfl
    | succ i =>
      simp only [RowWorld.run, List.getElem?_cons_succ] at he
      rw [ih _ i he, step_disk, List.take_succ_cons]
      cases op <;> rfl

/-- Two generators over a stream whose second record has a line break in it, asked in turns, and the program reading a line itself; then a third over a file that
is written only after `load_file` was called. -/
def rowsProgram : List RowOp :=
  [.loadFile none {}, .loadFile none {}, .loadFile (some u!"f") {}, .next 0, .next 1, .readLine, .change u!"f" (some [u!"1\tx\n"]), .next 2, .next 0, .next 1, .next 0, .next 2,
    .close 2, .next 2]

def rowsStart : RowWorld := ⟨fun _ => none, [u!"1\ta\n", u!"2\t\"b\n", u!"c\"\n", u!"3\td\n", u!"4\te\n"], [], []⟩

example : (rowsStart.run 100 rowsProgram).map RowEvent.seen =
    [.nothing, .nothing, .nothing, .row [u!"1", u!"a"], .row [u!"2", u!"b\nc"], .line u!"3\td\n", .nothing, .row [u!"1", u!"x"], .row [u!"4", u!"e"], .stop, .stop, .stop,
      .nothing, .stop] ∧
    (rowsStart.final 100 (rowsProgram.take 8)).opened = [2] ∧ (rowsStart.final 100 rowsProgram).opened = [] := by decide

example : ((⟨fun _ => none, [u!"1\n"], [], []⟩ : RowWorld).run 100 [.loadFile (some u!"f") {}, .loadFile none { quotechar := some none, quoting := some .all }, .next 0, .next 0,
    .next 1, .next 1]).map RowEvent.seen = [.nothing, .nothing, .raised .osError, .stop, .raised .typeError, .stop] := by decide

example : OnlyStream {} [.loadFile none {}, .loadFile none {}, .next 0, .next 1, .close 0, .next 1] := by
  intro op h
  simp only [List.mem_cons, List.not_mem_nil, or_false] at h
  rcases h with rfl | rfl | rfl | rfl | rfl | rfl <;> simp

end Cjk
