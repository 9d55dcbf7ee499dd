import Verif.Props.IndexSaved
/-!
# C185: sentences that were read can be written out and read again
-/

namespace Cjk
open Py

/-! ### Specification -/

/-- A date as it is written; no date is `\N`. -/
def Spec.savedDate {D : Type} (format : D → Str) : Option D → Str
  | none => u!"\\N"
  | some x => format x

/-- The details as they are written; no user name is `\N`. -/
def Spec.savedDetails {D : Type} (format : D → Str) (x : Details D) : List Str :=
  [x.1.getD u!"\\N", Spec.savedDate format x.2.1, Spec.savedDate format x.2.2]

/-- The records of saved sentences, from what the methods of the reader answer: id, language, sentence and the details if there are any. -/
def Spec.savedSentences {D : Type} (format : D → Str) (a : SentData D) : List (List Str) :=
  a.ids.map fun i =>
    [showInt i, (match a.language i with | .ok l => l | .error _ => []), (match a.sentence i with | .ok t => t | .error _ => [])] ++
      (match a.details i with | .ok x => Spec.savedDetails format x | .error _ => [])

/-- Two readers give the same answers. -/
def Spec.SameAnswers {D : Type} (a b : SentData D) : Prop :=
  a.ids = b.ids ∧ ∀ i, a.sentence i = b.sentence i ∧ a.language i = b.language i ∧ a.details i = b.details i

/-! ### What is true while a file is read -/

/-- No carriage return and no NUL. -/
def FieldClean (s : Str) : Prop := ∀ c ∈ s, c ≠ c!"\r" ∧ c ≠ 0

theorem mem_dictSet {K V : Type} [DecidableEq K] {d : Dict K V} {k : K} {v : V} {kv : K × V} :
    kv ∈ Dict.set d k v → kv = (k, v) ∨ kv ∈ d := by
  induction d with
  | nil => intro h; exact .inl (List.mem_singleton.1 h)
  | cons x d ih =>
    obtain ⟨k', v'⟩ := x
    intro h
    unfold Dict.set at h
    split at h
    · rename_i e
      rcases List.mem_cons.1 h with h | h
      · exact .inl (by rw [h, e])
      · exact .inr (by simp [h])
    · rcases List.mem_cons.1 h with h | h
      · exact .inr (by simp [h])
      · rcases ih h with h | h
        · exact .inl h
        · exact .inr (by simp [h])

theorem dictSet_mem {K V : Type} [DecidableEq K] (d : Dict K V) (k : K) (v : V) : (k, v) ∈ Dict.set d k v :=
  Dict.mem_of_get?_eq_some (by simp)

theorem dictSet_keeps {K V : Type} [DecidableEq K] {d : Dict K V} {k : K} {v : V} {kv : K × V} (h : kv ∈ d) (hk : kv.1 ≠ k) :
    kv ∈ Dict.set d k v := by
  induction d with
  | nil => cases h
  | cons x d ih =>
    obtain ⟨k', v'⟩ := x
    unfold Dict.set
    split
    · rename_i e
      rcases List.mem_cons.1 h with h | h
      · rw [h] at hk; exact absurd e hk
      · simp [h]
    · rcases List.mem_cons.1 h with h | h
      · simp [h]
      · simp [ih h]

/-- Who is in the sets after an id has been added to a language. -/
theorem addLang_in {d : Dict Str (List Int)} {l : Str} {i : Int} {kv : Str × List Int} (h : kv ∈ addLang d l i) {j : Int} (hj : j ∈ kv.2) :
    (kv.1 = l ∧ j = i) ∨ ∃ kv' ∈ d, kv'.1 = kv.1 ∧ j ∈ kv'.2 := by
  have key : j ∈ (Dict.get? d l).getD [] → ∃ kv' ∈ d, kv'.1 = l ∧ j ∈ kv'.2 := by
    intro hm
    cases hg : Dict.get? d l with
    | none => rw [hg] at hm; cases hm
    | some s => rw [hg] at hm; exact ⟨(l, s), Dict.mem_of_get?_eq_some hg, rfl, hm⟩
  rcases mem_dictSet h with rfl | h
  · simp only at hj ⊢
    split at hj
    · exact .inr (key hj)
    · rcases List.mem_append.1 hj with h | h
      · exact .inr (key h)
      · exact .inl ⟨trivial, List.mem_singleton.1 h⟩
  · exact .inr ⟨kv, h, rfl, hj⟩

theorem addLang_self (d : Dict Str (List Int)) (l : Str) (i : Int) : ∃ kv ∈ addLang d l i, i ∈ kv.2 := by
  refine ⟨_, dictSet_mem _ _ _, ?_⟩
  simp only
  split
  · assumption
  · simp

theorem addLang_keeps {d : Dict Str (List Int)} (hd : Dict.WF d) (l : Str) (i : Int) {j : Int} (h : ∃ kv ∈ d, j ∈ kv.2) : ∃ kv ∈ addLang d l i, j ∈ kv.2 := by
  obtain ⟨kv, hkv, hj⟩ := h
  by_cases hk : kv.1 = l
  · refine ⟨_, dictSet_mem _ _ _, ?_⟩
    have hg : Dict.get? d l = some kv.2 := (Dict.get?_eq_some_iff hd l kv.2).2 (by rw [← hk]; exact hkv)
    simp only [hg, Option.getD_some]
    split
    · exact hj
    · simp [hj]
  · exact ⟨kv, dictSet_keeps hkv hk, hj⟩

/-- What is true of the dictionaries while sentences are read. -/
structure SentInv {D : Type} (a : SentData D) : Prop where
  wf : Dict.WF a.sent
  texts : ∀ e ∈ a.sent, FieldClean e.2
  lwf : Dict.WF a.lang
  langs : ∀ kv ∈ a.lang, FieldClean kv.1 ∧ ∀ i ∈ kv.2, i ∈ Dict.keys a.sent
  has : ∀ i ∈ Dict.keys a.sent, ∃ kv ∈ a.lang, i ∈ kv.2
  info : ∀ info, a.info = some info → Dict.keys info = Dict.keys a.sent ∧ ∀ e ∈ info, ∀ u, e.2.1 = some u → FieldClean u ∧ u ≠ u!"\\N"

theorem parseDetails_user {D : Type} {strptime : Str → Except PyErr D} {row : List Str} {x : Details D} (h : parseDetails strptime row = .ok x)
    (hr : ∀ f ∈ row, FieldClean f) : ∀ u, x.1 = some u → FieldClean u ∧ u ≠ u!"\\N" := by
  intro u hu
  unfold parseDetails at h
  split at h
  · rename_i uname added modified he
    have hm : uname ∈ row := by
      have : uname ∈ (row.drop 3).take 3 := by rw [he]; simp
      exact List.mem_of_mem_drop (List.mem_of_mem_take this)
    cases h1 : parseDate strptime added with
    | error e => rw [h1] at h; cases h
    | ok d1 =>
      rw [h1] at h
      cases h2 : parseDate strptime modified with
      | error e => rw [h2] at h; cases h
      | ok d2 =>
        rw [h2] at h
        have hx := Except.ok.inj h
        rw [← hx] at hu
        simp only at hu
        split at hu
        · cases hu
        · rename_i hne
          cases hu
          exact ⟨hr _ hm, hne⟩
  · cases h

theorem sentRow_inv {D : Type} {strptime : Str → Except PyErr D} {languages : Option (List Str)} {a a' : SentData D} {row : List Str}
    (hr : ∀ f ∈ row, FieldClean f) (ha : SentInv a) (h : sentRow strptime languages a row = .ok a') : SentInv a' := by
  unfold sentRow at h
  split at h
  · rename_i idText lang text he
    have hm : ∀ f ∈ [idText, lang, text], FieldClean f := by
      intro f hf
      rw [← he] at hf
      exact hr f (List.mem_of_mem_take hf)
    split at h
    · cases h; exact ha
    · split at h
      · cases h
      · rename_i i hi
        have base : ∀ info', (∀ info, info' = some info → Dict.keys info = Dict.keys (Dict.set a.sent i text) ∧
            ∀ e ∈ info, ∀ u, e.2.1 = some u → FieldClean u ∧ u ≠ u!"\\N") →
            SentInv (⟨addLang a.lang lang i, Dict.set a.sent i text, info'⟩ : SentData D) := by
          intro info' hinfo
          refine ⟨Dict.WF_set ha.wf _ _, ?_, Dict.WF_set ha.lwf _ _, ?_, ?_, hinfo⟩
          · intro e hm'
            rcases mem_dictSet hm' with rfl | h
            · exact hm text (by simp)
            · exact ha.texts e h
          · intro kv hkv
            refine ⟨?_, ?_⟩
            · rcases mem_dictSet hkv with rfl | h
              · exact hm lang (by simp)
              · exact (ha.langs kv h).1
            · intro j hj
              show j ∈ Dict.keys (Dict.set a.sent i text)
              rw [Dict.mem_keys_set]
              rcases addLang_in hkv hj with ⟨_, h⟩ | ⟨kv', hkv', _, hj'⟩
              · exact .inl h
              · exact .inr ((ha.langs kv' hkv').2 j hj')
          · intro j hj
            rcases (Dict.mem_keys_set _ _ _ _).1 hj with rfl | h
            · exact addLang_self _ _ _
            · exact addLang_keeps ha.lwf _ _ (ha.has j h)
        unfold sentDetails at h
        simp only at h
        cases hi : a.info with
        | none =>
          rw [hi] at h
          cases h
          exact base none (by intro _ h; cases h)
        | some info =>
          rw [hi] at h
          simp only at h
          cases hp : parseDetails strptime row with
          | error e => rw [hp] at h; cases h
          | ok x =>
            rw [hp] at h
            cases h
            refine base (some (Dict.set info i x)) ?_
            intro info1 h1
            cases h1
            obtain ⟨k1, k2⟩ := ha.info info hi
            refine ⟨by rw [Dict.keys_set, Dict.keys_set, k1], ?_⟩
            intro e hme
            rcases mem_dictSet hme with rfl | hme
            · exact parseDetails_user hp hr
            · exact k2 e hme
  · cases h

theorem sentRows_inv {D : Type} {strptime : Str → Except PyErr D} {languages : Option (List Str)} (rows : List (List Str)) :
    ∀ a a' : SentData D, (∀ r ∈ rows, ∀ f ∈ r, FieldClean f) → SentInv a → sentRows strptime languages a rows = .ok a' → SentInv a' := by
  induction rows with
  | nil => rintro a a' _ ha ⟨⟩; exact ha
  | cons row rows ih =>
    intro a a' hr ha h
    rw [sentRows] at h
    cases h1 : sentRow strptime languages a row with
    | error e => rw [h1] at h; cases h
    | ok a1 =>
      rw [h1] at h
      exact ih a1 a' (fun r hr' => hr r (by simp [hr'])) (sentRow_inv (hr row (by simp)) ha h1) h

theorem sentLoad_inv {D : Type} {strptime : Str → Except PyErr D} {languages : Option (List Str)} {lim : Nat} {text : Str} {a : SentData D}
    (h : sentLoad strptime languages (loadFile lim (fileLines text)) = .ok a) : SentInv a := by
  have hf := field_chars lim text
  unfold sentLoad at h
  revert h hf
  generalize loadFile lim (fileLines text) = rows
  intro h hf
  split at h
  · cases h
  · split at h
    · split at h
      · cases h
      · rename_i a1 h1
        have : a1 = a := by
          split at h
          · cases h
          · cases h; rfl
        subst this
        refine sentRows_inv _ _ _ hf ⟨Dict.WF_nil, fun e he => (by cases he), Dict.WF_nil, fun e he => (by cases he), fun i hi => (by cases hi), ?_⟩ h1
        intro info hinfo
        simp only at hinfo
        split at hinfo
        · cases hinfo
          exact ⟨rfl, fun e he => (by cases he)⟩
        · cases hinfo
    · cases h

/-! ### Languages -/

theorem language_known {D : Type} {a : SentData D} (ha : SentInv a) {i : Int} (hi : i ∈ Dict.keys a.sent) :
    ∃ kv ∈ a.lang, i ∈ kv.2 ∧ a.language i = .ok kv.1 := by
  obtain ⟨kv, hkv, hj⟩ := ha.has i hi
  unfold SentData.language
  cases hf : a.lang.find? (fun kv => decide (i ∈ kv.2)) with
  | none =>
    have := List.find?_eq_none.1 hf kv hkv
    simp [hj] at this
  | some kv' =>
    exact ⟨kv', List.mem_of_find?_eq_some hf, by simpa using List.find?_some hf, rfl⟩

theorem language_unknown {D : Type} {a : SentData D} (ha : ∀ kv ∈ a.lang, ∀ i ∈ kv.2, i ∈ Dict.keys a.sent) {i : Int} (hi : i ∉ Dict.keys a.sent) :
    a.language i = .error .invalidIDError := by
  unfold SentData.language
  have : a.lang.find? (fun kv => decide (i ∈ kv.2)) = none := by
    rw [List.find?_eq_none]
    intro kv hkv
    simp only [decide_eq_true_eq]
    exact fun h => hi (ha kv hkv i h)
  rw [this]

theorem language_one {D : Type} {b : SentData D} {l : Str} {i : Int} (h1 : ∃ kv ∈ b.lang, i ∈ kv.2) (h2 : ∀ kv ∈ b.lang, i ∈ kv.2 → kv.1 = l) :
    b.language i = .ok l := by
  unfold SentData.language
  cases hf : b.lang.find? (fun kv => decide (i ∈ kv.2)) with
  | none =>
    obtain ⟨kv, hkv, hj⟩ := h1
    have := List.find?_eq_none.1 hf kv hkv
    simp [hj] at this
  | some kv' =>
    simp only
    rw [h2 kv' (List.mem_of_find?_eq_some hf) (by simpa using List.find?_some hf)]

/-! ### Reading the records again -/

theorem date_again {D : Type} {strptime : Str → Except PyErr D} {format : D → Str} {o : Option D}
    (h : ∀ x, o = some x → strptime (format x) = .ok x ∧ format x ≠ u!"\\N" ∧ format x ≠ u!"0000-00-00 00:00:00") :
    parseDate strptime (Spec.savedDate format o) = .ok o := by
  cases o with
  | none => rfl
  | some x =>
    obtain ⟨h1, h2, h3⟩ := h x rfl
    unfold parseDate Spec.savedDate
    simp only
    rw [if_neg (by simp [h2, h3]), h1]

theorem details_again {D : Type} {strptime : Str → Except PyErr D} {format : D → Str} {x : Details D} (hu : x.1 ≠ some u!"\\N")
    (h : ∀ d, x.2.1 = some d ∨ x.2.2 = some d → strptime (format d) = .ok d ∧ format d ≠ u!"\\N" ∧ format d ≠ u!"0000-00-00 00:00:00") (p q r : Str) :
    parseDetails strptime ([p, q, r] ++ Spec.savedDetails format x) = .ok x := by
  obtain ⟨u, d1, d2⟩ := x
  unfold parseDetails Spec.savedDetails
  simp only [List.cons_append, List.nil_append, List.drop_succ_cons, List.drop_zero, List.take_succ_cons, List.take_zero]
  rw [date_again (fun y hy => h y (.inl hy)), date_again (fun y hy => h y (.inr hy))]
  cases u with
  | none => rfl
  | some u =>
    have : u ≠ u!"\\N" := fun e => hu (by rw [e])
    show Except.ok (if u = u!"\\N" then none else some u, d1, d2) = _
    rw [if_neg this]

/-- The languages of what has been read again. -/
structure LangInv (langOf : Int → Str) (b : Dict Str (List Int)) (done : List Int) : Prop where
  wf : Dict.WF b
  right : ∀ kv ∈ b, ∀ i ∈ kv.2, i ∈ done ∧ langOf i = kv.1
  has : ∀ i ∈ done, ∃ kv ∈ b, i ∈ kv.2

theorem LangInv.add {langOf : Int → Str} {b : Dict Str (List Int)} {done : List Int} (h : LangInv langOf b done) (i : Int) :
    LangInv langOf (addLang b (langOf i) i) (done ++ [i]) := by
  refine ⟨Dict.WF_set h.wf _ _, ?_, ?_⟩
  · intro kv hkv j hj
    rcases addLang_in hkv hj with ⟨h1, rfl⟩ | ⟨kv', h1, h2, h3⟩
    · exact ⟨by simp, h1.symm⟩
    · obtain ⟨h4, h5⟩ := h.right kv' h1 j h3
      exact ⟨by simp [h4], by rw [h5, h2]⟩
  · intro j hj
    rcases List.mem_append.1 hj with hj | hj
    · exact addLang_keeps h.wf _ _ (h.has j hj)
    · rw [List.mem_singleton.1 hj]
      exact addLang_self _ _ _

section
variable {D : Type} (strptime : Str → Except PyErr D) (languages : Option (List Str)) (langOf textOf : Int → Str)

theorem plain_again (todo : List Int) : ∀ b : SentData D, b.info = none → (∀ i ∈ todo, langOk languages (langOf i) = true) → todo.Nodup →
    (∀ i ∈ todo, i ∉ Dict.keys b.sent) → LangInv langOf b.lang (Dict.keys b.sent) →
    ∃ b', sentRows strptime languages b (todo.map fun i => [showInt i, langOf i, textOf i]) = .ok b' ∧ b'.info = none ∧
      b'.sent = b.sent ++ todo.map (fun i => (i, textOf i)) ∧ LangInv langOf b'.lang (Dict.keys b'.sent) := by
  induction todo with
  | nil => intro b hb _ _ _ hl; exact ⟨b, rfl, hb, by simp, hl⟩
  | cons i todo ih =>
    intro b hb hok hnd hnew hl
    have hset : Dict.set b.sent i (textOf i) = b.sent ++ [(i, textOf i)] := Dict.set_of_not_mem _ _ _ (hnew i (by simp))
    have h1 : sentRow strptime languages b [showInt i, langOf i, textOf i] = .ok ⟨addLang b.lang (langOf i) i, b.sent ++ [(i, textOf i)], none⟩ := by
      unfold sentRow sentDetails
      simp only [List.take_succ_cons, List.take_zero, pyInt_showInt, hb, hset]
      rw [if_neg (by rw [hok i (by simp)]; decide)]
    have hk : Dict.keys (b.sent ++ [(i, textOf i)]) = Dict.keys b.sent ++ [i] := by simp [Dict.keys]
    obtain ⟨b', e1, e2, e3, e4⟩ := ih ⟨addLang b.lang (langOf i) i, b.sent ++ [(i, textOf i)], none⟩ rfl (fun j hj => hok j (by simp [hj]))
      (List.nodup_cons.1 hnd).2 (by
        intro j hj
        rw [hk]
        simp only [List.mem_append, List.mem_singleton, not_or]
        refine ⟨hnew j (by simp [hj]), ?_⟩
        rintro rfl
        exact (List.nodup_cons.1 hnd).1 hj) (by rw [hk]; exact hl.add i)
    refine ⟨b', ?_, e2, by rw [e3]; simp, e4⟩
    rw [List.map_cons, sentRows, h1]
    exact e1

variable (format : D → Str) (detOf : Int → Details D)

theorem detailed_again (todo : List Int) : ∀ (b : SentData D) (info : Dict Int (Details D)), b.info = some info →
    (∀ i ∈ todo, langOk languages (langOf i) = true) → todo.Nodup →
    (∀ i ∈ todo, i ∉ Dict.keys b.sent) → Dict.keys info = Dict.keys b.sent → LangInv langOf b.lang (Dict.keys b.sent) →
    (∀ i ∈ todo, (detOf i).1 ≠ some u!"\\N" ∧ ∀ d, (detOf i).2.1 = some d ∨ (detOf i).2.2 = some d →
      strptime (format d) = .ok d ∧ format d ≠ u!"\\N" ∧ format d ≠ u!"0000-00-00 00:00:00") →
    ∃ b', sentRows strptime languages b (todo.map fun i => [showInt i, langOf i, textOf i] ++ Spec.savedDetails format (detOf i)) = .ok b' ∧
      b'.info = some (info ++ todo.map (fun i => (i, detOf i))) ∧
      b'.sent = b.sent ++ todo.map (fun i => (i, textOf i)) ∧ LangInv langOf b'.lang (Dict.keys b'.sent) := by
  induction todo with
  | nil => intro b info hb _ _ _ _ hl _; exact ⟨b, rfl, by simp [hb], by simp, hl⟩
  | cons i todo ih =>
    intro b info hb hok hnd hnew hki hl hdet
    have hset : Dict.set b.sent i (textOf i) = b.sent ++ [(i, textOf i)] := Dict.set_of_not_mem _ _ _ (hnew i (by simp))
    have hset' : Dict.set info i (detOf i) = info ++ [(i, detOf i)] := Dict.set_of_not_mem _ _ _ (by rw [hki]; exact hnew i (by simp))
    have hp := details_again (hdet i (by simp)).1 (hdet i (by simp)).2 (showInt i) (langOf i) (textOf i)
    have h1 : sentRow strptime languages b ([showInt i, langOf i, textOf i] ++ Spec.savedDetails format (detOf i)) =
        .ok ⟨addLang b.lang (langOf i) i, b.sent ++ [(i, textOf i)], some (info ++ [(i, detOf i)])⟩ := by
      unfold sentRow sentDetails
      rw [hp]
      simp only [List.cons_append, List.take_succ_cons, List.take_zero, pyInt_showInt, hb, hset, hset']
      rw [if_neg (by rw [hok i (by simp)]; decide)]
    have hk : Dict.keys (b.sent ++ [(i, textOf i)]) = Dict.keys b.sent ++ [i] := by simp [Dict.keys]
    obtain ⟨b', e1, e2, e3, e4⟩ := ih ⟨addLang b.lang (langOf i) i, b.sent ++ [(i, textOf i)], some (info ++ [(i, detOf i)])⟩ (info ++ [(i, detOf i)]) rfl
      (fun j hj => hok j (by simp [hj]))
      (List.nodup_cons.1 hnd).2 (by
        intro j hj
        rw [hk]
        simp only [List.mem_append, List.mem_singleton, not_or]
        refine ⟨hnew j (by simp [hj]), ?_⟩
        rintro rfl
        exact (List.nodup_cons.1 hnd).1 hj) (by rw [hk, ← hki]; simp [Dict.keys]) (by rw [hk]; exact hl.add i) (fun j hj => hdet j (by simp [hj]))
    refine ⟨b', ?_, by rw [e2]; simp, by rw [e3]; simp, e4⟩
    rw [List.map_cons, sentRows, h1]
    exact e1
end

theorem dict_listed {V : Type} (d : Dict Int V) (hd : Dict.WF d) (f : Int → V) (hf : ∀ k v, Dict.get? d k = some v → f k = v) :
    (Dict.keys d).map (fun k => (k, f k)) = d := by
  unfold Dict.keys
  rw [List.map_map]
  conv => rhs; rw [← List.map_id d]
  refine List.map_congr_left fun e he => ?_
  have := hf _ _ ((Dict.get?_eq_some_iff hd e.1 e.2).2 he)
  simp [this]

/-- C185: sentences that were loaded from a text file, with or without details, and written with `csv.writer`, can be read again with any choice of
languages that includes theirs: the same ids in the same order, and the same answers of `sentence`, `language` and `details` for every id.  `format`
writes dates in a form that is read back. -/
theorem C185_read_again_partial {D : Type} (strptime : Str → Except PyErr D) (languages : Option (List Str)) (lim : Nat) (text : Str) (a : SentData D)
    (hload : sentLoad strptime languages (loadFile lim (fileLines text)) = .ok a) (hne : a.ids ≠ []) (format : D → Str)
    (hdate : ∀ i x, a.details i = .ok x → ∀ d, x.2.1 = some d ∨ x.2.2 = some d →
      strptime (format d) = .ok d ∧ format d ≠ u!"\\N" ∧ format d ≠ u!"0000-00-00 00:00:00" ∧ ∀ c ∈ format d, c ≠ c!"\r" ∧ c ≠ 0)
    (lim' : Nat) (hlim : ∀ row ∈ Spec.savedSentences format a, ∀ f ∈ row, f.length ≤ lim')
    (languages' : Option (List Str)) (hlang : ∀ ls, languages' = some ls → ∀ i l, a.language i = .ok l → l ∈ ls) :
    ∃ a', sentLoad strptime languages' (loadFile lim' (fileLines (Spec.writerText (Spec.savedSentences format a)))) = .ok a' ∧
      Spec.SameAnswers a' a := by
  have ha := sentLoad_inv hload
  let langOf : Int → Str := fun i => match a.language i with | .ok l => l | .error _ => []
  let textOf : Int → Str := fun i => match a.sentence i with | .ok t => t | .error _ => []
  let detOf : Int → Details D := fun i => match a.details i with | .ok x => x | .error _ => (none, none, none)
  have hlangOf : ∀ i ∈ a.ids, a.language i = .ok (langOf i) := by
    intro i hi
    obtain ⟨kv, _, _, h⟩ := language_known ha hi
    simp only [langOf, h]
  have htextOf : ∀ k v, Dict.get? a.sent k = some v → textOf k = v := by
    intro k v h
    simp only [textOf, SentData.sentence, h]
  have hsent : a.ids.map (fun i => (i, textOf i)) = a.sent := dict_listed a.sent ha.wf textOf htextOf
  have hok : ∀ i ∈ a.ids, langOk languages' (langOf i) = true := by
    intro i hi
    unfold langOk
    cases languages' with
    | none => rfl
    | some ls => simp only [decide_eq_true_eq]; exact hlang ls rfl i _ (hlangOf i hi)
  have hlc : ∀ i ∈ a.ids, FieldClean (langOf i) := by
    intro i hi
    obtain ⟨kv, hkv, _, h⟩ := language_known ha hi
    simp only [langOf, h]
    exact (ha.langs kv hkv).1
  have htc : ∀ i, FieldClean (textOf i) := by
    intro i
    simp only [textOf, SentData.sentence]
    cases hg : Dict.get? a.sent i with
    | none => intro c hc; cases hc
    | some t => exact ha.texts (i, t) (Dict.mem_of_get?_eq_some hg)
  have hnum : ∀ i : Int, FieldClean (showInt i) := by
    intro i c hc
    rcases showInt_plain i c hc with h | rfl
    · unfold AsciiDigit at h
      exact ⟨fun e => by rw [e] at h; revert h; decide, fun e => by rw [e] at h; revert h; decide⟩
    · decide
  -- the file
  have hfile : (∀ row ∈ Spec.savedSentences format a, ∀ f ∈ row, FieldClean f) →
      loadFile lim' (fileLines (Spec.writerText (Spec.savedSentences format a))) = (Spec.savedSentences format a, none) := by
    intro hch
    exact (C125_writer_iff lim' (Spec.savedSentences format a) fun row hrow f hf => ⟨fun h0 => (hch row hrow f hf 0 h0).2 rfl, hlim row hrow f hf⟩).2
      fun row hrow f hf h0 => (hch row hrow f hf _ h0).1 rfl
  have hsame : ∀ b : SentData D, b.sent = a.sent → b.info = a.info → LangInv langOf b.lang (Dict.keys b.sent) → Spec.SameAnswers b a := by
    intro b h1 h2 h3
    refine ⟨by unfold SentData.ids; rw [h1], fun i => ⟨by unfold SentData.sentence; rw [h1], ?_, by unfold SentData.details; rw [h2]⟩⟩
    rw [h1] at h3
    by_cases hi : i ∈ Dict.keys a.sent
    · rw [hlangOf i hi]
      exact language_one (h3.has i hi) (fun kv hkv hj => (h3.right kv hkv i hj).2.symm)
    · rw [language_unknown (fun kv hkv => (ha.langs kv hkv).2) hi, language_unknown (a := b) (fun kv hkv j hj => by rw [h1]; exact (h3.right kv hkv j hj).1) (by rw [h1]; exact hi)]
  have hempty : LangInv langOf ([] : Dict Str (List Int)) [] := ⟨Dict.WF_nil, fun kv h => (by cases h), fun i h => (by cases h)⟩
  obtain ⟨i0, ids, hids⟩ := List.exists_cons_of_ne_nil hne
  cases hinfo : a.info with
  | none =>
    have hrows : Spec.savedSentences format a = a.ids.map fun i => [showInt i, langOf i, textOf i] := by
      unfold Spec.savedSentences
      refine List.map_congr_left fun i _ => ?_
      have : a.details i = .error .missingDataError := by unfold SentData.details; rw [hinfo]
      simp only [this, List.append_nil, langOf, textOf]
    rw [hfile (by
      rw [hrows]
      intro row hrow f hf
      obtain ⟨i, hi, rfl⟩ := List.mem_map.1 hrow
      simp only [List.mem_cons, List.not_mem_nil, or_false] at hf
      rcases hf with rfl | rfl | rfl
      · exact hnum i
      · exact hlc i hi
      · exact htc i), hrows]
    obtain ⟨b, e1, e2, e3, e4⟩ := plain_again strptime languages' langOf textOf a.ids ⟨[], [], none⟩ rfl hok ha.wf (by intro i _; simp) hempty
    refine ⟨b, ?_, hsame b (by rw [e3, hsent]; rfl) (by rw [e2, hinfo]) e4⟩
    rw [hids, List.map_cons] at e1 ⊢
    unfold sentLoad
    simp only [List.length_cons, List.length_nil]
    rw [if_pos (by simp)]
    simp only [show (0 + 1 + 1 + 1 = 6) = False from by simp, if_false, e1]
  | some info =>
    obtain ⟨hki, hus⟩ := ha.info info hinfo
    have hwi : Dict.WF info := by unfold Dict.WF; rw [hki]; exact ha.wf
    have hdet : ∀ i ∈ a.ids, ∃ x, Dict.get? info i = some x ∧ a.details i = .ok x := by
      intro i hi
      have : (Dict.get? info i).isSome := by rw [Dict.get?_isSome_iff, hki]; exact hi
      obtain ⟨x, hx⟩ := Option.isSome_iff_exists.1 this
      refine ⟨x, hx, ?_⟩
      unfold SentData.details
      rw [hinfo]
      simp only [hx]
    have hdetOf : ∀ k v, Dict.get? info k = some v → detOf k = v := by
      intro k v h
      simp only [detOf, SentData.details, hinfo, h]
    have hinfos : a.ids.map (fun i => (i, detOf i)) = info := by
      have := dict_listed info hwi detOf hdetOf
      rw [hki] at this
      exact this
    have hrows : Spec.savedSentences format a = a.ids.map fun i => [showInt i, langOf i, textOf i] ++ Spec.savedDetails format (detOf i) := by
      unfold Spec.savedSentences
      refine List.map_congr_left fun i hi => ?_
      obtain ⟨x, _, hx⟩ := hdet i hi
      simp only [hx, langOf, textOf, detOf]
    have hdx : ∀ i ∈ a.ids, a.details i = .ok (detOf i) ∧ ∀ u, (detOf i).1 = some u → FieldClean u ∧ u ≠ u!"\\N" := by
      intro i hi
      obtain ⟨x, hg, hx⟩ := hdet i hi
      have e : detOf i = x := hdetOf i x hg
      rw [e]
      exact ⟨hx, hus (i, x) (Dict.mem_of_get?_eq_some hg)⟩
    have hdc : ∀ i ∈ a.ids, ∀ o, o = (detOf i).2.1 ∨ o = (detOf i).2.2 → FieldClean (Spec.savedDate format o) := by
      intro i hi o ho
      cases o with
      | none => show ∀ c ∈ u!"\\N", c ≠ c!"\r" ∧ c ≠ 0; decide
      | some d => exact (hdate i _ (hdx i hi).1 d (ho.imp Eq.symm Eq.symm)).2.2.2
    rw [hfile (by
      rw [hrows]
      intro row hrow f hf
      obtain ⟨i, hi, rfl⟩ := List.mem_map.1 hrow
      simp only [Spec.savedDetails, List.mem_append, List.mem_cons, List.not_mem_nil, or_false] at hf
      rcases hf with (rfl | rfl | rfl) | rfl | rfl | rfl
      · exact hnum i
      · exact hlc i hi
      · exact htc i
      · cases hu : (detOf i).1 with
        | none => unfold FieldClean; decide
        | some u => exact ((hdx i hi).2 u hu).1
      · exact hdc i hi _ (.inl rfl)
      · exact hdc i hi _ (.inr rfl)), hrows]
    obtain ⟨b, e1, e2, e3, e4⟩ := detailed_again strptime languages' langOf textOf format detOf a.ids ⟨[], [], some []⟩ [] rfl hok ha.wf (by intro i _; simp) rfl hempty (by
      intro i hi
      refine ⟨fun h => ((hdx i hi).2 _ h).2 rfl, fun d hd => ?_⟩
      obtain ⟨h1, h2, h3, _⟩ := hdate i _ (hdx i hi).1 d hd
      exact ⟨h1, h2, h3⟩)
    refine ⟨b, ?_, hsame b (by rw [e3, hsent]; rfl) (by rw [e2, hinfo, hinfos]; rfl) e4⟩
    rw [hids, List.map_cons] at e1 ⊢
    have hlen : ([showInt i0, langOf i0, textOf i0] ++ Spec.savedDetails format (detOf i0)).length = 6 := rfl
    unfold sentLoad
    simp only [hlen]
    rw [if_pos (by simp)]
    simp only [if_true, e1]

/-- C185: but a reader without sentences is saved as an empty file, and reading that raises StopIteration. -/
theorem C185_no_sentences {D : Type} (strptime : Str → Except PyErr D) (a : SentData D) (h : a.ids = []) (format : D → Str) (lim' : Nat) (languages' : Option (List Str)) :
    sentLoad strptime languages' (loadFile lim' (fileLines (Spec.writerText (Spec.savedSentences format a)))) = .error .stopIteration := by
  unfold Spec.savedSentences
  rw [h]
  rfl

/-- C185: such readers exist: a file none of whose sentences is in the wanted language. -/
theorem C185_refuted : ∃ a : SentData Nat, sentLoad (fun _ => .error .valueError) (some [u!"jpn"]) (loadFile 131072 (fileLines u!"1\teng\tHi\n")) = .ok a ∧
    ∀ (format : Nat → Str) (languages' : Option (List Str)), sentLoad (D := Nat) (fun _ => .error .valueError) languages' (loadFile 131072 (fileLines (Spec.writerText (Spec.savedSentences format a)))) =
      .error .stopIteration := by
  refine ⟨⟨[], [], none⟩, by rfl, ?_⟩
  intro format languages'
  exact C185_no_sentences _ _ rfl format _ _

/-- C185: exactly the readers with sentences are read back. -/
theorem C185_iff {D : Type} (strptime : Str → Except PyErr D) (languages : Option (List Str)) (lim : Nat) (text : Str) (a : SentData D)
    (hload : sentLoad strptime languages (loadFile lim (fileLines text)) = .ok a) (format : D → Str)
    (hdate : ∀ i x, a.details i = .ok x → ∀ d, x.2.1 = some d ∨ x.2.2 = some d →
      strptime (format d) = .ok d ∧ format d ≠ u!"\\N" ∧ format d ≠ u!"0000-00-00 00:00:00" ∧ ∀ c ∈ format d, c ≠ c!"\r" ∧ c ≠ 0)
    (lim' : Nat) (hlim : ∀ row ∈ Spec.savedSentences format a, ∀ f ∈ row, f.length ≤ lim')
    (languages' : Option (List Str)) (hlang : ∀ ls, languages' = some ls → ∀ i l, a.language i = .ok l → l ∈ ls) :
    (∃ a', sentLoad strptime languages' (loadFile lim' (fileLines (Spec.writerText (Spec.savedSentences format a)))) = .ok a' ∧
      Spec.SameAnswers a' a) ↔ a.ids ≠ [] := by
  constructor
  · rintro ⟨a', h, _⟩ he
    rw [C185_no_sentences strptime a he format lim' languages'] at h
    cases h
  · intro hne
    exact C185_read_again_partial strptime languages lim text a hload hne format hdate lim' hlim languages' hlang

/-! ### The hypotheses hold of a small file -/

/-- Dates that are numbers. -/
def numberDate : Str → Except PyErr Nat := fun s => if s = u!"d7" then .ok 7 else .error .valueError

def savedSample : SentData Nat :=
  ⟨[(u!"eng", [1]), (u!"jpn", [2])], [(1, u!"say \"hi\""), (2, u!"やあ")], some [(1, (some u!"bob", some 7, none)), (2, (none, none, none))]⟩

example : sentLoad numberDate none (loadFile 131072 (fileLines
    u!"1\teng\tsay \"hi\"\tbob\td7\t\\N\r\n2\tjpn\tやあ\t\\N\t\\N\t0000-00-00 00:00:00\n")) = .ok savedSample := by rfl

example : savedSample.ids ≠ [] := by decide

example : ∀ i x, savedSample.details i = .ok x → ∀ d, x.2.1 = some d ∨ x.2.2 = some d →
    numberDate ((fun _ => u!"d7") d) = .ok d ∧ u!"d7" ≠ u!"\\N" ∧ u!"d7" ≠ u!"0000-00-00 00:00:00" ∧ ∀ c ∈ u!"d7", c ≠ c!"\r" ∧ c ≠ 0 := by
  intro i x h d hd
  have : d = 7 := by
    unfold SentData.details savedSample at h
    simp only at h
    split at h
    · rename_i y hy
      have := Dict.mem_of_get?_eq_some hy
      simp only [List.mem_cons, Prod.mk.injEq, List.not_mem_nil, or_false] at this
      cases h
      rcases this with ⟨_, rfl⟩ | ⟨_, rfl⟩
      · exact (by simpa using hd : 7 = d).symm
      · simp at hd
    · cases h
  subst this
  exact ⟨rfl, by decide, by decide, by decide⟩

example : ∀ row ∈ Spec.savedSentences (fun _ : Nat => u!"d7") savedSample, ∀ f ∈ row, f.length ≤ 131072 := by decide +kernel

end Cjk
