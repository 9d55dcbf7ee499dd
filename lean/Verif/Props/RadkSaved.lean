import Verif.Props.Radkdict
import Verif.Props.PlaceInit
import Verif.Props.Export
import Verif.Props.IndexSaved
/-!
# C187: a table of radicals that was read can be written out and read again
-/

namespace Cjk
open Py

/-! ### Specification -/

/-- The header line of a radical. -/
def Spec.radkHead (r : Str) (n : Int) : Str := u!"$ " ++ r ++ u!" " ++ showInt n

/-- The lines of a saved table: first the kanji that belong to no radical; then all headers, which fixes the order of the stroke counts; then for each radical
its header and its kanji.  Kanji are indented, since one of them may be `#` or `$`. -/
def Spec.savedRadicals (d : RadkDict) : List Str :=
  (match Dict.get? d.radicalToKanji none with | some ks => [u!" " ++ ks] | none => []) ++
  d.radicalToStrokeCount.map (fun e => Spec.radkHead e.1 e.2) ++
  d.radicalToKanji.flatMap (fun e => match e.1 with
    | some r => [Spec.radkHead r ((Dict.get? d.radicalToStrokeCount r).getD 0), u!" " ++ e.2]
    | none => [])

/-! ### Lines -/

/-- Neither end is white space. -/
def Tight (s : Str) : Prop := (∀ c, s.head? = some c → isSpace c = false) ∧ ∀ c, s.getLast? = some c → isSpace c = false

theorem tight_nil : Tight [] := ⟨by simp, by simp⟩

theorem tight_append {a b : Str} (ha : Tight a) (hb : Tight b) : Tight (a ++ b) := by
  constructor
  · intro c hc
    cases a with
    | nil => exact hb.1 c hc
    | cons x a => exact ha.1 c (by simpa using hc)
  · intro c hc
    rcases List.eq_nil_or_concat b with rfl | ⟨b', x, rfl⟩
    · exact ha.2 c (by simpa using hc)
    · exact hb.2 c (by simpa [← List.append_assoc] using hc)

theorem tight_strip (l : Str) : Tight (strip l) := by
  constructor
  · intro c hc
    obtain ⟨u, hu, _⟩ := rstrip_decomp (lstrip l)
    refine lstrip_head l c ?_
    unfold strip at hc
    rw [hu]
    cases hr : rstrip (lstrip l) with
    | nil => rw [hr] at hc; cases hc
    | cons x t => rw [hr] at hc; simpa using hc
  · intro c hc
    exact rstrip_last _ c hc

theorem strip_indented {ks : Str} (h : Tight ks) : strip (u!" " ++ ks ++ [0x0a]) = ks := by
  by_cases hk : ks = []
  · subst hk; decide
  · have e : strip (u!" " ++ ks ++ [0x0a]) = strip (ks ++ [0x0a]) := by
      unfold strip
      rw [List.append_assoc, lstrip_append_space (by decide)]
    rw [e]
    exact strip_append hk h.1 h.2 (by decide)

theorem showInt_word (n : Int) : Word (showInt n) := by
  refine ⟨?_, ?_⟩
  · unfold showInt
    split
    · simp
    · exact showNat_ne_nil _
  · intro c hc
    rcases showInt_plain n c hc with h | rfl
    · exact asciiDigit_not_space h
    · decide

theorem splitWs_radkHead {r : Str} (hr : Word r) (n : Int) : splitWs (Spec.radkHead r n ++ [0x0a]) = [u!"$", r, showInt n] := by
  have e : Spec.radkHead r n = join [0x20] [u!"$", r, showInt n] := by
    simp [Spec.radkHead, join]
  have h1 : splitWs (Spec.radkHead r n ++ [0x0a]) = splitWs (Spec.radkHead r n) := splitWsAux_append_spaces [] _ (by decide)
  rw [h1, e]
  refine splitWs_join _ ?_
  intro w hw
  simp only [List.mem_cons, List.not_mem_nil, or_false] at hw
  rcases hw with rfl | rfl | rfl
  · decide
  · exact hr
  · exact showInt_word n

theorem radkStep_head (st : RadkState) {r : Str} (hr : Word r) (n : Int) : radkStep st (Spec.radkHead r n ++ [0x0a]) =
    .ok { st with cur := some r, radicalToStrokeCount := Dict.set st.radicalToStrokeCount r n } := by
  have hs := splitWs_radkHead hr n
  rcases radkStep_header st (Spec.radkHead r n ++ [0x0a]) (by simp [Spec.radkHeader, Spec.radkHead]) with ⟨r', n', ⟨_, h2, s, h3, h4⟩, h⟩ | ⟨e, ⟨_, hb⟩, _⟩
  · rw [hs] at h2 h3
    simp only [List.getElem?_cons_succ, List.getElem?_cons_zero, Option.some.injEq] at h2 h3
    subst h2 h3
    rw [pyInt_showInt] at h4
    cases h4
    exact h
  · rw [hs] at hb
    rcases hb with ⟨hb, _⟩ | ⟨_, s, h3, h4⟩
    · simp at hb
    · simp only [List.getElem?_cons_succ, List.getElem?_cons_zero, Option.some.injEq] at h3
      subst h3
      rw [pyInt_showInt] at h4
      cases h4

theorem radkStep_indented (st : RadkState) {ks : Str} (h : Tight ks) : radkStep st (u!" " ++ ks ++ [0x0a]) = .ok
    { st with radicalToKanji := Dict.set st.radicalToKanji st.cur ((Dict.get? st.radicalToKanji st.cur).getD [] ++ ks) } := by
  rw [radkStep_body st _ (by simp [Spec.radkComment, Spec.radkHeader]), strip_indented h]

/-! ### What is known of a table that was read -/

structure RadkRead (Q : Nat → Prop) (st : RadkState) : Prop where
  wfKanji : Dict.WF st.radicalToKanji
  wfCount : Dict.WF st.radicalToStrokeCount
  cur : ∀ r, st.cur = some r → r ∈ Dict.keys st.radicalToStrokeCount
  words : ∀ r ∈ Dict.keys st.radicalToStrokeCount, Word r
  known : ∀ r, some r ∈ Dict.keys st.radicalToKanji → r ∈ Dict.keys st.radicalToStrokeCount
  before : st.cur = none → ∀ r, some r ∉ Dict.keys st.radicalToKanji
  first : ∀ e ∈ st.radicalToKanji.drop 1, e.1 ≠ none
  tight : ∀ e ∈ st.radicalToKanji, Tight e.2 ∧ ∀ c ∈ e.2, Q c

theorem drop_set {K V : Type} [DecidableEq K] (d : Dict K V) (k : K) (v : V) (e : K × V) (h : e ∈ (Dict.set d k v).drop 1) :
    (∃ f ∈ d.drop 1, f.1 = e.1) ∨ (d ≠ [] ∧ k ∉ Dict.keys d ∧ e = (k, v)) := by
  cases d with
  | nil => simp [Dict.set] at h
  | cons x d =>
    obtain ⟨k', w⟩ := x
    simp only [Dict.set] at h
    split at h
    · exact .inl ⟨e, h, rfl⟩
    · rename_i hk
      rw [List.drop_succ_cons, List.drop_zero] at h
      by_cases hm : k ∈ Dict.keys d
      · have : e.1 ∈ Dict.keys (Dict.set d k v) := List.mem_map_of_mem h
        rw [Dict.mem_keys_set] at this
        have hm' : e.1 ∈ Dict.keys d := by
          rcases this with rfl | h'
          · exact hm
          · exact h'
        obtain ⟨f, hf, he⟩ := List.mem_map.1 hm'
        exact .inl ⟨f, hf, he⟩
      · rw [Dict.set_of_not_mem _ _ _ hm] at h
        rcases List.mem_append.1 h with h | h
        · exact .inl ⟨e, h, rfl⟩
        · refine .inr ⟨by simp, ?_, List.mem_singleton.1 h⟩
          simp only [Dict.keys_cons, List.mem_cons, not_or]
          exact ⟨fun e => hk e.symm, hm⟩

theorem radkRead_step {Q : Nat → Prop} {st st' : RadkState} {l : Str} (hi : RadkRead Q st) (hl : ∀ c ∈ strip l, Q c)
    (h : radkStep st l = .ok st') : RadkRead Q st' := by
  by_cases hc : Spec.radkComment l
  · rw [radkStep_comment st l hc] at h
    cases h; exact hi
  by_cases hh : Spec.radkHeader l
  · rcases radkStep_header st l hh with ⟨r, n, ⟨_, hr, _⟩, hs⟩ | ⟨e, _, hs⟩
    · rw [hs] at h
      cases h
      have hw : Word r := splitWs_words l r (List.mem_of_getElem? hr)
      refine ⟨hi.wfKanji, Dict.WF_set hi.wfCount _ _, ?_, ?_, ?_, ?_, hi.first, hi.tight⟩
      · intro r' h'
        cases h'
        exact (Dict.mem_keys_set _ _ _ _).2 (by simp)
      · intro r' h'
        rcases (Dict.mem_keys_set _ _ _ _).1 h' with h' | h'
        · rw [h']; exact hw
        · exact hi.words r' h'
      · intro r' h'
        exact (Dict.mem_keys_set _ _ _ _).2 (.inr (hi.known r' h'))
      · intro h'; cases h'
    · rw [hs] at h; cases h
  · rw [radkStep_body st l (by rw [not_or]; exact ⟨hc, hh⟩)] at h
    cases h
    refine ⟨Dict.WF_set hi.wfKanji _ _, hi.wfCount, hi.cur, hi.words, ?_, ?_, ?_, ?_⟩
    · intro r hr
      rcases (Dict.mem_keys_set _ _ _ _).1 hr with h' | h'
      · exact hi.cur r h'.symm
      · exact hi.known r h'
    · intro hn r hr
      rcases (Dict.mem_keys_set _ _ _ _).1 hr with h' | h'
      · rw [show st.cur = none from hn] at h'; cases h'
      · exact hi.before hn r h'
    · intro e he
      rcases drop_set _ _ _ e he with ⟨f, hf, hfe⟩ | ⟨hne, hk, rfl⟩
      · rw [← hfe]; exact hi.first f hf
      · intro hn
        simp only at hn
        obtain ⟨x, t, hx⟩ := List.exists_cons_of_ne_nil hne
        cases hx1 : x.1 with
        | none => exact hk (by rw [hx, hn]; simp [hx1])
        | some r => exact hi.before hn r (by rw [hx]; simp [hx1])
    · intro e he
      rcases mem_set_dict he with he | he
      · exact hi.tight e he
      · rw [he]
        have hold : Tight ((Dict.get? st.radicalToKanji st.cur).getD []) ∧ ∀ c ∈ (Dict.get? st.radicalToKanji st.cur).getD [], Q c := by
          cases hg : Dict.get? st.radicalToKanji st.cur with
          | none => exact ⟨tight_nil, by simp⟩
          | some ks => exact hi.tight _ (Dict.mem_of_get?_eq_some hg)
        refine ⟨tight_append hold.1 (tight_strip l), ?_⟩
        intro c hc
        rcases List.mem_append.1 hc with hc | hc
        · exact hold.2 c hc
        · exact hl c hc

theorem radkRead_loop {Q : Nat → Prop} (ls : List Str) : ∀ {st st' : RadkState}, RadkRead Q st → (∀ l ∈ ls, ∀ c ∈ strip l, Q c) →
    radkLoop st ls = .ok st' → RadkRead Q st' := by
  induction ls with
  | nil => intro st st' hi _ h; cases h; exact hi
  | cons l ls ih =>
    intro st st' hi hl h
    simp only [radkLoop] at h
    cases hs : radkStep st l with
    | error e => rw [hs] at h; cases h
    | ok st1 =>
      rw [hs, bind_ok] at h
      exact ih (radkRead_step hi (hl l (by simp)) hs) (fun l' h' => hl l' (by simp [h'])) h

theorem radkRead_start (Q : Nat → Prop) : RadkRead Q ⟨none, [], []⟩ :=
  ⟨Dict.WF_nil, Dict.WF_nil, by simp, by simp, by simp, by simp, by simp, by simp⟩

/-! ### Reading the saved lines -/

theorem radkLoop_append (a b : List Str) : ∀ st, radkLoop st (a ++ b) = (radkLoop st a).bind (fun st' => radkLoop st' b) := by
  induction a with
  | nil => intro st; rfl
  | cons l a ih =>
    intro st
    simp only [List.cons_append, radkLoop]
    cases radkStep st l with
    | error e => rfl
    | ok st1 => exact ih st1

theorem radkLoop_heads (L : List (Str × Int)) : ∀ st : RadkState, (∀ e ∈ L, Word e.1) → ∃ cur,
    radkLoop st (L.map (fun e => Spec.radkHead e.1 e.2 ++ [0x0a])) = .ok ⟨cur, st.radicalToKanji, Dict.update st.radicalToStrokeCount L⟩ := by
  induction L with
  | nil => intro st _; exact ⟨st.cur, rfl⟩
  | cons e L ih =>
    intro st hw
    obtain ⟨cur, h⟩ := ih { st with cur := some e.1, radicalToStrokeCount := Dict.set st.radicalToStrokeCount e.1 e.2 } (fun x hx => hw x (by simp [hx]))
    refine ⟨cur, ?_⟩
    simp only [List.map_cons, radkLoop]
    rw [radkStep_head st (hw e (by simp)), bind_ok]
    exact h

theorem set_same {K V : Type} [DecidableEq K] (d : Dict K V) (k : K) (v : V) (h : Dict.get? d k = some v) : Dict.set d k v = d := by
  induction d with
  | nil => cases h
  | cons x d ih =>
    obtain ⟨k', w⟩ := x
    rw [Dict.get?_cons] at h
    simp only [Dict.set]
    split
    · rename_i hk
      subst hk
      simp only [if_true, Option.some.injEq] at h
      rw [h]
    · rename_i hk
      rw [if_neg hk] at h
      rw [ih h]

theorem radkLoop_kanji (R : List (Option Str × Str)) : ∀ st : RadkState, (∀ e ∈ R, e.1 ≠ none) → (∀ e ∈ R, Tight e.2) →
    (∀ r ks, (some r, ks) ∈ R → r ∈ Dict.keys st.radicalToStrokeCount) → (∀ r ∈ Dict.keys st.radicalToStrokeCount, Word r) →
    (Dict.keys (st.radicalToKanji ++ R)).Nodup → ∃ cur,
    radkLoop st ((R.flatMap (fun e => match e.1 with
      | some r => [Spec.radkHead r ((Dict.get? st.radicalToStrokeCount r).getD 0), u!" " ++ e.2]
      | none => [])).map (fun l => l ++ [0x0a])) = .ok ⟨cur, st.radicalToKanji ++ R, st.radicalToStrokeCount⟩ := by
  induction R with
  | nil => intro st _ _ _ _ _; exact ⟨st.cur, by simp [radkLoop]⟩
  | cons e R ih =>
    intro st hs ht hk hw hnd
    obtain ⟨o, ks⟩ := e
    cases o with
    | none => exact absurd rfl (hs (none, ks) (by simp))
    | some r =>
      have hr := hk r ks (by simp)
      obtain ⟨n, hn⟩ := Option.isSome_iff_exists.1 ((Dict.get?_isSome_iff _ _).2 hr)
      have hnew : some r ∉ Dict.keys st.radicalToKanji := by
        intro hm
        simp only [Dict.keys, List.map_append, List.map_cons] at hnd hm
        exact (List.nodup_append.1 hnd).2.2 _ hm _ (by simp) rfl
      obtain ⟨cur, h⟩ := ih ⟨some r, st.radicalToKanji ++ [(some r, ks)], st.radicalToStrokeCount⟩ (fun x hx => hs x (by simp [hx])) (fun x hx => ht x (by simp [hx]))
        (fun r' ks' hx => hk r' ks' (by simp [hx])) hw (by simpa using hnd)
      refine ⟨cur, ?_⟩
      simp only [List.flatMap_cons, List.cons_append, List.nil_append, List.map_cons, radkLoop]
      rw [radkStep_head st (hw r hr), bind_ok]
      have hstep := radkStep_indented ⟨some r, st.radicalToKanji, Dict.set st.radicalToStrokeCount r ((Dict.get? st.radicalToStrokeCount r).getD 0)⟩ (ht (some r, ks) (by simp))
      simp only [List.cons_append, List.nil_append] at hstep
      rw [hstep, bind_ok]
      simp only [(Dict.get?_eq_none_iff _ _).2 hnew, Option.getD_none, List.nil_append, Dict.set_of_not_mem _ _ _ hnew, hn, Option.getD_some, set_same _ _ _ hn]
      simpa using h

theorem radkDict_loop {ls : List Str} {d : RadkDict} (h : radkDict ls = .ok d) : ∃ st, radkLoop ⟨none, [], []⟩ ls = .ok st ∧
    d = ⟨(mapDictInPlace (fun l => .ok l) (Dict.update [] (invertMapping st.radicalToKanji))).1, st.radicalToStrokeCount, st.radicalToKanji⟩ := by
  unfold radkDict at h
  cases hl : radkLoop ⟨none, [], []⟩ ls with
  | error e => rw [hl] at h; cases h
  | ok st =>
    rw [hl, bind_ok] at h
    cases h
    exact ⟨st, rfl, rfl⟩

theorem radkRead_saved {Q : Nat → Prop} {st : RadkState} (hi : RadkRead Q st) {d : RadkDict} (h1 : d.radicalToStrokeCount = st.radicalToStrokeCount)
    (h2 : d.radicalToKanji = st.radicalToKanji) : ∃ cur, radkLoop ⟨none, [], []⟩ ((Spec.savedRadicals d).map (fun l => l ++ [0x0a])) =
      .ok ⟨cur, st.radicalToKanji, st.radicalToStrokeCount⟩ := by
  have hsplit : ∃ (A R : Dict (Option Str) Str), st.radicalToKanji = A ++ R ∧ (∀ e ∈ R, e.1 ≠ none) ∧
      radkLoop ⟨none, [], []⟩ ((match Dict.get? st.radicalToKanji none with | some ks => [u!" " ++ ks] | none => ([] : List Str)).map (fun l => l ++ [0x0a])) =
        .ok ⟨none, A, []⟩ ∧
      st.radicalToKanji.flatMap (fun e => match e.1 with
        | some r => [Spec.radkHead r ((Dict.get? st.radicalToStrokeCount r).getD 0), u!" " ++ e.2] | none => ([] : List Str)) =
      R.flatMap (fun e => match e.1 with
        | some r => [Spec.radkHead r ((Dict.get? st.radicalToStrokeCount r).getD 0), u!" " ++ e.2] | none => ([] : List Str)) := by
    cases hk : st.radicalToKanji with
    | nil => exact ⟨[], [], rfl, by simp, rfl, rfl⟩
    | cons x R =>
      obtain ⟨o, ks⟩ := x
      have hR : ∀ e ∈ R, e.1 ≠ none := by
        have := hi.first
        rw [hk] at this
        exact this
      cases o with
      | none =>
        refine ⟨[(none, ks)], R, rfl, hR, ?_, ?_⟩
        · have ht := (hi.tight (none, ks) (by rw [hk]; simp)).1
          simp only [Dict.get?_cons, if_true, List.map_cons, List.map_nil, radkLoop]
          rw [radkStep_indented _ ht, bind_ok]
          rfl
        · simp
      | some r =>
        refine ⟨[], (some r, ks) :: R, rfl, ?_, ?_, rfl⟩
        · intro e he
          rcases List.mem_cons.1 he with rfl | he
          · simp
          · exact hR e he
        · have : Dict.get? ((some r, ks) :: R : Dict (Option Str) Str) none = none := by
            rw [Dict.get?_eq_none_iff]
            intro hm
            obtain ⟨v, hv⟩ := (Dict.mem_keys_iff _ _).1 hm
            rcases List.mem_cons.1 hv with hv | hv
            · cases hv
            · exact hR _ hv rfl
          rw [this]
          rfl
  obtain ⟨A, R, hAR, hR, hA, hflat⟩ := hsplit
  have hupd : Dict.update [] st.radicalToStrokeCount = st.radicalToStrokeCount := Dict.ofList_of_nodup _ hi.wfCount
  obtain ⟨c1, e1⟩ := radkLoop_heads st.radicalToStrokeCount ⟨none, A, []⟩ (fun e he => hi.words e.1 (List.mem_map_of_mem he))
  simp only [hupd] at e1
  obtain ⟨c2, e2⟩ := radkLoop_kanji R ⟨c1, A, st.radicalToStrokeCount⟩ hR
    (fun e he => (hi.tight e (by rw [hAR]; simp [he])).1)
    (fun r ks he => hi.known r (by rw [hAR]; exact List.mem_map_of_mem (f := Prod.fst) (List.mem_append_right A he)))
    hi.words (by have := hi.wfKanji; rw [hAR] at this; exact this)
  refine ⟨c2, ?_⟩
  unfold Spec.savedRadicals
  rw [h1, h2, hflat, List.map_append, List.map_append, radkLoop_append, radkLoop_append, hA]
  simp only [Except.bind, List.map_map]
  have e1' : radkLoop ⟨none, A, []⟩ (st.radicalToStrokeCount.map ((fun l => l ++ [0x0a]) ∘ fun e => Spec.radkHead e.1 e.2)) = _ := e1
  rw [e1']
  simp only
  rw [e2, hAR]

/-- C187: a table of radicals read from any lines is read again from the lines it is saved as: the same radicals of each kanji, stroke counts and kanji of each radical, in the same order. -/
theorem C187_lines (ls : List Str) (d : RadkDict) (h : radkDict ls = .ok d) : radkDict ((Spec.savedRadicals d).map (fun l => l ++ u!"\n")) = .ok d := by
  obtain ⟨st, hl, hd⟩ := radkDict_loop h
  have hi : RadkRead (fun _ => True) st := radkRead_loop ls (radkRead_start _) (by simp) hl
  obtain ⟨cur, e⟩ := radkRead_saved hi (d := d) (by rw [hd]) (by rw [hd])
  have e' : radkLoop ⟨none, [], []⟩ ((Spec.savedRadicals d).map (fun l => l ++ u!"\n")) = _ := e
  unfold radkDict
  rw [e', bind_ok, hd]

/-! ### Files -/

theorem fileLinesAux_form (t : Str) : ∀ acc, NoEol acc → ∀ l ∈ fileLinesAux acc t, ∃ s, NoEol s ∧ (l = s ∨ l = s ++ [0x0a]) := by
  intro acc
  fun_induction fileLinesAux acc t with
  | case1 => intro _ l hl; cases hl
  | case2 acc h => intro ha l hl; exact ⟨acc, ha, .inl (List.mem_singleton.1 hl)⟩
  | case3 acc rest ih =>
    intro ha l hl
    rcases List.mem_cons.1 hl with e | hl
    · exact ⟨acc, ha, .inr e⟩
    · exact ih (by decide) l hl
  | case4 acc c' rest _ h0 ih =>
    intro ha l hl
    rcases List.mem_cons.1 hl with e | hl
    · exact ⟨acc, ha, .inr e⟩
    · exact ih (by decide) l hl
  | case5 acc c' rest _ h0 ih =>
    intro ha l hl
    rw [not_or] at h0
    refine ih ⟨?_, ?_⟩ l hl
    · simpa using ⟨ha.1, Ne.symm h0.1⟩
    · simpa using ⟨ha.2, Ne.symm h0.2⟩

theorem fileLines_strip (t : Str) : ∀ l ∈ fileLines t, ∀ c ∈ strip l, c ≠ 0x0d ∧ c ≠ 0x0a := by
  intro l hl c hc
  obtain ⟨s, hs, he⟩ := fileLinesAux_form t [] (by decide) l hl
  have hcs : c ∈ s := by
    rcases he with rfl | rfl
    · exact mem_strip hc
    · rw [← strip_rstrip, rstrip_append (by decide), strip_rstrip] at hc
      exact mem_strip hc
  exact ⟨fun e => hs.1 (e ▸ hcs), fun e => hs.2 (e ▸ hcs)⟩

/-- C187: the same for files, whichever line ending the saved file uses. -/
theorem C187_file (text : Str) (d : RadkDict) (h : radkDict (fileLines text) = .ok d) (eol : Str) (he : eol = u!"\n" ∨ eol = u!"\r\n" ∨ eol = u!"\r") :
    radkDict (fileLines ((Spec.savedRadicals d).flatMap (fun l => l ++ eol))) = .ok d := by
  rw [fileLines_uniform eol he]
  · exact C187_lines _ d h
  · obtain ⟨st, hl, hd⟩ := radkDict_loop h
    have hi : RadkRead (fun c => c ≠ 0x0d ∧ c ≠ 0x0a) st := radkRead_loop _ (radkRead_start _) (fileLines_strip text) hl
    have h1 : d.radicalToStrokeCount = st.radicalToStrokeCount := by rw [hd]
    have h2 : d.radicalToKanji = st.radicalToKanji := by rw [hd]
    have hks : ∀ o ks, (o, ks) ∈ st.radicalToKanji → NoEol (u!" " ++ ks) := by
      intro o ks hm
      have := (hi.tight _ hm).2
      refine ⟨fun hc => ?_, fun hc => ?_⟩
      · rcases List.mem_append.1 hc with hc | hc
        · exact absurd hc (by decide)
        · exact (this _ hc).1 rfl
      · rcases List.mem_append.1 hc with hc | hc
        · exact absurd hc (by decide)
        · exact (this _ hc).2 rfl
    have hhead : ∀ r ∈ Dict.keys st.radicalToStrokeCount, ∀ n, NoEol (Spec.radkHead r n) := by
      intro r hr n
      have : ∀ c ∈ Spec.radkHead r n, isSpace c = false ∨ c = 0x20 := by
        intro c hc
        simp only [Spec.radkHead, List.mem_append] at hc
        rcases hc with ((hc | hc) | hc) | hc
        · revert c; decide
        · exact .inl ((hi.words r hr).2 c hc)
        · revert c; decide
        · exact .inl ((showInt_word n).2 c hc)
      exact ⟨fun hc => absurd (this _ hc) (by decide), fun hc => absurd (this _ hc) (by decide)⟩
    intro l hm
    unfold Spec.savedRadicals at hm
    rw [h1, h2] at hm
    rcases List.mem_append.1 hm with hm | hm
    · rcases List.mem_append.1 hm with hm | hm
      · cases hg : Dict.get? st.radicalToKanji none with
        | none => rw [hg] at hm; cases hm
        | some ks =>
          rw [hg] at hm
          rw [List.mem_singleton.1 hm]
          exact hks _ _ (Dict.mem_of_get?_eq_some hg)
      · obtain ⟨e, he, rfl⟩ := List.mem_map.1 hm
        exact hhead _ (List.mem_map_of_mem he) _
    · obtain ⟨⟨o, ks⟩, he, hm⟩ := List.mem_flatMap.1 hm
      cases o with
      | none => cases hm
      | some r =>
        simp only [List.mem_cons, List.not_mem_nil, or_false] at hm
        rcases hm with rfl | rfl
        · exact hhead _ (hi.known r (List.mem_map_of_mem (f := Prod.fst) he)) _
        · exact hks _ _ he

/-- Without the indentation a radical whose first kanji is `#` would lose its kanji. -/
theorem C187_indent : ∃ d e : RadkDict, radkDict (fileLines u!"$ a 1\n #b\n") = .ok d ∧ radkDict (fileLines u!"$ a 1\n#b\n") = .ok e ∧
    Dict.get? d.radicalToKanji (some u!"a") = some u!"#b" ∧ Dict.get? e.radicalToKanji (some u!"a") = none := by
  refine ⟨_, _, rfl, rfl, ?_, ?_⟩ <;> decide

/-- Not vacuous: a table with kanji before the first header, a radical met twice, a kanji `$` and a negative count. -/
example : ∃ d, radkDict (fileLines u!"z\n$ b 2\n$ a -1 x\nk m\r\n#note\n$ b 3\n $#\r$ a -4\n k") = .ok d ∧
    (Spec.savedRadicals d).flatMap (fun l => l ++ u!"\n") = u!" z\n$ b 3\n$ a -4\n$ a -4\n k mk\n$ b 3\n $#\n" := by
  refine ⟨_, rfl, ?_⟩
  decide +kernel

end Cjk
