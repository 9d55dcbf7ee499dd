import Verif.Props.Export
import Verif.Props.CsvWritten
import Verif.Props.PlaceText
import Verif.Lemmas.Encoding
import Verif.Lemmas.Graph
/-!
# C184: an index that was read can be written out and read again
-/

namespace Cjk
open Py

/-! ### Specification -/

/-- A word in the form in which it is read from its own text: the sense 0 is not written. -/
def Spec.senseWritten (w : Tanaka) : Tanaka := { w with sense := if w.sense = some 0 then none else w.sense }

/-- The records of a saved index: for each sentence its id, the id it links to and its words with spaces between them. -/
def Spec.savedIndex (d : IndexData) : List (List Str) :=
  d.sent.map (fun e => [showInt e.1, showInt ((Dict.get? d.link e.1).getD 0), Spec.spaced (e.2.map Tanaka.toText)])

/-- A reading that can stand in brackets in an index: not empty, without `)`, space, carriage return and NUL. -/
def Spec.ReadingFits (r : Str) : Prop := r ≠ [] ∧ ∀ c ∈ r, c ≠ c!")" ∧ c ≠ c!" " ∧ c ≠ c!"\r" ∧ c ≠ 0

/-! ### Characters of fields -/

theorem csvLine_all' {P : Nat → Prop} {delim lim : Nat} : ∀ (l : Str) {r r' : Csv}, CsvAll P r → (∀ c ∈ l, c ≠ 0 → P c) →
    r.line delim lim l = .ok r' → CsvAll P r' := by
  intro l
  induction l with
  | nil => intro r r' h _ he; cases he; exact h.endLine
  | cons c l ih =>
    intro r r' h hl he
    unfold Csv.line at he
    split at he
    · cases he
    · rename_i h0
      cases hc : r.char delim lim c with
      | error e => rw [hc] at he; cases he
      | ok r1 =>
        rw [hc] at he
        exact ih (h.char (hl c (by simp) h0) hc) (fun d hd => hl d (by simp [hd])) he

theorem csvRows_all' {P : Nat → Prop} {delim lim : Nat} : ∀ (ls : List Str) (r : Csv), CsvAll P r → (∀ l ∈ ls, ∀ c ∈ l, c ≠ 0 → P c) →
    ∀ row ∈ (csvRows delim lim r ls).1, ∀ f ∈ row, ∀ c ∈ f, P c := by
  intro ls
  induction ls with
  | nil =>
    intro r h _ row hrow
    unfold csvRows at hrow
    split at hrow
    · rw [List.mem_singleton.1 hrow]
      exact (h.save .startRecord).2
    · cases hrow
  | cons l ls ih =>
    intro r h hl row hrow
    unfold csvRows at hrow
    cases he : r.line delim lim l with
    | error e => rw [he] at hrow; cases hrow
    | ok r' =>
      rw [he] at hrow
      have h' := csvLine_all' l h (hl l (by simp)) he
      simp only at hrow
      split at hrow
      · rcases List.mem_cons.1 hrow with e | e
        · rw [e]; exact h'.2
        · exact ih Csv.init ⟨fun c hc => (by cases hc), fun f hf => (by cases hf)⟩ (fun l hl' => hl l (by simp [hl'])) row e
      · exact ih r' h' (fun l hl' => hl l (by simp [hl'])) row hrow

/-- No field of a file that is opened in text mode contains a carriage return or NUL. -/
theorem field_chars (lim : Nat) (text : Str) :
    ∀ row ∈ (loadFile lim (fileLines text)).1, ∀ f ∈ row, ∀ c ∈ f, c ≠ c!"\r" ∧ c ≠ 0 := by
  apply csvRows_all'
  · exact ⟨fun c hc => (by cases hc), fun f hf => (by cases hf)⟩
  · intro l hl c hc h0
    refine ⟨?_, h0⟩
    rw [← fileLines_oneBreak] at hl
    rcases mem_fileLines hl hc with h | h
    · intro e
      rw [e] at h
      exact oneBreak_noReturn text h
    · rw [h]; decide

/-! ### Words that were read -/

/-- A word of an index that was read from a text file. -/
structure IndexWord (w : Tanaka) : Prop where
  ok : Spec.WordOk w
  chars : ∀ c ∈ w.toText, c ≠ c!" " ∧ c ≠ c!"\r" ∧ c ≠ 0

theorem toText_chars {Q : Nat → Prop} (hd : ∀ c, AsciiDigit c → Q c)
    (hb : ∀ c, c ∈ [0x28, 0x29, 0x5b, 0x5d, 0x7b, 0x7d, 0x7e] → Q c) {w : Tanaka} (hw : Spec.WordOk w)
    (h1 : ∀ c ∈ w.headword, Q c) (h2 : ∀ r, w.reading = some r → ∀ c ∈ r, Q c) (h3 : ∀ r, w.display = some r → ∀ c ∈ r, Q c) :
    ∀ c ∈ w.toText, Q c := by
  intro c hc
  rw [toText_eq hw] at hc
  have hx : c ∈ w.headword ∨ c ∈ Spec.inBrackets 0x28 0x29 w.reading ∨ c ∈ Spec.inBrackets 0x5b 0x5d (wordToParts w).sense ∨
      c ∈ Spec.inBrackets 0x7b 0x7d w.display ∨ c ∈ [0x7e] := by
    unfold Spec.WordParts.text at hc
    simp only [List.mem_append] at hc
    rcases hc with ((((hc | hc) | hc) | hc) | hc) | hc
    · exact .inl hc
    · exact .inr (.inl hc)
    · cases hc
    · exact .inr (.inr (.inl hc))
    · exact .inr (.inr (.inr (.inl hc)))
    · split at hc
      · exact .inr (.inr (.inr (.inr hc)))
      · cases hc
  rcases hx with hc | hc | hc | hc | hc
  · exact h1 c hc
  · cases hr : w.reading with
    | none => rw [hr] at hc; simp [Spec.inBrackets] at hc
    | some r =>
      rw [hr] at hc
      simp only [Spec.inBrackets, List.mem_append, List.mem_singleton] at hc
      rcases hc with (rfl | hc) | rfl
      · exact hb _ (by simp)
      · exact h2 r hr c hc
      · exact hb _ (by simp)
  · simp only [wordToParts] at hc
    cases hs : w.sense with
    | none => rw [hs] at hc; simp [Spec.inBrackets] at hc
    | some i =>
      rw [hs] at hc
      by_cases hi : i = 0
      · simp [hi, Spec.inBrackets] at hc
      · simp only [if_neg hi, Spec.inBrackets, List.mem_append, List.mem_singleton] at hc
        rcases hc with (rfl | hc) | rfl
        · exact hb _ (by simp)
        · have := hw.2.2.2 i hs
          unfold showInt02 at hc
          rw [if_neg (by omega)] at hc
          exact hd c (showNat02_digits _ c hc)
        · exact hb _ (by simp)
  · cases hr : w.display with
    | none => rw [hr] at hc; simp [Spec.inBrackets] at hc
    | some r =>
      rw [hr] at hc
      simp only [Spec.inBrackets, List.mem_append, List.mem_singleton] at hc
      rcases hc with (rfl | hc) | rfl
      · exact hb _ (by simp)
      · exact h3 r hr c hc
      · exact hb _ (by simp)
  · rw [List.mem_singleton.1 hc]; exact hb _ (by simp)

theorem fits_extra (c : Nat) (h : AsciiDigit c ∨ c ∈ [0x28, 0x29, 0x5b, 0x5d, 0x7b, 0x7d, 0x7e]) : c ≠ c!" " ∧ c ≠ c!"\r" ∧ c ≠ 0 := by
  rcases h with h | h
  · unfold AsciiDigit at h
    refine ⟨?_, ?_, ?_⟩ <;> (intro e; rw [e] at h; revert h; decide)
  · simp only [List.mem_cons, List.not_mem_nil, or_false] at h
    rcases h with rfl | rfl | rfl | rfl | rfl | rfl | rfl <;> decide

theorem indexWord_of_piece {p : Str} {w : Tanaka} (h : Tanaka.fromText p = .ok w) (hp : ∀ c ∈ p, c ≠ c!" " ∧ c ≠ c!"\r" ∧ c ≠ 0) :
    IndexWord w := by
  have hok := wordOk_of_fromText h
  refine ⟨hok, ?_⟩
  obtain ⟨q, _, ht, e1, e2, e3, _⟩ := (C60_sound p).1 w h
  have hq : ∀ c ∈ q.text, c ≠ c!" " ∧ c ≠ c!"\r" ∧ c ≠ 0 := by
    intro c hc
    rcases ht with rfl | rfl
    · exact hp c hc
    · exact hp c (by simp [hc])
  refine toText_chars (Q := fun c => c ≠ c!" " ∧ c ≠ c!"\r" ∧ c ≠ 0) (fun c hc => fits_extra c (.inl hc)) (fun c hc => fits_extra c (.inr hc)) hok ?_ ?_ ?_
  · intro c hc
    exact hq c (by rw [e1] at hc; simp [Spec.WordParts.text, hc])
  · intro r hr c hc
    rw [e2] at hr
    exact hq c (by simp [Spec.WordParts.text, hr, Spec.inBrackets, hc])
  · intro r hr c hc
    rw [e3] at hr
    exact hq c (by simp [Spec.WordParts.text, hr, Spec.inBrackets, hc])

theorem indexWord_of_sentence {text : Str} {ws : List Tanaka} (h : parseSentence text = .ok ws) (ht : ∀ c ∈ text, c ≠ c!"\r" ∧ c ≠ 0) :
    ∀ w ∈ ws, IndexWord w := by
  intro w hw
  have h' := parseWords_eq_ok.1 h
  have hm : Except.ok w ∈ (splitChr 0x20 text |>.filter (fun p => !p.isEmpty)).map Tanaka.fromText := by
    rw [h']
    exact List.mem_map_of_mem hw
  obtain ⟨p, hp, he⟩ := List.mem_map.1 hm
  have hp' := (List.mem_filter.1 hp).1
  refine indexWord_of_piece he fun c hc => ⟨?_, ht c (splitChr_mem_sub _ _ p hp' c hc)⟩
  intro e
  exact not_mem_of_mem_splitChr hp' (e ▸ hc)

theorem indexWord_adjusted {e : Dict Str (List Str)} (he : ∀ k rs, Dict.get? e k = some rs → ∀ r ∈ rs, Spec.ReadingFits r)
    {w w' : Tanaka} (h : Spec.Adjusted e w w') (hw : IndexWord w) : IndexWord w' := by
  obtain ⟨h1, h2, h3, h4, h5, h6⟩ := h
  by_cases hr : w'.reading = w.reading
  · have : w' = w := by
      cases w; cases w'; simp_all
    rw [this]; exact hw
  · have hn : w.reading = none := by
      by_cases hn : w.reading = none
      · exact hn
      · exact absurd (h5 hn) hr
    have hx : ∀ r, w'.reading = some r → Spec.ReadingFits r := by
      intro r hr'
      obtain ⟨_, rs, hg, hm⟩ := h6 r hn hr'
      exact he _ rs hg r hm
    have hok : Spec.WordOk w' := by
      refine ⟨by rw [h1]; exact hw.ok.1, ?_, by rw [h3]; exact hw.ok.2.2.1, by rw [h2]; exact hw.ok.2.2.2⟩
      intro s hs
      exact ⟨(hx s hs).1, fun c hc => ((hx s hs).2 c hc).1⟩
    refine ⟨hok, ?_⟩
    refine toText_chars (Q := fun c => c ≠ c!" " ∧ c ≠ c!"\r" ∧ c ≠ 0) (fun c hc => fits_extra c (.inl hc)) (fun c hc => fits_extra c (.inr hc)) hok ?_ ?_ ?_
    · intro c hc
      rw [h1] at hc
      exact hw.chars c (by rw [toText_eq hw.ok]; simp [Spec.WordParts.text, wordToParts, hc])
    · intro r hr' c hc
      exact ((hx r hr').2 c hc).2
    · intro r hr' c hc
      rw [h3] at hr'
      exact hw.chars c (by rw [toText_eq hw.ok]; simp [Spec.WordParts.text, wordToParts, hr', Spec.inBrackets, hc])

/-- The readings of a dictionary fit, if there is one. -/
def ReadingsFit (edict : Option (Dict Str (List Str))) : Prop :=
  ∀ e, edict = some e → ∀ k rs, Dict.get? e k = some rs → ∀ r ∈ rs, Spec.ReadingFits r

theorem indexWord_adjustAll {e : Dict Str (List Str)} (he : ∀ k rs, Dict.get? e k = some rs → ∀ r ∈ rs, Spec.ReadingFits r)
    (ws : List Tanaka) : ∀ ws', adjustWords e ws = .ok ws' → (∀ w ∈ ws, IndexWord w) → ∀ w ∈ ws', IndexWord w := by
  induction ws with
  | nil => rintro ws' ⟨⟩ h; exact h
  | cons w ws ih =>
    intro ws' h hw
    rw [adjustWords] at h
    cases h1 : adjustWord e w with
    | error e => rw [h1] at h; cases h
    | ok x =>
      rw [h1] at h
      simp only at h
      cases h2 : adjustWords e ws with
      | error e => rw [h2] at h; cases h
      | ok xs =>
        rw [h2] at h
        cases h
        intro v hv
        rcases List.mem_cons.1 hv with rfl | hv
        · exact indexWord_adjusted he (adjustWord_spec h1).1 (hw w (by simp))
        · exact ih xs h2 (fun w hw' => hw w (by simp [hw'])) v hv

/-- What is true of the dictionaries while an index is read. -/
structure IndexInv (d : IndexData) : Prop where
  wf : Dict.WF d.sent
  keys : Dict.keys d.link = Dict.keys d.sent
  words : ∀ e ∈ d.sent, ∀ w ∈ e.2, IndexWord w

theorem indexEnter_inv {edict : Option (Dict Str (List Str))} (he : ReadingsFit edict) {d d' : IndexData} {i m : Int} {text : Str}
    (ht : ∀ c ∈ text, c ≠ c!"\r" ∧ c ≠ 0) (hd : IndexInv d) (h : indexEnter edict d i m text = .ok d') : IndexInv d' := by
  unfold indexEnter at h
  cases h1 : parseSentence text with
  | error e => rw [h1] at h; cases h
  | ok ws =>
    rw [h1] at h
    simp only at h
    have hws := indexWord_of_sentence h1 ht
    cases h2 : adjustDetails edict ws with
    | error e => rw [h2] at h; cases h
    | ok ws' =>
      rw [h2] at h
      cases h
      have hws' : ∀ w ∈ ws', IndexWord w := by
        cases edict with
        | none => cases h2; exact hws
        | some e => exact indexWord_adjustAll (he e rfl) ws ws' h2 hws
      refine ⟨Dict.WF_set hd.wf _ _, ?_, ?_⟩
      · show Dict.keys (Dict.set d.link i m) = Dict.keys (Dict.set d.sent i ws')
        rw [Dict.keys_set, Dict.keys_set, hd.keys]
      · intro e hm
        rcases mem_set_dict hm with h | h
        · exact hd.words e h
        · rw [h]; exact hws'

theorem indexRows_inv {edict : Option (Dict Str (List Str))} (he : ReadingsFit edict) {subset : Option (List Int)} (rows : List (List Str)) :
    ∀ d d', (∀ r ∈ rows, ∀ f ∈ r, ∀ c ∈ f, c ≠ c!"\r" ∧ c ≠ 0) → IndexInv d → indexRows edict subset d rows = .ok d' → IndexInv d' := by
  induction rows with
  | nil => rintro d d' _ hd ⟨⟩; exact hd
  | cons row rows ih =>
    intro d d' hr hd h
    rw [indexRows] at h
    cases h1 : indexRow edict subset d row with
    | error e => rw [h1] at h; cases h
    | ok d1 =>
      rw [h1] at h
      refine ih d1 d' (fun r hr' => hr r (by simp [hr'])) ?_ h
      unfold indexRow at h1
      split at h1
      · rename_i a b text
        have ht : ∀ c ∈ text, c ≠ c!"\r" ∧ c ≠ 0 := hr [a, b, text] (by simp) text (by simp)
        split at h1
        · cases h1
        · split at h1
          · cases h1
          · split at h1
            · exact indexEnter_inv he ht hd h1
            · split at h1
              · exact indexEnter_inv he ht hd h1
              · cases h1; exact hd
      · cases h1

theorem indexLoad_inv {edict : Option (Dict Str (List Str))} (he : ReadingsFit edict) {subset : Option (List Int)} {lim : Nat} {text : Str} {d : IndexData}
    (h : indexLoad edict subset (loadFile lim (fileLines text)) = .ok d) : IndexInv d := by
  unfold indexLoad at h
  cases h1 : indexRows edict subset ⟨[], []⟩ (loadFile lim (fileLines text)).1 with
  | error e => rw [h1] at h; cases h
  | ok d1 =>
    rw [h1] at h
    simp only at h
    have : d1 = d := by
      cases h2 : (loadFile lim (fileLines text)).2 with
      | some e => rw [h2] at h; cases h
      | none => rw [h2] at h; cases h; rfl
    subst this
    exact indexRows_inv he _ _ _ (field_chars lim text) ⟨Dict.WF_nil, rfl, fun e he => (by cases he)⟩ h1

/-! ### Reading it again -/

theorem sentence_again (ws : List Tanaka) (h : ∀ w ∈ ws, IndexWord w) :
    parseSentence (Spec.spaced (ws.map Tanaka.toText)) = .ok (ws.map Spec.senseWritten) := by
  rw [spaced_eq]
  cases ws with
  | nil => decide +kernel
  | cons w ws =>
    rw [C62_pieces _ (by simp)]
    · have : ((w :: ws).map Tanaka.toText).filter (fun p => !p.isEmpty) = (w :: ws).map Tanaka.toText := by
        rw [List.filter_eq_self]
        intro x hx
        obtain ⟨v, hv, rfl⟩ := List.mem_map.1 hx
        have := toText_ne_nil (h v hv).ok
        cases hh : v.toText with
        | nil => exact absurd hh this
        | cons => rfl
      rw [this, List.map_map, List.map_map]
      refine List.map_congr_left fun v hv => ?_
      exact C60_write_read v (h v hv).ok
    · intro p hp
      obtain ⟨v, hv, rfl⟩ := List.mem_map.1 hp
      exact fun hc => ((h v hv).chars _ hc).1 rfl

theorem rows_again (subset : Option (List Int)) (l : Dict Int Int) (todo : Dict Int (List Tanaka)) : ∀ d : IndexData,
    (∀ ids, subset = some ids → ∀ i ∈ Dict.keys todo, i ∈ ids) → (∀ e ∈ todo, ∀ w ∈ e.2, IndexWord w) → Dict.WF todo →
    (∀ i ∈ Dict.keys todo, i ∉ Dict.keys d.sent ∧ i ∉ Dict.keys d.link) →
    indexRows none subset d (todo.map (fun e => [showInt e.1, showInt ((Dict.get? l e.1).getD 0), Spec.spaced (e.2.map Tanaka.toText)])) =
      .ok ⟨d.sent ++ todo.map (fun e => (e.1, e.2.map Spec.senseWritten)), d.link ++ todo.map (fun e => (e.1, (Dict.get? l e.1).getD 0))⟩ := by
  induction todo with
  | nil => intro d _ _ _ _; simp [indexRows]
  | cons e todo ih =>
    intro d hs hw hwf hk
    have h1 : indexRow none subset d [showInt e.1, showInt ((Dict.get? l e.1).getD 0), Spec.spaced (e.2.map Tanaka.toText)] =
        .ok ⟨d.sent ++ [(e.1, e.2.map Spec.senseWritten)], d.link ++ [(e.1, (Dict.get? l e.1).getD 0)]⟩ := by
      have h2 : indexEnter none d e.1 ((Dict.get? l e.1).getD 0) (Spec.spaced (e.2.map Tanaka.toText)) =
          .ok ⟨d.sent ++ [(e.1, e.2.map Spec.senseWritten)], d.link ++ [(e.1, (Dict.get? l e.1).getD 0)]⟩ := by
        unfold indexEnter
        rw [sentence_again e.2 (hw e (by simp))]
        simp only [adjustDetails]
        rw [Dict.set_of_not_mem _ _ _ (hk e.1 (by simp)).1, Dict.set_of_not_mem _ _ _ (hk e.1 (by simp)).2]
      unfold indexRow
      simp only [pyInt_showInt]
      cases subset with
      | none => exact h2
      | some ids =>
        simp only
        rw [if_pos (hs ids rfl e.1 (by simp))]
        exact h2
    rw [List.map_cons, indexRows, h1]
    simp only
    obtain ⟨hn, hwf'⟩ := Dict.WF_cons.1 hwf
    rw [ih _ (fun ids h i hi => hs ids h i (by simp [hi])) (fun x hx => hw x (by simp [hx])) hwf']
    · simp
    · intro i hi
      have hne : i ≠ e.1 := fun h => hn (h ▸ hi)
      have := hk i (by simp [hi])
      simp only [Dict.keys, List.map_append, List.mem_append, List.map_cons, List.map_nil, List.mem_singleton] at this ⊢
      exact ⟨fun h => h.elim this.1 hne, fun h => h.elim this.2 hne⟩

theorem link_listed {l : Dict Int Int} {s : Dict Int (List Tanaka)} (hwf : Dict.WF s) (h : Dict.keys l = Dict.keys s) :
    s.map (fun e => (e.1, (Dict.get? l e.1).getD 0)) = l := by
  have hl : Dict.WF l := by unfold Dict.WF; rw [h]; exact hwf
  have e1 : s.map (fun e => (e.1, (Dict.get? l e.1).getD 0)) = (Dict.keys s).map (fun k => (k, (Dict.get? l k).getD 0)) := by
    simp [Dict.keys, List.map_map, Function.comp_def]
  rw [e1, ← h]
  unfold Dict.keys
  rw [List.map_map]
  conv => rhs; rw [← List.map_id l]
  refine List.map_congr_left fun e he => ?_
  have := (Dict.get?_eq_some_iff hl e.1 e.2).2 he
  simp [this]

theorem map_eq_self_iff {α : Type} (f : α → α) (l : List α) : l.map f = l ↔ ∀ a ∈ l, f a = a := by
  induction l with
  | nil => simp
  | cons a l ih => simp [ih]

/-- C184: an index that was loaded from a text file, with or without a dictionary, and written with `csv.writer`, can be read again without
dictionary, with any choice of sentences that includes the ones that are there: the same ids in the same order with the same links and the same words,
except that a sense 0 is gone. -/
theorem C184_read_again (edict : Option (Dict Str (List Str))) (subset : Option (List Int)) (lim : Nat) (text : Str) (d : IndexData)
    (hload : indexLoad edict subset (loadFile lim (fileLines text)) = .ok d)
    (hfit : ∀ e, edict = some e → ∀ k rs, Dict.get? e k = some rs → ∀ r ∈ rs, Spec.ReadingFits r)
    (lim' : Nat) (hlim : ∀ row ∈ Spec.savedIndex d, ∀ f ∈ row, f.length ≤ lim')
    (subset' : Option (List Int)) (hsub : ∀ ids, subset' = some ids → ∀ i ∈ Dict.keys d.sent, i ∈ ids) :
    indexLoad none subset' (loadFile lim' (fileLines (Spec.writerText (Spec.savedIndex d)))) =
      .ok ⟨d.sent.map (fun e => (e.1, e.2.map Spec.senseWritten)), d.link⟩ := by
  have hd := indexLoad_inv hfit hload
  have hch : ∀ row ∈ Spec.savedIndex d, ∀ f ∈ row, ∀ c ∈ f, c ≠ c!"\r" ∧ c ≠ 0 := by
    have hnum : ∀ i : Int, ∀ c ∈ showInt i, c ≠ c!"\r" ∧ c ≠ 0 := by
      intro i c hc
      rcases showInt_plain i c hc with h | rfl
      · unfold AsciiDigit at h
        exact ⟨fun e => by rw [e] at h; revert h; decide, fun e => by rw [e] at h; revert h; decide⟩
      · decide
    intro row hrow f hf c hc
    obtain ⟨e, he, rfl⟩ := List.mem_map.1 hrow
    simp only [List.mem_cons, List.not_mem_nil, or_false] at hf
    rcases hf with rfl | rfl | rfl
    · exact hnum _ c hc
    · exact hnum _ c hc
    · rcases mem_spaced hc with rfl | ⟨t, ht, hc⟩
      · decide
      · obtain ⟨w, hw, rfl⟩ := List.mem_map.1 ht
        exact ((hd.words e he w hw).chars c hc).2
  rw [(C125_writer_iff lim' (Spec.savedIndex d) fun row hrow f hf => ⟨fun h0 => (hch row hrow f hf 0 h0).2 rfl, hlim row hrow f hf⟩).2
    fun row hrow f hf h0 => (hch row hrow f hf _ h0).1 rfl]
  unfold indexLoad Spec.savedIndex
  simp only
  rw [rows_again subset' d.link d.sent ⟨[], []⟩ hsub hd.words hd.wf (by intro i _; simp)]
  simp only [List.nil_append]
  rw [link_listed hd.wf hd.keys]

/-- C184: it comes back exactly if and only if no word has the sense 0. -/
theorem C184_same_iff (edict : Option (Dict Str (List Str))) (subset : Option (List Int)) (lim : Nat) (text : Str) (d : IndexData)
    (hload : indexLoad edict subset (loadFile lim (fileLines text)) = .ok d)
    (hfit : ∀ e, edict = some e → ∀ k rs, Dict.get? e k = some rs → ∀ r ∈ rs, Spec.ReadingFits r)
    (lim' : Nat) (hlim : ∀ row ∈ Spec.savedIndex d, ∀ f ∈ row, f.length ≤ lim')
    (subset' : Option (List Int)) (hsub : ∀ ids, subset' = some ids → ∀ i ∈ Dict.keys d.sent, i ∈ ids) :
    indexLoad none subset' (loadFile lim' (fileLines (Spec.writerText (Spec.savedIndex d)))) = .ok d ↔
      ∀ e ∈ d.sent, ∀ w ∈ e.2, w.sense ≠ some 0 := by
  rw [C184_read_again edict subset lim text d hload hfit lim' hlim subset' hsub]
  have e1 : (Except.ok (ε := PyErr) (⟨d.sent.map (fun e => (e.1, e.2.map Spec.senseWritten)), d.link⟩ : IndexData) = .ok d) ↔
      d.sent.map (fun e => (e.1, e.2.map Spec.senseWritten)) = d.sent := by
    cases d
    simp
  rw [e1, map_eq_self_iff]
  refine forall_congr' fun e => forall_congr' fun _ => ?_
  have e2 : ((e.1, e.2.map Spec.senseWritten) = e) ↔ e.2.map Spec.senseWritten = e.2 := by
    cases e
    simp
  rw [e2, map_eq_self_iff]
  refine forall_congr' fun w => forall_congr' fun _ => ?_
  unfold Spec.senseWritten
  constructor
  · intro h h0
    rw [if_pos h0] at h
    have := congrArg Tanaka.sense h
    rw [h0] at this
    cases this
  · intro h
    rw [if_neg h]

/-- C184: whether or not there was a sense 0, saving and reading once more changes nothing further. -/
theorem C184_settles (edict : Option (Dict Str (List Str))) (subset : Option (List Int)) (lim : Nat) (text : Str) (d d' : IndexData)
    (hload : indexLoad edict subset (loadFile lim (fileLines text)) = .ok d)
    (hfit : ∀ e, edict = some e → ∀ k rs, Dict.get? e k = some rs → ∀ r ∈ rs, Spec.ReadingFits r)
    (lim' : Nat) (hlim : ∀ row ∈ Spec.savedIndex d, ∀ f ∈ row, f.length ≤ lim')
    (h' : indexLoad none none (loadFile lim' (fileLines (Spec.writerText (Spec.savedIndex d)))) = .ok d') :
    indexLoad none none (loadFile lim' (fileLines (Spec.writerText (Spec.savedIndex d')))) = .ok d' := by
  have h1 := C184_read_again edict subset lim text d hload hfit lim' hlim none (by intro _ h; cases h)
  rw [h'] at h1
  have hd' := Except.ok.inj h1
  have htext : ∀ w : Tanaka, (Spec.senseWritten w).toText = w.toText := by
    intro w
    unfold Tanaka.toText Tanaka.senseText Spec.senseWritten Tanaka.readingText Tanaka.displayText
    by_cases h0 : w.sense = some 0
    · simp [h0]
    · simp [h0]
  have hrows : Spec.savedIndex d' = Spec.savedIndex d := by
    rw [hd']
    unfold Spec.savedIndex
    simp only [List.map_map, Function.comp_def, htext]
  rw [hrows]
  exact h'

deriving instance DecidableEq for IndexData

/-! ### The hypotheses hold of a small index -/

example : indexLoad (some [(u!"彼", [u!"かれ"])]) none (loadFile 131072 (fileLines u!"4\t7\t彼[00] は{ハ}~\r\n5\t8\tx\n")) =
    .ok ⟨[(4, [⟨u!"彼", some u!"かれ", some 0, none, false⟩, ⟨u!"は", none, none, some u!"ハ", true⟩]), (5, [⟨u!"x", none, none, none, false⟩])],
      [(4, 7), (5, 8)]⟩ := by decide +kernel

example : ∀ e, some [(u!"彼", [u!"かれ"])] = some e → ∀ k rs, Dict.get? e k = some rs → ∀ r ∈ rs, Spec.ReadingFits r := by
  intro e he k rs h r hr
  cases he
  have := Dict.mem_of_get?_eq_some h
  simp only [List.mem_singleton, Prod.mk.injEq] at this
  rw [this.2] at hr
  rw [List.mem_singleton.1 hr]
  exact ⟨by decide, by decide⟩

example : ∀ row ∈ Spec.savedIndex ⟨[(4, [⟨u!"彼", some u!"かれ", some 0, none, false⟩, ⟨u!"は", none, none, some u!"ハ", true⟩]),
    (5, [⟨u!"x", none, none, none, false⟩])], [(4, 7), (5, 8)]⟩, ∀ f ∈ row, f.length ≤ 131072 := by decide +kernel

/-- A sense 0 is lost. -/
theorem C184_refuted : ∃ d : IndexData, indexLoad none none (loadFile 131072 (fileLines u!"1\t2\tx[00]")) = .ok d ∧
    indexLoad none none (loadFile 131072 (fileLines (Spec.writerText (Spec.savedIndex d)))) ≠ .ok d := by
  refine ⟨⟨[(1, [⟨u!"x", none, some 0, none, false⟩])], [(1, 2)]⟩, by decide +kernel, ?_⟩
  intro h
  have h1 : indexLoad none none (loadFile 131072 (fileLines u!"1\t2\tx[00]")) = .ok ⟨[(1, [⟨u!"x", none, some 0, none, false⟩])], [(1, 2)]⟩ := by decide +kernel
  exact (C184_same_iff none none 131072 _ _ h1 (by intro e he; cases he) 131072 (by decide +kernel) none (by intro _ h; cases h)).1 h
    (1, [⟨u!"x", none, some 0, none, false⟩]) (by simp) ⟨u!"x", none, some 0, none, false⟩ (by simp) rfl

end Cjk
