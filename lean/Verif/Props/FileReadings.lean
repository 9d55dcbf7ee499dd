import Verif.Props.DictLoad
import Verif.Props.IndexObjects
import Verif.Spec.FileReadings
import Verif.Lemmas.Graph
/-!
# C152: readings of index words from a dictionary file
-/

namespace Cjk
open Py

/-! ### What the lines of a file give -/

/-- As every line gives: one reading, a meaning. -/
def LineLike (es : List Entry) : Prop := ∀ e ∈ es, e.senses ≠ [] ∧ e.readings.length = 1

theorem lineLike_reading {es : List Entry} (h : LineLike es) {e : Entry} (he : e ∈ es) : ∃ r, e.readings = [r] := by
  have := (h e he).2
  match hr : e.readings with
  | [] => rw [hr] at this; cases this
  | [q] => exact ⟨q, rfl⟩
  | _ :: _ :: _ => rw [hr] at this; simp at this

theorem meaningReadings_padded {es : List Entry} (h : LineLike es) (w : Str) :
    Spec.meaningReadings es w = (es.filter (fun e => e.word = w)).flatMap Entry.padded := by
  unfold Spec.meaningReadings
  have key : ∀ l : List Entry, (∀ e ∈ l, e.readings.length = 1) →
      l.flatMap (fun e => e.senses.map (fun _ => e.readings.headD [])) = l.flatMap Entry.padded := by
    intro l
    induction l with
    | nil => intro _; rfl
    | cons e l ih =>
      intro hl
      rw [List.flatMap_cons, List.flatMap_cons, ih (fun x hx => hl x (by simp [hx]))]
      congr 1
      rw [← Spec.readingsPerSense_eq]
      unfold Spec.readingsPerSense
      have := hl e (by simp)
      match hr : e.readings with
      | [] => rw [hr] at this; cases this
      | [q] => simp [List.map_const']
      | _ :: _ :: _ => rw [hr] at this; simp at this
  exact key _ (fun e he => (h e (List.mem_of_mem_filter he)).2)

theorem mem_meaningReadings {es : List Entry} (h : LineLike es) {w r : Str} :
    r ∈ Spec.meaningReadings es w ↔ ∃ e ∈ es, e.word = w ∧ e.readings = [r] := by
  unfold Spec.meaningReadings
  simp only [List.mem_flatMap, List.mem_filter, decide_eq_true_eq, List.mem_map]
  constructor
  · rintro ⟨e, ⟨he, hw⟩, s, _, hs⟩
    obtain ⟨q, hq⟩ := lineLike_reading h he
    rw [hq] at hs
    exact ⟨e, he, hw, by rw [hq, ← hs]; rfl⟩
  · rintro ⟨e, he, hw, hr⟩
    obtain ⟨s, hs⟩ := List.exists_mem_of_ne_nil _ (h e he).1
    exact ⟨e, ⟨he, hw⟩, s, hs, by rw [hr]; rfl⟩

theorem common_some {l : List Str} {r : Str} : Spec.senseReading.common l = some r ↔ l ≠ [] ∧ ∀ x ∈ l, x = r := by
  cases l with
  | nil => simp [Spec.senseReading.common]
  | cons a l =>
    simp only [Spec.senseReading.common]
    by_cases h : l.all (· == a)
    · rw [if_pos h]
      simp only [List.all_eq_true, beq_iff_eq] at h
      simp only [Option.some.injEq, ne_eq, reduceCtorEq, not_false_eq_true, List.mem_cons, forall_eq_or_imp, true_and]
      constructor
      · rintro rfl; exact ⟨rfl, h⟩
      · exact fun h => h.1
    · rw [if_neg h]
      simp only [List.all_eq_true, beq_iff_eq] at h
      simp only [reduceCtorEq, ne_eq, not_false_eq_true, List.mem_cons, forall_eq_or_imp, true_and, false_iff]
      rintro ⟨rfl, h'⟩
      exact h h'

theorem common_only {es : List Entry} (h : LineLike es) {w r : Str} :
    Spec.senseReading.common (Spec.meaningReadings es w) = some r ↔ Spec.OnlyReading es w r := by
  rw [common_some]
  constructor
  · rintro ⟨hne, hall⟩
    obtain ⟨x, hx⟩ := List.exists_mem_of_ne_nil _ hne
    obtain ⟨e, he, hw, _⟩ := (mem_meaningReadings h).1 hx
    refine ⟨⟨e, he, hw⟩, ?_⟩
    intro e' he' hw'
    obtain ⟨q, hq⟩ := lineLike_reading h he'
    rw [hq, hall q ((mem_meaningReadings h).2 ⟨e', he', hw', hq⟩)]
  · rintro ⟨⟨e, he, hw⟩, hall⟩
    refine ⟨List.ne_nil_of_mem ((mem_meaningReadings h).2 ⟨e, he, hw, hall e he hw⟩), ?_⟩
    intro x hx
    obtain ⟨e', he', hw', hr'⟩ := (mem_meaningReadings h).1 hx
    rw [hall e' he' hw'] at hr'
    cases hr'; rfl

theorem meaningReadings_append (es es' : List Entry) (w : Str) :
    Spec.meaningReadings (es ++ es') w = Spec.meaningReadings es w ++ Spec.meaningReadings es' w := by
  simp [Spec.meaningReadings]

theorem meaningReadings_none {es : List Entry} {w : Str} (h : ∀ e ∈ es, e.word ≠ w) : Spec.meaningReadings es w = [] := by
  unfold Spec.meaningReadings
  rw [List.filter_eq_nil_iff.2 (by intro e he; simpa using h e he)]
  rfl

theorem last_line {es : List Entry} {w : Str} (h : ∃ e ∈ es, e.word = w) :
    ∃ pre e post, es = pre ++ e :: post ∧ e.word = w ∧ ∀ x ∈ post, x.word ≠ w := by
  induction es with
  | nil => obtain ⟨_, h, _⟩ := h; cases h
  | cons e es ih =>
    by_cases h' : ∃ e ∈ es, e.word = w
    · obtain ⟨pre, x, post, rfl, h1, h2⟩ := ih h'
      exact ⟨e :: pre, x, post, rfl, h1, h2⟩
    · refine ⟨[], e, es, rfl, ?_, fun x hx hw => h' ⟨x, hx, hw⟩⟩
      obtain ⟨x, hx, hw⟩ := h
      cases hx with
      | head => exact hw
      | tail _ hx => exact absurd ⟨x, hx, hw⟩ h'

theorem getLast_line {pre : List Entry} {e : Entry} {post : List Entry} (h : LineLike (pre ++ e :: post)) {w r : Str} (hw : e.word = w)
    (hp : ∀ x ∈ post, x.word ≠ w) (hr : e.readings = [r]) : (Spec.meaningReadings (pre ++ e :: post) w).getLast? = some r := by
  have h1 : Spec.meaningReadings (pre ++ e :: post) w = Spec.meaningReadings pre w ++ e.senses.map (fun _ => r) := by
    rw [show pre ++ e :: post = pre ++ ([e] ++ post) from rfl, meaningReadings_append, meaningReadings_append, meaningReadings_none hp,
      List.append_nil]
    congr 1
    simp [Spec.meaningReadings, hw, hr]
  rw [h1]
  have hs := (h e (by simp)).1
  rw [List.getLast?_append_of_ne_nil _ (by simpa using hs)]
  rw [List.map_const']
  rw [List.getLast?_replicate]
  rw [if_neg (by simpa using hs)]

theorem senseReading_inFile {es : List Entry} (h : LineLike es) (w : Str) (s : Option Int) (hs : ∀ i, s = some i → 0 ≤ i) (r : Str) :
    Spec.senseReading (s.map Int.toNat) (Spec.meaningReadings es w) = some r ↔ Spec.ReadingInFile es w s r := by
  cases s with
  | none =>
    show Spec.senseReading.common _ = _ ↔ _
    rw [common_only h]
    exact ⟨fun h => .missing r h, fun h => by cases h; assumption⟩
  | some i =>
    have hi := hs i rfl
    obtain ⟨n, rfl⟩ := Int.eq_ofNat_of_zero_le hi
    rw [show (some (n : Int)).map Int.toNat = some n from rfl]
    cases n with
    | zero =>
      show (Spec.meaningReadings es w).getLast? = some r ↔ _
      constructor
      · intro hl
        have hm : r ∈ Spec.meaningReadings es w := List.mem_of_getLast? hl
        obtain ⟨x, hx, hxw, _⟩ := (mem_meaningReadings h).1 hm
        obtain ⟨pre, e, post, rfl, h1, h2⟩ := last_line ⟨x, hx, hxw⟩
        obtain ⟨q, hq⟩ := lineLike_reading h (e := e) (by simp)
        rw [getLast_line h h1 h2 hq] at hl
        cases hl
        exact .zero pre e post r rfl h1 h2 hq
      · intro hr
        generalize hz : (some ((0 : Nat) : Int)) = z at hr
        cases hr with
        | numbered n _ _ => cases hz; 
        | zero pre e post _ h0 h1 h2 h3 => subst h0; exact getLast_line h h1 h2 h3
        | large n _ hn _ =>
          have : (0 : Int) = (n : Int) := Option.some.inj hz
          omega
        | missing _ _ => cases hz
    | succ n =>
      show (if n < (Spec.meaningReadings es w).length then (Spec.meaningReadings es w)[n]? else Spec.senseReading.common _) = some r ↔ _
      by_cases hn : n < (Spec.meaningReadings es w).length
      · rw [if_pos hn]
        constructor
        · exact fun hr => .numbered n r hr
        · intro hr
          generalize hz : (some ((n + 1 : Nat) : Int)) = z at hr
          cases hr with
          | numbered m _ hm =>
            have : ((n + 1 : Nat) : Int) = (m : Int) + 1 := Option.some.inj hz
            have : n = m := by omega
            subst this; exact hm
          | zero pre e post _ _ _ _ _ =>
            have : ((n + 1 : Nat) : Int) = 0 := Option.some.inj hz
            omega
          | large m _ hm _ =>
            have : ((n + 1 : Nat) : Int) = (m : Int) := Option.some.inj hz
            omega
          | missing _ _ => cases hz
      · rw [if_neg hn, common_only h]
        constructor
        · exact fun hr => .large (n + 1) r (by omega) hr
        · intro hr
          generalize hz : (some ((n + 1 : Nat) : Int)) = z at hr
          cases hr with
          | numbered m _ hm =>
            have : ((n + 1 : Nat) : Int) = (m : Int) + 1 := Option.some.inj hz
            have : n = m := by omega
            subst this
            rw [List.getElem?_eq_none (by omega)] at hm
            cases hm
          | zero pre e post _ _ _ _ _ =>
            have : ((n + 1 : Nat) : Int) = 0 := Option.some.inj hz
            omega
          | large m _ _ ho => exact ho
          | missing _ _ => cases hz

theorem senseReading_replicate (s : Option Nat) (n : Nat) (hn : n ≠ 0) (r : Str) : Spec.senseReading s (List.replicate n r) = some r := by
  have hc : Spec.senseReading.common (List.replicate n r) = some r := by
    rw [common_some]
    exact ⟨by simpa using hn, fun x hx => List.eq_of_mem_replicate hx⟩
  cases s with
  | none => exact hc
  | some i =>
    cases i with
    | zero => show (List.replicate n r).getLast? = _; rw [List.getLast?_replicate, if_neg hn]
    | succ i =>
      show (if i < (List.replicate n r).length then (List.replicate n r)[i]? else _) = _
      by_cases h : i < (List.replicate n r).length
      · rw [if_pos h, List.getElem?_eq_getElem h, List.getElem_replicate]
      · rw [if_neg h]; exact hc

/-- The entry of a word answers as the meanings of its lines do. -/
theorem merged_sense {es : List Entry} (h : LineLike es) {w : Str} {e : Entry} (hm : Spec.merged es w = some e) (s : Option Nat) :
    e.readings ≠ [] ∧ Spec.senseReading s e.readings = Spec.senseReading s (Spec.meaningReadings es w) := by
  have hal : ∀ e ∈ es, Spec.Aligned e := fun e he => Or.inl (h e he).2
  have hp := Spec.merged_padded hal hm
  rw [meaningReadings_padded h, ← hp]
  have hsn : e.senses ≠ [] := by
    rw [Spec.merged_senses hm]
    intro h0
    rw [List.flatMap_eq_nil_iff] at h0
    have : ∃ x ∈ es, x.word = w := by
      apply Classical.byContradiction
      intro hx
      have : Spec.merged es w = none := Spec.merged_eq_none.2 (fun x hx' hw => hx ⟨x, hx', hw⟩)
      rw [this] at hm; cases hm
    obtain ⟨x, hx, hxw⟩ := this
    exact (h x hx).1 (h0 x (List.mem_filter.2 ⟨hx, by simpa using hxw⟩))
  rw [← Spec.readingsPerSense_eq]
  unfold Spec.readingsPerSense
  have hmal := merged_aligned hal hm
  match hr : e.readings with
  | [] =>
    rcases hmal with h1 | h1
    · rw [hr] at h1; cases h1
    · rw [hr] at h1
      exact absurd (List.length_eq_zero_iff.1 h1.symm) hsn
  | [q] =>
    refine ⟨by simp, ?_⟩
    rw [senseReading_replicate s _ (by simpa using hsn)]
    exact senseReading_replicate s 1 (by simp) q
  | _ :: _ :: _ => exact ⟨by simp, rfl⟩

theorem get?_readingsOf (d : Dict Str Entry) (w : Str) : Dict.get? (readingsOf d) w = (Dict.get? d w).map Entry.readings := by
  induction d with
  | nil => rfl
  | cons p d ih =>
    obtain ⟨k, v⟩ := p
    show Dict.get? ((k, v.readings) :: readingsOf d) w = _
    by_cases hk : k = w
    · simp [Dict.get?, hk]
    · simpa [Dict.get?, hk] using ih

/-! ### Loaded dictionaries -/

theorem mapE_source {α β : Type} {f : α → Except PyErr β} {l : List α} {r : List β} (h : mapE f l = .ok r) : ∀ b ∈ r, ∃ a ∈ l, f a = .ok b := by
  induction l generalizing r with
  | nil => cases h; intro b hb; cases hb
  | cons a l ih =>
    simp only [mapE, bind, Except.bind] at h
    cases ha : f a with
    | error e => rw [ha] at h; cases h
    | ok b =>
      rw [ha] at h
      cases hl : mapE f l with
      | error e => rw [hl] at h; cases h
      | ok bs =>
        rw [hl] at h
        cases h
        intro c hc
        cases hc with
        | head => exact ⟨a, by simp, ha⟩
        | tail _ hc =>
          obtain ⟨x, hx, hxc⟩ := ih hl c hc
          exact ⟨x, by simp [hx], hxc⟩

/-- A file that loads gives, for some entries as lines give them, what merging them gives. -/
theorem loaded_lines {lines : List Str} {d : Dict Str Entry} (h : loadDictionary lines = .ok d) :
    ∃ es, LineLike es ∧ ∀ w, Dict.get? d w = Spec.merged es w := by
  cases lines with
  | nil => cases h
  | cons hd ls =>
    have h : (do let f ← detectFormat hd; parseDictionary f.parseLine ls) = .ok d := h
    cases hf : detectFormat hd with
    | error e => rw [hf] at h; cases h
    | ok f =>
      rw [hf] at h
      have h : parseDictionary f.parseLine ls = .ok d := h
      cases hm : mapE f.parseLine ls with
      | ok es =>
        obtain ⟨d', h1, _, h3⟩ := C30_merge f.parseLine (parseLine_aligned f) ls es hm
        rw [h] at h1
        cases h1
        refine ⟨es, ?_, h3⟩
        intro e he
        obtain ⟨l, _, hl⟩ := mapE_source hm e he
        exact C31_never_empty f l e hl
      | error x =>
        have := (C30_error f.parseLine (parseLine_aligned f) ls x).2 (mapE_error_iff.1 hm)
        rw [this] at h; cases h

theorem loaded_hasReadings {lines : List Str} {d : Dict Str Entry} (h : loadDictionary lines = .ok d) : Spec.HasReadings (readingsOf d) := by
  obtain ⟨es, hl, hg⟩ := loaded_lines h
  intro w rs hw
  rw [get?_readingsOf, hg] at hw
  cases hm : Spec.merged es w with
  | none => rw [hm] at hw; cases hw
  | some e =>
    rw [hm] at hw
    cases hw
    exact (merged_sense hl hm none).1

theorem filled_fromFile {es : List Entry} (h : LineLike es) {d : Dict Str Entry} (hg : ∀ w, Dict.get? d w = Spec.merged es w) (w : Tanaka)
    (hw : ∀ i, w.sense = some i → 0 ≤ i) : Spec.ReadFromFile es w (Spec.filled [readingsOf d] w) := by
  refine ⟨rfl, ?_⟩
  have hgv : ∀ r, Spec.given w (readingsOf d) = some r ↔ Spec.ReadingInFile es w.headword w.sense r ∧ r ≠ w.headword := by
    intro r
    unfold Spec.given
    rw [get?_readingsOf, hg]
    rw [← senseReading_inFile h w.headword w.sense hw]
    cases hm : Spec.merged es w.headword with
    | none =>
      rw [meaningReadings_none (Spec.merged_eq_none.1 hm)]
      simp only [Option.map_none, reduceCtorEq, false_iff, not_and]
      intro hs
      exfalso
      revert hs
      rcases w.sense.map Int.toNat with _ | _ | n <;> simp [Spec.senseReading, Spec.senseReading.common]
    | some e =>
      simp only [Option.map_some]
      rw [(merged_sense h hm _).2]
      cases Spec.senseReading (w.sense.map Int.toNat) (Spec.meaningReadings es w.headword) with
      | none => simp
      | some q =>
        simp only
        by_cases hq : q = w.headword
        · rw [if_pos hq]
          simp only [reduceCtorEq, Option.some.injEq, false_iff, not_and, Classical.not_not]
          rintro rfl; exact hq
        · rw [if_neg hq]
          simp only [Option.some.injEq, iff_self_and]
          rintro rfl; exact hq
  cases hr : w.reading with
  | some r => simp [Spec.filled, hr]
  | none =>
    intro r
    rw [← hgv r]
    simp [Spec.filled, hr]

/-! ### Loaded indices -/

theorem indexRows_senses (subset : Option (List Int)) (rows : List (List Str)) :
    ∀ d d' : IndexData, (∀ p ∈ d.sent, Spec.SensesOk p.2) → indexRows none subset d rows = .ok d' → ∀ p ∈ d'.sent, Spec.SensesOk p.2 := by
  induction rows with
  | nil => intro d d' h hd; cases hd; exact h
  | cons row rows ih =>
    intro d d' h hd
    rw [indexRows] at hd
    cases hr : indexRow none subset d row with
    | error x => rw [hr] at hd; cases hd
    | ok d1 =>
      rw [hr] at hd
      refine ih d1 d' ?_ hd
      have enter : ∀ i m text d1, indexEnter none d i m text = .ok d1 → ∀ p ∈ d1.sent, Spec.SensesOk p.2 := by
        intro i m text d1 he
        unfold indexEnter at he
        cases hp : parseSentence text with
        | error x => rw [hp] at he; cases he
        | ok ws =>
          rw [hp] at he
          cases he
          intro p hp'
          rcases mem_set_dict hp' with h1 | h1
          · exact h p h1
          · rw [h1]; exact parseWords_sense hp
      match row, hr with
      | [], hr => cases hr
      | [_], hr => cases hr
      | [_, _], hr => cases hr
      | _ :: _ :: _ :: _ :: _, hr => cases hr
      | [a, b, text], hr =>
        unfold indexRow at hr
        simp only at hr
        cases ha : pyInt 10 a with
        | error e => rw [ha] at hr; cases hr
        | ok i =>
          cases hb : pyInt 10 b with
          | error e => rw [ha, hb] at hr; cases hr
          | ok m =>
            rw [ha, hb] at hr
            cases subset with
            | none => exact enter i m text d1 hr
            | some ids =>
              simp only at hr
              by_cases hi : i ∈ ids
              · rw [if_pos hi] at hr; exact enter i m text d1 hr
              · rw [if_neg hi] at hr; cases hr; exact h

theorem indexLoad_senses {subset : Option (List Int)} {rows : Rows} {d : IndexData} (h : indexLoad none subset rows = .ok d) :
    ∀ p ∈ d.sent, Spec.SensesOk p.2 := by
  unfold indexLoad at h
  cases hr : indexRows none subset ⟨[], []⟩ rows.1 with
  | error x => rw [hr] at h; cases h
  | ok d' =>
    rw [hr] at h
    cases h2 : rows.2 with
    | some x => rw [h2] at h; cases h
    | none =>
      rw [h2] at h
      cases h
      exact indexRows_senses subset rows.1 ⟨[], []⟩ d (by intro p hp; cases hp) hr

/-! ### The theorems -/

/-- C152: an index reader with a dictionary that was loaded from a file raises what loading the dictionary raises; else, what it raises
without dictionary: no dictionary file makes an index unreadable. -/
theorem C152_raises (lines : List Str) (subset : Option (List Int)) (rows : Rows) (x : PyErr) :
    indexWithFile lines subset rows = .error x ↔
      loadDictionary lines = .error x ∨ ((∃ d, loadDictionary lines = .ok d) ∧ Spec.firstProblem (Spec.indexProblem subset) rows = some x) := by
  unfold indexWithFile
  cases h : loadDictionary lines with
  | error y => simp
  | ok d =>
    simp only [reduceCtorEq, Except.ok.injEq, exists_eq', true_and, false_or]
    exact C98_indices (fun d' hd' => by cases hd'; exact loaded_hasReadings h) rows x

/-- C152: with a readable dictionary file the reader holds the sentences that it holds without dictionary, and each word of each has the reading
that the lines of the file give for its sense number. -/
theorem C152_readings (name h : Str) (hh : Spec.isHeader name h) (ls : List Str) (es : List Entry)
    (hes : ls.map (Spec.lineReader name) = es.map .ok) (subset : Option (List Int)) (rows : Rows) (d : IndexData)
    (hd : indexLoad none subset rows = .ok d) :
    ∃ d', indexWithFile (h :: ls) subset rows = .ok d' ∧ d'.link = d.link ∧ Dict.keys d'.sent = Dict.keys d.sent ∧
      ∀ i ws, Dict.get? d.sent i = some ws → ∃ ws', Dict.get? d'.sent i = some ws' ∧ ws'.length = ws.length ∧
        ∀ (k : Nat) w w', ws[k]? = some w → ws'[k]? = some w' → Spec.ReadFromFile es w w' := by
  obtain ⟨f, hf, rfl⟩ := isHeader_known hh
  have hp : ls.map f.parseLine = es.map .ok := by
    rw [← hes]; exact List.map_congr_left (fun l _ => parseLine_eq_reader f hf l)
  obtain ⟨_, dict, hdict, _, hg⟩ := C34_agrees_with_iter h ls f hf hh es (mapE_of_map hp)
  have hl : LineLike es := by
    intro e he
    have : Except.ok e ∈ ls.map f.parseLine := by rw [hp]; exact List.mem_map_of_mem he
    obtain ⟨l, _, hl⟩ := List.mem_map.1 this
    exact C31_never_empty f l e hl
  obtain ⟨d', h1, h2, h3⟩ := (C146_dictionary (readingsOf dict) (loaded_hasReadings hdict) subset rows).2 d hd
  refine ⟨d', ?_, h2, ?_, ?_⟩
  · unfold indexWithFile
    rw [hdict]
    exact h1
  · rw [h3]
    simp [Dict.keys, Function.comp_def]
  · intro i ws hws
    refine ⟨ws.map (Spec.filled [readingsOf dict]), ?_, by simp, ?_⟩
    · rw [h3]
      clear h3 h2 h1 hd
      generalize d.sent = s at hws
      induction s with
      | nil => cases hws
      | cons p s ih =>
        obtain ⟨k, v⟩ := p
        by_cases hk : k = i
        · simp [Dict.get?, hk] at hws ⊢
          rw [hws]
        · simp [Dict.get?, hk] at hws ⊢
          exact ih hws
    · intro k w w' hw hw'
      rw [List.getElem?_map, hw] at hw'
      cases hw'
      exact filled_fromFile hl hg w (indexLoad_senses hd (i, ws) (Dict.mem_of_get?_eq_some hws) w (List.mem_of_getElem? hw))

/-! ### Cases -/

/-- An EDICT file with a word that has two readings, and rows of an index: the hypotheses are met. -/
example : Spec.isHeader u!"edict" u!"　？？？ /EDICT/\n" ∧
    [u!"人気 [にんき] /popularity/public favor/\n", u!"家 [いえ] /house/\n", u!"人気 [ひとけ] /sign of life/\n"].map (Spec.lineReader u!"edict") =
      [⟨u!"人気", [u!"にんき"], [u!"popularity", u!"public favor"]⟩, ⟨u!"家", [u!"いえ"], [u!"house"]⟩, ⟨u!"人気", [u!"ひとけ"], [u!"sign of life"]⟩].map
        Except.ok ∧
    (indexLoad none none ([[u!"1", u!"2", u!"人気[3] 人気[02] 人気 家[7]"]], none)).toOption.isSome := by
  refine ⟨Or.inl ⟨rfl, c!"　", u!" /EDICT/\n", rfl, by decide, u!" /EDICT/", true, rfl, by decide⟩, by decide +kernel, by decide +kernel⟩

/-- What the reader then holds: the third meaning is that of the second line; without number there is no reading; a word with one line has its
reading with every number. -/
example : (indexWithFile [u!"　？？？ /EDICT/\n", u!"人気 [にんき] /popularity/public favor/\n", u!"家 [いえ] /house/\n", u!"人気 [ひとけ] /sign of life/\n"] none
      ([[u!"1", u!"2", u!"人気[3] 人気[02] 人気 家[7]"]], none)).toOption.map (fun d => d.sent.map (fun p => p.2.map Tanaka.reading)) =
    some [[some u!"ひとけ", some u!"にんき", none, some u!"いえ"]] := by decide +kernel

end Cjk
