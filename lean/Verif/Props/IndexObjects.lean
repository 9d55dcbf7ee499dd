import Verif.Spec.IndexObjects
import Verif.Props.TatoebaErrors
/-!
# Dictionaries and filters that an index reader is given later (C146)
-/

namespace Cjk
open Py

theorem dedup_one (x : Str) (rs : List Str) : (dedup (x :: rs)).length = 1 ↔ ∀ y ∈ rs, y = x := by
  rw [dedup, List.length_cons]
  constructor
  · intro h y hy
    have h0 : (dedup rs).filter (· ≠ x) = [] := List.eq_nil_of_length_eq_zero (by omega)
    rw [List.filter_eq_nil_iff] at h0
    have := h0 y (mem_dedup.2 hy)
    simpa using this
  · intro h
    have : (dedup rs).filter (· ≠ x) = [] := by
      rw [List.filter_eq_nil_iff]
      intro y hy
      simp [h y (mem_dedup.1 hy)]
    rw [this]; rfl

theorem common_eq (x : Str) (rs : List Str) :
    (if (dedup (x :: rs)).length = 1 then (getItemI (x :: rs) 0).map some else .ok none) = Except.ok (ε := PyErr) (Spec.senseReading.common (x :: rs)) := by
  have hg : getItemI (x :: rs) 0 = .ok x := rfl
  by_cases h : (dedup (x :: rs)).length = 1
  · rw [if_pos h, hg]
    have := (dedup_one x rs).1 h
    simp only [Spec.senseReading.common]
    rw [if_pos (by simpa using this)]
    rfl
  · rw [if_neg h]
    simp only [Spec.senseReading.common]
    rw [if_neg (fun hc => h ((dedup_one x rs).2 (by simpa using hc)))]

theorem findReading_sense (sense : Option Int) (hs : ∀ i, sense = some i → 0 ≤ i) (rs : List Str) (hr : rs ≠ []) :
    findReading sense rs = .ok (Spec.senseReading (sense.map Int.toNat) rs) := by
  obtain ⟨x, rs', rfl⟩ := List.exists_cons_of_ne_nil hr
  cases sense with
  | none => exact common_eq x rs'
  | some i =>
    obtain ⟨n, rfl⟩ := Int.eq_ofNat_of_zero_le (hs i rfl)
    unfold findReading
    simp only [Option.map_some, Int.toNat_natCast]
    cases n with
    | zero =>
      rw [if_pos (by simp only [List.length_cons]; omega)]
      simp only [Spec.senseReading]
      have : getItemI (x :: rs') (((0 : Nat) : Int) - 1) = Py.getItem (x :: rs') rs'.length := by
        unfold getItemI
        rw [if_neg (by omega), if_pos (by simp only [List.length_cons]; omega)]
        congr 1
        simp only [List.length_cons]
        omega
      rw [this]
      unfold Py.getItem
      have hl : (x :: rs')[rs'.length]? = (x :: rs').getLast? := by
        rw [List.getLast?_eq_getElem?]; simp
      rw [hl]
      cases hx : (x :: rs').getLast? with
      | none => simp at hx
      | some y => rfl
    | succ n =>
      simp only [Spec.senseReading]
      by_cases h : n < (x :: rs').length
      · rw [if_pos h, if_pos (by omega)]
        have : getItemI (x :: rs') (((n + 1 : Nat) : Int) - 1) = Py.getItem (x :: rs') n := by
          unfold getItemI
          rw [if_pos (by omega)]
          congr 1
          omega
        rw [this]
        unfold Py.getItem
        cases hx : (x :: rs')[n]? with
        | none => rw [List.getElem?_eq_none_iff] at hx; omega
        | some y => rfl
      · rw [if_neg h, if_neg (by omega)]
        exact common_eq x rs'

theorem adjustWord_filled (d : Dict Str (List Str)) (hd : Spec.HasReadings d) (w : Tanaka) (hw : ∀ i, w.sense = some i → 0 ≤ i) :
    adjustWord d w = .ok (Spec.filled [d] w) := by
  unfold adjustWord Spec.filled
  simp only [List.findSome?_cons, List.findSome?_nil]
  unfold Spec.given
  cases he : Dict.get? d w.headword with
  | none => simp only; cases w; simp
  | some rs =>
    simp only
    cases hr : w.reading with
    | some r =>
      simp only [Option.some_or]
      cases w
      simp only at hr
      subst hr
      rfl
    | none =>
      simp only [findReading_sense w.sense hw rs (hd _ _ he), Option.none_or]
      cases hs : Spec.senseReading (w.sense.map Int.toNat) rs with
      | none =>
        simp
      | some r =>
        by_cases hh : r = w.headword
        · subst hh
          simp only [ne_eq, not_true, if_false, if_true]
          cases w
          simp only at hr
          subst hr
          rfl
        · simp [hh]

/-- C146: looking up all words of a sentence in a dictionary fills in the readings it gives. -/
theorem C146_words (d : Dict Str (List Str)) (hd : Spec.HasReadings d) (ws : List Tanaka) (hw : Spec.SensesOk ws) :
    adjustInPlace d ws = (ws.map (Spec.filled [d]), none) := by
  induction ws with
  | nil => rfl
  | cons w ws ih =>
    rw [adjustInPlace, adjustWord_filled d hd w (hw w (by simp)), ih (fun v hv => hw v (by simp [hv]))]
    rfl

theorem filled_filled (ds es : List (Dict Str (List Str))) (w : Tanaka) : Spec.filled es (Spec.filled ds w) = Spec.filled (ds ++ es) w := by
  have hg : Spec.given (Spec.filled ds w) = Spec.given w := rfl
  unfold Spec.filled
  simp only [List.findSome?_append, Option.or_assoc]
  rfl

theorem filled_nil (w : Tanaka) : Spec.filled [] w = w := by
  cases w; simp [Spec.filled]

theorem filled_same (d : Dict Str (List Str)) (ds : List (Dict Str (List Str))) (hne : ds ≠ []) (h : ∀ e ∈ ds, e = d) (w : Tanaka) :
    Spec.filled ds w = Spec.filled [d] w := by
  unfold Spec.filled
  congr 2
  induction ds with
  | nil => exact absurd rfl hne
  | cons e ds ih =>
    rw [h e (by simp)]
    simp only [List.findSome?_cons, List.findSome?_nil]
    cases hg : Spec.given w d with
    | some r => rfl
    | none =>
      simp only
      rcases ds with _ | ⟨e', ds⟩
      · rfl
      · rw [ih (by simp) (fun x hx => h x (by simp [hx]))]
        simp [hg]

theorem sensesOk_filled {ws : List Tanaka} (h : Spec.SensesOk ws) (ds : List (Dict Str (List Str))) : Spec.SensesOk (ws.map (Spec.filled ds)) := by
  intro w hw i hi
  obtain ⟨v, hv, rfl⟩ := List.mem_map.1 hw
  exact h v hv i hi

/-! ### Assignments of files -/

/-- The words of list `a` among `lists`. -/
def wordsAt (lists : List (List Tanaka)) (p : Int × Nat) : Int × List Tanaka := (p.1, lists.getD p.2 [])

theorem set_wordsAt (lists : List (List Tanaka)) (s : Dict Int Nat) (i : Int) (a : Nat) :
    (Dict.set s i a).map (wordsAt lists) = Dict.set (s.map (wordsAt lists)) i (lists.getD a []) := by
  induction s with
  | nil => rfl
  | cons p s ih =>
    obtain ⟨k, b⟩ := p
    simp only [Dict.set, List.map_cons, wordsAt]
    by_cases h : k = i
    · simp [h, wordsAt]
    · rw [if_neg h, if_neg h, List.map_cons, ih]
      rfl

theorem mem_dict_set {s : Dict Int Nat} {i : Int} {a : Nat} {p : Int × Nat} (h : p ∈ Dict.set s i a) : p.2 = a ∨ p ∈ s := by
  induction s with
  | nil =>
    rw [Dict.set, List.mem_singleton] at h
    exact Or.inl (by rw [h])
  | cons q s ih =>
    rw [Dict.set] at h
    split at h
    · rcases List.mem_cons.1 h with rfl | h
      · exact Or.inl rfl
      · exact Or.inr (List.mem_cons_of_mem _ h)
    · rcases List.mem_cons.1 h with rfl | h
      · exact Or.inr (by simp)
      · rcases ih h with h | h
        · exact Or.inl h
        · exact Or.inr (List.mem_cons_of_mem _ h)

/-- The objects that a setter has made so far show the values `d`; the lists `old` were there before. -/
structure Filling (old : List (List Tanaka)) (f : IndexFill) (d : IndexData) : Prop where
  sent : f.sent.map (wordsAt f.lists) = d.sent
  link : f.link = d.link
  new : ∃ made, f.lists = old ++ made ∧ ∀ ws ∈ made, Spec.SensesOk ws
  fresh : ∀ p ∈ f.sent, old.length ≤ p.2 ∧ p.2 < f.lists.length
  own : ∀ i j a, Dict.get? f.sent i = some a → Dict.get? f.sent j = some a → i = j

/-- Both raise the same exception, or both go on. -/
def SameFill (old : List (List Tanaka)) : Except PyErr IndexFill → Except PyErr IndexData → Prop
  | .error e, .error e' => e = e'
  | .ok f, .ok d => Filling old f d
  | _, _ => False

theorem adjustInPlace_words (d : Dict Str (List Str)) (ws : List Tanaka) :
    adjustWords d ws = match adjustInPlace d ws with
      | (ws', none) => .ok ws'
      | (_, some e) => .error e := by
  induction ws with
  | nil => rfl
  | cons w ws ih =>
    rw [adjustWords, adjustInPlace]
    cases adjustWord d w with
    | error e => rfl
    | ok x =>
      simp only
      rw [ih]
      rcases adjustInPlace d ws with ⟨ws', _ | e⟩ <;> rfl

theorem sensesOk_adjusted {d : Dict Str (List Str)} {ws ws' : List Tanaka} {o : Option PyErr} (h : Spec.SensesOk ws) (ha : adjustInPlace d ws = (ws', o)) :
    Spec.SensesOk ws' := by
  induction ws generalizing ws' with
  | nil => cases ha; exact h
  | cons w ws ih =>
    rw [adjustInPlace] at ha
    cases hw : adjustWord d w with
    | error e => rw [hw] at ha; cases ha; exact h
    | ok x =>
      rw [hw] at ha
      rcases e : adjustInPlace d ws with ⟨xs, o'⟩
      rw [e] at ha
      cases ha
      intro v hv i hi
      rcases List.mem_cons.1 hv with rfl | hv
      · exact h w (by simp) i ((adjustWord_spec hw).1.2.1 ▸ hi)
      · exact ih (fun u hu => h u (by simp [hu])) e v hv i hi

theorem filling_enter {old : List (List Tanaka)} {f : IndexFill} {d : IndexData} (hf : Filling old f d) (i m : Int) (ws : List Tanaka)
    (hw : Spec.SensesOk ws) :
    Filling old ⟨f.lists ++ [ws], Dict.set f.sent i f.lists.length, Dict.set f.link i m⟩ ⟨Dict.set d.sent i ws, Dict.set d.link i m⟩ where
  sent := by
    show (Dict.set f.sent i f.lists.length).map (wordsAt (f.lists ++ [ws])) = Dict.set d.sent i ws
    rw [set_wordsAt, ← hf.sent]
    congr 1
    · apply List.map_congr_left
      intro p hp
      simp only [wordsAt, List.getD_eq_getElem?_getD]
      rw [List.getElem?_append_left (hf.fresh p hp).2]
    · simp
  link := by simp only [hf.link]
  new := by
    obtain ⟨made, h1, h2⟩ := hf.new
    refine ⟨made ++ [ws], by simp [h1], ?_⟩
    intro v hv
    rcases List.mem_append.1 hv with hv | hv
    · exact h2 v hv
    · rw [List.mem_singleton] at hv
      rw [hv]; exact hw
  fresh := by
    obtain ⟨made, h1, h2⟩ := hf.new
    have hlen : old.length ≤ f.lists.length := by rw [h1]; simp
    intro p hp
    simp only [List.length_append, List.length_singleton]
    rcases mem_dict_set hp with h | h
    · omega
    · have := hf.fresh p h
      omega
  own := by
    intro j k a hj hk
    simp only [Dict.get?_set] at hj hk
    have lt : ∀ l, Dict.get? f.sent l = some a → a < f.lists.length := fun l hl => (hf.fresh _ (Dict.mem_of_get?_eq_some hl)).2
    by_cases h1 : i = j
    · rw [if_pos h1] at hj
      by_cases h2 : i = k
      · rw [← h1, h2]
      · rw [if_neg h2] at hk
        cases hj
        exact absurd (lt k hk) (by omega)
    · rw [if_neg h1] at hj
      by_cases h2 : i = k
      · rw [if_pos h2] at hk
        cases hk
        exact absurd (lt j hj) (by omega)
      · rw [if_neg h2] at hk
        exact hf.own j k a hj hk

theorem sameFill_enter {old : List (List Tanaka)} {f : IndexFill} {d : IndexData} (hf : Filling old f d) (edict : Option (Dict Str (List Str)))
    (i m : Int) (text : Str) : SameFill old (fillEnter edict f i m text) (indexEnter edict d i m text) := by
  unfold fillEnter indexEnter
  cases hp : parseSentence text with
  | error e => rfl
  | ok ws =>
    have hs : Spec.SensesOk ws := parseWords_sense hp
    simp only
    cases edict with
    | none => exact filling_enter hf i m ws hs
    | some e =>
      simp only [adjustDetails, adjustInPlace_words]
      rcases ha : adjustInPlace e ws with ⟨ws', _ | x⟩
      · exact filling_enter hf i m ws' (sensesOk_adjusted hs ha)
      · rfl

theorem sameFill_row {old : List (List Tanaka)} {f : IndexFill} {d : IndexData} (hf : Filling old f d) (edict : Option (Dict Str (List Str)))
    (subset : Option (List Int)) (row : List Str) : SameFill old (fillRow edict subset f row) (indexRow edict subset d row) := by
  match row with
  | [] => rfl
  | [_] => rfl
  | [_, _] => rfl
  | _ :: _ :: _ :: _ :: _ => rfl
  | [a, b, text] =>
    unfold fillRow indexRow
    simp only
    cases pyInt 10 a with
    | error e => rfl
    | ok i =>
      cases pyInt 10 b with
      | error e => rfl
      | ok m =>
        cases subset with
        | none => exact sameFill_enter hf edict i m text
        | some ids =>
          simp only
          by_cases h : i ∈ ids
          · rw [if_pos h, if_pos h]; exact sameFill_enter hf edict i m text
          · rw [if_neg h, if_neg h]; exact hf

theorem sameFill_rows {old : List (List Tanaka)} (edict : Option (Dict Str (List Str))) (subset : Option (List Int)) (rows : List (List Str)) :
    ∀ {f : IndexFill} {d : IndexData}, Filling old f d → SameFill old (fillRows edict subset f rows) (indexRows edict subset d rows) := by
  induction rows with
  | nil => intro f d hf; exact hf
  | cons row rows ih =>
    intro f d hf
    have := sameFill_row hf edict subset row
    rw [fillRows, indexRows]
    cases h1 : fillRow edict subset f row with
    | error e =>
      cases h2 : indexRow edict subset d row with
      | error e' => rw [h1, h2] at this; exact this
      | ok d' => rw [h1, h2] at this; exact this.elim
    | ok f' =>
      cases h2 : indexRow edict subset d row with
      | error e' => rw [h1, h2] at this; exact this.elim
      | ok d' =>
        rw [h1, h2] at this
        exact ih this

theorem filling_start (old : List (List Tanaka)) : Filling old ⟨old, [], []⟩ ⟨[], []⟩ where
  sent := rfl
  link := rfl
  new := ⟨[], by simp, by simp⟩
  fresh := by simp
  own := by intro i j a h; cases h

/-- C146: an assignment of a file raises what it raises for a new reader with the dictionary and the set of ids in force now, and then the reader
answers as before.  If it does not raise, the reader answers like such a new reader; it answers with lists that did not exist before, a different one
for each id.  The lists that existed before are not changed in either case. -/
theorem C146_load (r : IndexObj) (src : Str) (rows : Rows) :
    (∀ e, indexLoad r.edict r.subset rows = .error e →
      (r.load src rows).2 = some e ∧ (r.load src rows).1.view = r.view ∧ ∀ i, (r.load src rows).1.item i = r.item i) ∧
    (∀ d, indexLoad r.edict r.subset rows = .ok d →
      (r.load src rows).2 = none ∧ (r.load src rows).1.view = d ∧
      (∀ i a, (r.load src rows).1.item i = .ok a → r.lists.length ≤ a ∧ a < (r.load src rows).1.lists.length) ∧
      ∀ i j a, (r.load src rows).1.item i = .ok a → (r.load src rows).1.item j = .ok a → i = j) ∧
    (∃ made, (r.load src rows).1.lists = r.lists ++ made ∧ ∀ ws ∈ made, Spec.SensesOk ws) ∧
    (r.load src rows).1.edict = r.edict ∧ (r.load src rows).1.subset = r.subset := by
  have key := sameFill_rows r.edict r.subset rows.1 (filling_start r.lists)
  unfold IndexObj.load indexLoad
  cases h1 : fillRows r.edict r.subset ⟨r.lists, [], []⟩ rows.1 with
  | error e =>
    cases h2 : indexRows r.edict r.subset ⟨[], []⟩ rows.1 with
    | ok d => rw [h1, h2] at key; exact key.elim
    | error e' =>
      rw [h1, h2] at key
      have key : e = e' := key
      subst key
      refine ⟨?_, ?_, ⟨[], by simp, by simp⟩, rfl, rfl⟩
      · rintro x ⟨⟩
        exact ⟨rfl, rfl, fun _ => rfl⟩
      · intro d hd; cases hd
  | ok f =>
    cases h2 : indexRows r.edict r.subset ⟨[], []⟩ rows.1 with
    | error e => rw [h1, h2] at key; exact key.elim
    | ok d =>
      rw [h1, h2] at key
      have key : Filling r.lists f d := key
      cases hr : rows.2 with
      | some e =>
        refine ⟨?_, ?_, ⟨[], by simp, by simp⟩, rfl, rfl⟩
        · rintro x ⟨⟩
          exact ⟨rfl, rfl, fun _ => rfl⟩
        · intro d hd; cases hd
      | none =>
        refine ⟨(by intro e he; cases he), ?_, key.new, rfl, rfl⟩
        rintro x ⟨⟩
        have item : ∀ i a, Dict.getItem f.sent i = .ok a → Dict.get? f.sent i = some a := by
          intro i a h
          unfold Dict.getItem at h
          cases hg : Dict.get? f.sent i with
          | none => rw [hg] at h; cases h
          | some b => rw [hg] at h; cases h; rfl
        refine ⟨rfl, ?_, ?_, ?_⟩
        · show (⟨f.sent.map (wordsAt f.lists), f.link⟩ : IndexData) = d
          rw [key.sent, key.link]
        · intro i a h
          exact key.fresh _ (Dict.mem_of_get?_eq_some (item i a h))
        · intro i j a hi hj
          exact key.own i j a (item i a hi) (item j a hj)

/-! ### Programs -/

theorem words_append {lists made : List (List Tanaka)} {a : Nat} (h : a < lists.length) : (lists ++ made).getD a [] = lists.getD a [] := by
  simp only [List.getD_eq_getElem?_getD]
  rw [List.getElem?_append_left h]

theorem adjust_lists (r : IndexObj) (a : Nat) (hr : ∀ d, r.edict = some d → Spec.HasReadings d) (hw : Spec.SensesOk (r.words a)) :
    (r.adjust a).2 = none ∧ (r.adjust a).1 = { r with lists := r.lists.set a ((r.words a).map (Spec.filled r.edict.toList)) } := by
  unfold IndexObj.adjust
  cases he : r.edict with
  | none =>
    refine ⟨rfl, ?_⟩
    simp only [Option.toList_none]
    have : (r.words a).map (Spec.filled []) = r.words a := by
      rw [show Spec.filled [] = id from funext filled_nil, List.map_id]
    rw [this]
    have : r.lists.set a (r.words a) = r.lists := by
      apply List.ext_getElem?
      intro i
      rw [List.getElem?_set]
      by_cases h : a = i
      · subst h
        by_cases hl : a < r.lists.length
        · simp [hl, IndexObj.words]
        · simp [hl]
      · simp [h]
    rw [this]
    cases r
    simp only at he
    rw [he]
  | some d =>
    simp only
    rw [show r.lists.getD a [] = r.words a from rfl, C146_words d (hr d he) _ hw]
    exact ⟨rfl, rfl⟩

theorem sound_lists {r r' : IndexObj} (h : Spec.Sound r) (he : r'.edict = r.edict) {made : List (List Tanaka)} (hl : r'.lists = r.lists ++ made)
    (hm : ∀ ws ∈ made, Spec.SensesOk ws) : Spec.Sound r' := by
  refine ⟨?_, by rw [he]; exact h.2⟩
  intro a
  unfold IndexObj.words
  rw [hl]
  by_cases ha : a < r.lists.length
  · rw [words_append ha]; exact h.1 a
  · simp only [List.getD_eq_getElem?_getD]
    rw [List.getElem?_append_right (by omega)]
    cases hg : made[a - r.lists.length]? with
    | none => intro w hw; cases hw
    | some ws => exact hm ws (List.mem_of_getElem? hg)

/-- What a step does to a list of words. -/
theorem step_words (r : IndexObj) (h : Spec.Sound r) (op : IndexOp) (ho : ∀ d, op = .setEdict (some d) → Spec.HasReadings d) :
    Spec.Sound (r.step op).1 ∧ r.lists.length ≤ (r.step op).1.lists.length ∧
    ∀ a < r.lists.length, (r.step op).1.words a = (r.words a).map (Spec.filled (Spec.lookedUp a r.edict [op])) := by
  have idm : ∀ ws : List Tanaka, ws.map (Spec.filled []) = ws := by
    intro ws
    rw [show Spec.filled [] = id from funext filled_nil, List.map_id]
  cases op with
  | setEdict d =>
    refine ⟨⟨h.1, ?_⟩, Nat.le_refl _, ?_⟩
    · rintro d' hd
      exact ho d' (by rw [show d = some d' from hd])
    · intro a _
      simp only [Spec.lookedUp, idm]
      rfl
  | setSubset t =>
    refine ⟨h, Nat.le_refl _, ?_⟩
    intro a _
    simp only [Spec.lookedUp, idm]
    rfl
  | load src rows =>
    obtain ⟨_, _, ⟨made, hm, hs⟩, he, _⟩ := C146_load r src rows
    refine ⟨sound_lists h he hm hs, ?_, ?_⟩
    · show r.lists.length ≤ (r.load src rows).1.lists.length
      rw [hm]; simp
    · intro a ha
      simp only [Spec.lookedUp, idm]
      show (r.load src rows).1.lists.getD a [] = _
      rw [hm]
      exact words_append ha
  | parse text =>
    show Spec.Sound (r.parse text).1 ∧ r.lists.length ≤ (r.parse text).1.lists.length ∧ ∀ a < r.lists.length, (r.parse text).1.words a = _
    unfold IndexObj.parse
    cases hp : parseSentence text with
    | error e =>
      refine ⟨h, Nat.le_refl _, ?_⟩
      intro a _
      simp only [Spec.lookedUp, idm]
    | ok ws =>
      refine ⟨sound_lists (made := [ws]) h rfl rfl ?_, by simp, ?_⟩
      · intro v hv
        rw [List.mem_singleton] at hv
        rw [hv]
        exact parseWords_sense hp
      · intro a ha
        simp only [Spec.lookedUp, idm]
        exact words_append ha
  | adjust b =>
    obtain ⟨_, hadj⟩ := adjust_lists r b h.2 (h.1 b)
    show Spec.Sound (r.adjust b).1 ∧ r.lists.length ≤ (r.adjust b).1.lists.length ∧ ∀ a < r.lists.length, (r.adjust b).1.words a = _
    have hwords : ∀ a < r.lists.length, (r.adjust b).1.words a = (r.words a).map (Spec.filled (Spec.lookedUp a r.edict [.adjust b])) := by
      intro a ha
      rw [hadj]
      simp only [IndexObj.words, Spec.lookedUp, List.append_nil, List.getD_eq_getElem?_getD, List.getElem?_set]
      by_cases hb : b = a
      · subst hb
        simp [ha]
      · simp only [hb, if_false, idm]
    refine ⟨⟨?_, ?_⟩, ?_, hwords⟩
    · intro a
      by_cases ha : a < r.lists.length
      · rw [hwords a ha]
        exact sensesOk_filled (h.1 a) _
      · have : (r.adjust b).1.words a = [] := by
          rw [hadj]
          simp only [IndexObj.words, List.getD_eq_getElem?_getD]
          rw [List.getElem?_eq_none (by simp; omega)]
          rfl
        rw [this]
        intro w hw; cases hw
    · intro d hd
      rw [hadj] at hd
      exact h.2 d hd
    · rw [hadj]; simp

theorem lookedUp_cons (a : Nat) (r : IndexObj) (op : IndexOp) (ops : List IndexOp) :
    Spec.lookedUp a r.edict (op :: ops) = Spec.lookedUp a r.edict [op] ++ Spec.lookedUp a (r.step op).1.edict ops := by
  cases op with
  | setEdict d => rfl
  | setSubset t => rfl
  | load src rows =>
    show Spec.lookedUp a r.edict ops = [] ++ Spec.lookedUp a (r.load src rows).1.edict ops
    rw [(C146_load r src rows).2.2.2.1]
    rfl
  | parse text =>
    show Spec.lookedUp a r.edict ops = [] ++ Spec.lookedUp a (r.parse text).1.edict ops
    unfold IndexObj.parse
    cases parseSentence text <;> rfl
  | adjust b =>
    show _ = Spec.lookedUp a r.edict [.adjust b] ++ Spec.lookedUp a (r.adjust b).1.edict ops
    have : (r.adjust b).1.edict = r.edict := by
      unfold IndexObj.adjust
      cases he : r.edict with
      | none => exact he
      | some d => rfl
    rw [this]
    simp [Spec.lookedUp]

/-- C146: a list of words that a program holds is changed by nothing but `adjust_details` of this list, however often files are assigned: a missing
reading becomes the first that one of the dictionaries gives in which the list was looked up. -/
theorem C146_objects (r : IndexObj) (hr : Spec.Sound r) (ops : List IndexOp) (ho : ∀ d, .setEdict (some d) ∈ ops → Spec.HasReadings d) (a : Nat)
    (ha : a < r.lists.length) : (r.run ops).words a = (r.words a).map (Spec.filled (Spec.lookedUp a r.edict ops)) ∧ Spec.Sound (r.run ops) := by
  induction ops generalizing r with
  | nil =>
    refine ⟨?_, hr⟩
    rw [Spec.lookedUp, show Spec.filled [] = id from funext filled_nil, List.map_id]
    rfl
  | cons op ops ih =>
    obtain ⟨h1, h2, h3⟩ := step_words r hr op (fun d hd => ho d (by simp [hd]))
    obtain ⟨h4, h5⟩ := ih (r.step op).1 h1 (fun d hd => ho d (by simp [hd])) (by omega)
    refine ⟨?_, h5⟩
    rw [IndexObj.run, h4, h3 a ha, List.map_map, lookedUp_cons a r op ops]
    apply List.map_congr_left
    intro w _
    exact filled_filled _ _ w

theorem step_src (r : IndexObj) (op : IndexOp) : (r.step op).1.src = match op with | .load s _ => s | _ => r.src := by
  cases op with
  | setEdict d => rfl
  | setSubset d => rfl
  | load src rows =>
    simp only [IndexObj.step, IndexObj.load]
    split
    · rfl
    · split <;> rfl
  | parse text =>
    simp only [IndexObj.step, IndexObj.parse]
    split <;> rfl
  | adjust a =>
    simp only [IndexObj.step, IndexObj.adjust]
    split <;> rfl

/-- C146: `jpn_indices` reports the file that was assigned last, even if it could not be read and the reader answers with the sentences of a file before it (C107). -/
theorem C146_source (r : IndexObj) (ops : List IndexOp) : (r.run ops).src = Spec.lastSource r.src ops := by
  induction ops generalizing r with
  | nil => rfl
  | cons op ops ih =>
    rw [IndexObj.run, ih, step_src]
    unfold Spec.lastSource
    cases op with
    | load s rows =>
      rw [List.filterMap_cons]
      simp only [List.getLast?_cons, Option.getD_some]
    | setEdict d => rfl
    | setSubset d => rfl
    | parse text => rfl
    | adjust a => rfl

/-- C146: this holds for every reader that was made with a dictionary whose entries have readings, after any program. -/
theorem C146_sound (edict : Option (Dict Str (List Str))) (subset : Option (List Int)) (ops : List IndexOp)
    (hd : ∀ d, edict = some d → Spec.HasReadings d) (ho : ∀ d, .setEdict (some d) ∈ ops → Spec.HasReadings d) :
    Spec.Sound ((Spec.unfilled edict subset).run ops) := by
  have h0 : Spec.Sound (Spec.unfilled edict subset) := ⟨(by intro a w hw; cases hw), hd⟩
  suffices ∀ r, Spec.Sound r → Spec.Sound (r.run ops) from this _ h0
  induction ops with
  | nil => intro r hr; exact hr
  | cons op ops ih =>
    intro r hr
    exact ih (fun d h => ho d (by simp [h])) _ (step_words r hr op (fun d h => ho d (by simp [h]))).1

theorem run_append (r : IndexObj) (ops ops' : List IndexOp) : r.run (ops ++ ops') = (r.run ops).run ops' := by
  induction ops generalizing r with
  | nil => rfl
  | cons op ops ih => exact ih _

theorem run_settings (r : IndexObj) (ops : List IndexOp) : ((r.run ops).edict, (r.run ops).subset) = Spec.settings (r.edict, r.subset) ops := by
  induction ops generalizing r with
  | nil => rfl
  | cons op ops ih =>
    rw [IndexObj.run, ih]
    cases op with
    | setEdict d => rfl
    | setSubset t => rfl
    | load src rows =>
      show Spec.settings ((r.load src rows).1.edict, (r.load src rows).1.subset) ops = _
      rw [(C146_load r src rows).2.2.2.1, (C146_load r src rows).2.2.2.2]
      rfl
    | parse text =>
      show Spec.settings ((r.parse text).1.edict, (r.parse text).1.subset) ops = _
      unfold IndexObj.parse
      cases parseSentence text <;> rfl
    | adjust b =>
      show Spec.settings ((r.adjust b).1.edict, (r.adjust b).1.subset) ops = _
      unfold IndexObj.adjust
      cases he : r.edict with
      | none => simp only [he, Spec.settings]
      | some d => rfl

theorem noLoad_run (r : IndexObj) (ops : List IndexOp) (h : Spec.NoLoad ops) : (r.run ops).sent = r.sent ∧ (r.run ops).link = r.link := by
  induction ops generalizing r with
  | nil => exact ⟨rfl, rfl⟩
  | cons op ops ih =>
    obtain ⟨h1, h2⟩ := ih (r.step op).1 (fun src rows hm => h src rows (by simp [hm]))
    rw [IndexObj.run, h1, h2]
    cases op with
    | setEdict d => exact ⟨rfl, rfl⟩
    | setSubset t => exact ⟨rfl, rfl⟩
    | load src rows => exact absurd (by simp) (h src rows)
    | parse text =>
      show (r.parse text).1.sent = _ ∧ (r.parse text).1.link = _
      unfold IndexObj.parse
      cases parseSentence text <;> exact ⟨rfl, rfl⟩
    | adjust b =>
      show (r.adjust b).1.sent = _ ∧ (r.adjust b).1.link = _
      unfold IndexObj.adjust
      cases he : r.edict with
      | none => exact ⟨rfl, rfl⟩
      | some d => exact ⟨rfl, rfl⟩

theorem get?_wordsAt (lists : List (List Tanaka)) (s : Dict Int Nat) (i : Int) :
    Dict.get? (s.map (wordsAt lists)) i = (Dict.get? s i).map (fun a => lists.getD a []) := by
  induction s with
  | nil => rfl
  | cons p s ih =>
    obtain ⟨k, b⟩ := p
    simp only [List.map_cons, wordsAt, Dict.get?_cons]
    by_cases h : k = i
    · simp [h]
    · rw [if_neg h, if_neg h, ih]

/-- C146: what a reader answers with, for every program: let `d` and `s` be the dictionary and the set of ids in force when a file was last assigned
without an exception.  The ids, the linked ids and the words are those of a new reader of this file with `d` and `s`; the readings of `reader[i]` that
were missing are filled in from the dictionaries in which the program looked up this list afterwards. -/
theorem C146_program (edict : Option (Dict Str (List Str))) (subset : Option (List Int)) (pre post : List IndexOp) (src : Str) (rows : Rows)
    (hd : ∀ d, edict = some d → Spec.HasReadings d) (ho : ∀ d, .setEdict (some d) ∈ pre ++ post → Spec.HasReadings d)
    (d : Option (Dict Str (List Str))) (s : Option (List Int)) (hset : Spec.settings (edict, subset) pre = (d, s))
    (data : IndexData) (hdata : indexLoad d s rows = .ok data) (hpost : Spec.NoLoad post) :
    ((Spec.unfilled edict subset).run (pre ++ .load src rows :: post)).link = data.link ∧
    ∀ i, (∀ e, ((Spec.unfilled edict subset).run (pre ++ .load src rows :: post)).item i = .error e ↔ data.getItem i = .error e) ∧
      ∀ a, ((Spec.unfilled edict subset).run (pre ++ .load src rows :: post)).item i = .ok a →
        ∃ ws, data.getItem i = .ok ws ∧
          ((Spec.unfilled edict subset).run (pre ++ .load src rows :: post)).words a = ws.map (Spec.filled (Spec.lookedUp a d post)) := by
  rw [run_append]
  have hs := run_settings (Spec.unfilled edict subset) pre
  have hsound := C146_sound edict subset pre hd (fun d h => ho d (by simp [h]))
  generalize hr : (Spec.unfilled edict subset).run pre = r at hs hsound
  have hs : (r.edict, r.subset) = (d, s) := hs.trans hset
  have e1 : r.edict = d := congrArg Prod.fst hs
  have e2 : r.subset = s := congrArg Prod.snd hs
  obtain ⟨_, hok, ⟨made, hm, hms⟩, hed, _⟩ := C146_load r src rows
  rw [e1, e2] at hok
  obtain ⟨_, hview, hfresh, _⟩ := hok data hdata
  have hsound' : Spec.Sound (r.load src rows).1 := sound_lists hsound hed hm hms
  rw [show r.run (.load src rows :: post) = (r.load src rows).1.run post from rfl]
  generalize hq : (r.load src rows).1 = q at *
  obtain ⟨n1, n2⟩ := noLoad_run q post hpost
  have hitem : ∀ i, (q.run post).item i = q.item i := by intro i; unfold IndexObj.item; rw [n1]
  have hget : ∀ i, Dict.get? data.sent i = (Dict.get? q.sent i).map (fun a => q.words a) := by
    intro i
    rw [← hview]
    exact get?_wordsAt q.lists q.sent i
  refine ⟨by rw [n2, ← hview]; rfl, ?_⟩
  intro i
  rw [hitem]
  unfold IndexObj.item IndexData.getItem Dict.getItem at *
  rw [hget]
  cases hg : Dict.get? q.sent i with
  | none =>
    refine ⟨fun e => ⟨fun h => (by cases h; rfl), fun h => (by cases h; rfl)⟩, ?_⟩
    intro a ha; cases ha
  | some b =>
    refine ⟨fun e => ⟨fun h => (by cases h), fun h => (by cases h)⟩, ?_⟩
    rintro a ⟨⟩
    refine ⟨_, rfl, ?_⟩
    have hb := (hfresh i b (by rw [hg])).2
    rw [(C146_objects q hsound' post (fun d h => ho d (by simp [h])) b hb).1, hed, e1]

/-! ### A dictionary that is given later -/

/-- The words of all sentences, looked up in a dictionary. -/
def lookedUpIn (e : Dict Str (List Str)) (p : Int × List Tanaka) : Int × List Tanaka := (p.1, p.2.map (Spec.filled [e]))

theorem set_lookedUpIn (e : Dict Str (List Str)) (s : Dict Int (List Tanaka)) (i : Int) (ws : List Tanaka) :
    (Dict.set s i ws).map (lookedUpIn e) = Dict.set (s.map (lookedUpIn e)) i (ws.map (Spec.filled [e])) := by
  induction s with
  | nil => rfl
  | cons p s ih =>
    obtain ⟨k, b⟩ := p
    simp only [Dict.set, List.map_cons, lookedUpIn]
    by_cases h : k = i
    · simp [h, lookedUpIn]
    · rw [if_neg h, if_neg h, List.map_cons, ih]
      rfl

theorem adjustWords_filled (e : Dict Str (List Str)) (he : Spec.HasReadings e) (ws : List Tanaka) (hw : Spec.SensesOk ws) :
    adjustWords e ws = .ok (ws.map (Spec.filled [e])) := by
  rw [adjustInPlace_words, C146_words e he ws hw]

theorem indexRow_later (e : Dict Str (List Str)) (he : Spec.HasReadings e) (subset : Option (List Int)) (d : IndexData) (row : List Str) :
    indexRow (some e) subset ⟨d.sent.map (lookedUpIn e), d.link⟩ row =
      (indexRow none subset d row).map (fun d => ⟨d.sent.map (lookedUpIn e), d.link⟩) := by
  have enter : ∀ i m text, indexEnter (some e) ⟨d.sent.map (lookedUpIn e), d.link⟩ i m text =
      (indexEnter none d i m text).map (fun d => ⟨d.sent.map (lookedUpIn e), d.link⟩) := by
    intro i m text
    unfold indexEnter
    cases hp : parseSentence text with
    | error x => rfl
    | ok ws =>
      simp only [adjustDetails, adjustWords_filled e he ws (parseWords_sense hp)]
      rw [← set_lookedUpIn]
      rfl
  match row with
  | [] => rfl
  | [_] => rfl
  | [_, _] => rfl
  | _ :: _ :: _ :: _ :: _ => rfl
  | [a, b, text] =>
    unfold indexRow
    simp only
    cases pyInt 10 a with
    | error e => rfl
    | ok i =>
      cases pyInt 10 b with
      | error e => rfl
      | ok m =>
        cases subset with
        | none => exact enter i m text
        | some ids =>
          simp only
          by_cases h : i ∈ ids
          · rw [if_pos h, if_pos h]; exact enter i m text
          · rw [if_neg h, if_neg h]; rfl

theorem indexRows_later (e : Dict Str (List Str)) (he : Spec.HasReadings e) (subset : Option (List Int)) (rows : List (List Str)) :
    ∀ d : IndexData, indexRows (some e) subset ⟨d.sent.map (lookedUpIn e), d.link⟩ rows =
      (indexRows none subset d rows).map (fun d => ⟨d.sent.map (lookedUpIn e), d.link⟩) := by
  induction rows with
  | nil => intro d; rfl
  | cons row rows ih =>
    intro d
    rw [indexRows, indexRows, indexRow_later e he]
    cases indexRow none subset d row with
    | error x => rfl
    | ok d' => exact ih d'

/-- C146: a dictionary in which every entry has a reading makes no file unreadable: an assignment raises with it what it raises without it.  And the
words are those read without it, looked up in it. -/
theorem C146_dictionary (e : Dict Str (List Str)) (he : Spec.HasReadings e) (subset : Option (List Int)) (rows : Rows) :
    (∀ x, indexLoad (some e) subset rows = .error x ↔ indexLoad none subset rows = .error x) ∧
    ∀ d, indexLoad none subset rows = .ok d →
      ∃ d', indexLoad (some e) subset rows = .ok d' ∧ d'.link = d.link ∧ d'.sent = d.sent.map (fun p => (p.1, p.2.map (Spec.filled [e]))) := by
  have h := indexRows_later e he subset rows.1 ⟨[], []⟩
  have h : indexRows (some e) subset ⟨[], []⟩ rows.1 = (indexRows none subset ⟨[], []⟩ rows.1).map (fun d => ⟨d.sent.map (lookedUpIn e), d.link⟩) := h
  unfold indexLoad
  rw [h]
  cases indexRows none subset ⟨[], []⟩ rows.1 with
  | error x =>
    refine ⟨fun y => Iff.rfl, ?_⟩
    intro d hd; cases hd
  | ok d =>
    cases rows.2 with
    | some x =>
      refine ⟨fun y => Iff.rfl, ?_⟩
      intro d hd; cases hd
    | none =>
      refine ⟨fun y => ⟨fun h => (by cases h), fun h => (by cases h)⟩, ?_⟩
      rintro d' ⟨⟩
      exact ⟨_, rfl, rfl, rfl⟩

theorem lookedUp_all (e : Dict Str (List Str)) (a : Nat) (l : List Nat) (ha : a ∈ l) :
    Spec.lookedUp a (some e) (l.map .adjust) ≠ [] ∧ ∀ d ∈ Spec.lookedUp a (some e) (l.map .adjust), d = e := by
  have all : ∀ l : List Nat, ∀ d ∈ Spec.lookedUp a (some e) (l.map .adjust), d = e := by
    intro l
    induction l with
    | nil => intro d hd; cases hd
    | cons b l ih =>
      intro d hd
      simp only [List.map_cons, Spec.lookedUp, List.mem_append] at hd
      rcases hd with hd | hd
      · split at hd
        · simpa using hd
        · cases hd
      · exact ih d hd
  refine ⟨?_, all l⟩
  induction l with
  | nil => cases ha
  | cons b l ih =>
    simp only [List.map_cons, Spec.lookedUp]
    by_cases h : b = a
    · simp [h]
    · rcases List.mem_cons.1 ha with h' | h'
      · exact absurd h'.symm h
      · simp [h, ih h']

/-- C146: a reader that got no dictionary answers like one that was made with the dictionary, after the dictionary was assigned to `edict` and
`adjust_details` was called for every sentence of the reader, in any order and any number of times. -/
theorem C146_later (r : IndexObj) (hr : Spec.Sound r) (h0 : r.edict = none) (src : Str) (rows : Rows) (d : IndexData)
    (hd : indexLoad none r.subset rows = .ok d) (e : Dict Str (List Str)) (he : Spec.HasReadings e) (l : List Nat)
    (hl : ∀ i a, (r.load src rows).1.item i = .ok a → a ∈ l) :
    ∃ d', indexLoad (some e) r.subset rows = .ok d' ∧
      ((r.load src rows).1.run (.setEdict (some e) :: l.map .adjust)).view.link = d'.link ∧
      ∀ i, ((r.load src rows).1.run (.setEdict (some e) :: l.map .adjust)).view.getItem i = d'.getItem i := by
  obtain ⟨d', h1, h2, h3⟩ := (C146_dictionary e he r.subset rows).2 d hd
  refine ⟨d', h1, ?_, ?_⟩
  all_goals
    obtain ⟨_, hok, ⟨made, hm, hms⟩, hed, _⟩ := C146_load r src rows
    rw [h0] at hok
    obtain ⟨_, hview, hfresh, _⟩ := hok d hd
    have hsound : Spec.Sound (r.load src rows).1 := sound_lists hr hed hm hms
    generalize hq : (r.load src rows).1 = q at *
    have hno : Spec.NoLoad (IndexOp.setEdict (some e) :: l.map IndexOp.adjust) := by
      intro s rs hmem
      simp at hmem
    obtain ⟨n1, n2⟩ := noLoad_run q _ hno
  · show (q.run _).link = _
    rw [n2, h2, ← hview]
    rfl
  · intro i
    have hget : Dict.get? d.sent i = (Dict.get? q.sent i).map (fun a => q.words a) := by
      rw [← hview]
      exact get?_wordsAt q.lists q.sent i
    have hget' : Dict.get? d'.sent i = (Dict.get? d.sent i).map (fun ws => ws.map (Spec.filled [e])) := by
      rw [h3]
      generalize d.sent = s
      induction s with
      | nil => rfl
      | cons p s ih =>
        obtain ⟨k, b⟩ := p
        simp only [List.map_cons, Dict.get?_cons]
        by_cases h : k = i
        · simp [h]
        · rw [if_neg h, if_neg h, ih]
    have hfin : Dict.get? (q.run (.setEdict (some e) :: l.map .adjust)).view.sent i =
        (Dict.get? q.sent i).map (fun a => (q.run (.setEdict (some e) :: l.map .adjust)).words a) := by
      rw [← n1]
      exact get?_wordsAt _ _ i
    unfold IndexData.getItem Dict.getItem
    rw [hfin, hget', hget]
    cases hg : Dict.get? q.sent i with
    | none => rfl
    | some a =>
      have hi : q.item i = .ok a := by unfold IndexObj.item Dict.getItem; rw [hg]
      have hw := (C146_objects q hsound (.setEdict (some e) :: l.map .adjust) (by
        intro x hx
        simp only [List.mem_cons, IndexOp.setEdict.injEq, Option.some.injEq, List.mem_map, reduceCtorEq, and_false, exists_false, or_false] at hx
        rw [hx]; exact he) a (hfresh i a hi).2).1
      have := lookedUp_all e a l (hl i a hi)
      simp only [Option.map_some]
      rw [hw]
      congr 1
      apply List.map_congr_left
      intro w _
      exact filled_same e _ this.1 this.2 w

/-! A file, its words without a dictionary, and a dictionary that is given later. -/

example : (indexLoad none none ([[u!"1", u!"7", u!"彼 は"]], none)).map (·.sent) =
    .ok [(1, [⟨u!"彼", none, none, none, false⟩, ⟨u!"は", none, none, none, false⟩])] := by rfl
example : Spec.filled [[(u!"彼", [u!"彼"])], [(u!"彼", [u!"かれ", u!"かれ"])], [(u!"彼", [u!"あれ"])]] ⟨u!"彼", none, none, none, false⟩ =
    ⟨u!"彼", some u!"かれ", none, none, false⟩ := by decide +kernel
example : ((Spec.unfilled none none).run
    [.load u!"f" ([[u!"1", u!"7", u!"彼 は"]], none), .setEdict (some [(u!"彼", [u!"かれ"])]), .adjust 0, .setSubset (some [])]).words 0 =
    [⟨u!"彼", some u!"かれ", none, none, false⟩, ⟨u!"は", none, none, none, false⟩] := by decide +kernel
example : Spec.HasReadings [(u!"彼", [u!"かれ"])] := by
  intro k rs h
  simp only [Dict.get?_cons, Dict.get?_nil] at h
  split at h
  · cases h; simp
  · cases h

end Cjk
