import Verif.Props.PiecesPinyin
/-!
# C170: the three results of from_hanzi
-/

namespace Cjk
open Py

/-- What is used of `str.lower` besides `IsLower`: it works on each character alone, apart from the Greek capital sigma. -/
def Spec.LowerPieces (lower : Str → Str) : Prop := ∀ a b : Str, 0x3a3 ∉ a ++ b → lower (a ++ b) = lower a ++ lower b

/-- What `from_hanzi` reads for a character: its first reading in the table, the character itself if it is not there, nothing if it stands there
without a reading. -/
def Spec.firstReading (table : Dict Str (List Str)) (c : Nat) : Option Str :=
  match Dict.get? table [c] with
  | none => some [c]
  | some rs => rs.head?

/-- The result of a second step on that of a first one; an exception of the first is that of both. -/
def Spec.followedBy (x : Except PyErr Str) (f : Str → Except PyErr Str) : Except PyErr Str :=
  match x with
  | .error e => .error e
  | .ok s => f s

theorem fromHanziChar_reading (lower : Str → Str) (seg : List Str) (table : Dict Str (List Str)) (i u : Bool) (c : Nat) :
    fromHanziChar lower seg table i u c =
      match Spec.firstReading table c with
      | none => .error .indexError
      | some r => if i then fromAscii lower seg r else if !u then stripTones lower seg r else .ok r := by
  unfold fromHanziChar Spec.firstReading
  cases hg : Dict.get? table [c] with
  | none => simp [Py.getItem]
  | some rs =>
    cases rs with
    | nil => simp [Py.getItem]
    | cons r rs => simp [Py.getItem]

theorem applyTones_index {out : List (Str × Int)} (hr : ∀ p ∈ out, 0 ≤ p.2 ∧ p.2 ≤ 5) {e : PyErr} (h : applyTones out = .error e) : e = .indexError := by
  by_cases hx : ∃ p ∈ out, p.1 = []
  · rw [applyTones_error out hr hx] at h
    exact (Except.error.inj h).symm
  · obtain ⟨r, h1, _⟩ := applyTones_ok out (fun p hp => ⟨fun e => hx ⟨p, hp, e⟩, hr p hp⟩)
    rw [h1] at h; cases h

theorem pinyin_errors {lower : Str → Str} (hl : Spec.IsLower lower) {lines : List Str} {seg : List Str} (h : newSegmenter lines = .ok seg) (r : Str) :
    (∀ e, fromAscii lower seg r = .error e → e = .indexError) ∧ ∀ e, stripTones lower seg r ≠ .error e := by
  obtain ⟨out, ho⟩ := C69_total lower lines seg h r
  have hseg := (C69_longest lower lines seg h r out).1 ho
  constructor
  · intro e he
    unfold fromAscii at he
    rw [segment_normalize hl, ho] at he
    exact applyTones_index (segments_tone_range hseg) he
  · intro e he
    unfold stripTones at he
    rw [segment_normalize hl, ho] at he
    cases he

/-- Where the readings of all characters but the last end with a character that occurs in no syllable, such as a tone digit. -/
def Spec.ReadingsEnd (lower : Str → Str) (syllables : List Str) (table : Dict Str (List Str)) (s : Str) : Prop :=
  ∀ c ∈ s.dropLast, ∀ r, Spec.firstReading table c = some r → Spec.EndsOutside syllables (Spec.normal lower r)

theorem forms_step {s : Str} {r : Str} {numbered marked : Except PyErr Str} {f : Str → Except PyErr Str}
    (ih : marked = Spec.followedBy numbered f) (hn : ∀ e, numbered = .error e → e = .indexError)
    (hf : ∀ e, f r = .error e → e = .indexError) (hp : ∀ q, numbered = .ok q → f (r ++ q) = Spec.inPieces (f r) (f q)) :
    (match f r with | .error e => .error e | .ok x => marked.map (fun y => x ++ y)) =
      Spec.followedBy (numbered.map (fun y => r ++ y)) f := by
  cases numbered with
  | error e =>
    have := hn e rfl
    subst this
    subst ih
    cases hfr : f r with
    | error e => rw [hf e hfr]; rfl
    | ok x => rfl
  | ok q =>
    simp only [Spec.followedBy, Except.map] at ih ⊢
    rw [hp q rfl]
    subst ih
    cases hfr : f r with
    | error e => rfl
    | ok x =>
      cases hfq : f q with
      | error e => simp [Spec.inPieces]
      | ok y => simp [Spec.inPieces]

/-- The numbered readings one after the other. -/
def Spec.numberedReadings (table : Dict Str (List Str)) : Str → Option Str
  | [] => some []
  | c :: s => match Spec.firstReading table c, Spec.numberedReadings table s with
    | some r, some q => some (r ++ q)
    | _, _ => none

theorem numbered_loop (lower : Str → Str) (seg : List Str) (table : Dict Str (List Str)) (s : Str) :
    fromHanziLoop lower seg table false true s = match Spec.numberedReadings table s with | some q => .ok q | none => .error .indexError := by
  induction s with
  | nil => rfl
  | cons c s ih =>
    simp only [fromHanziLoop, fromHanziChar_reading, Spec.numberedReadings, ih]
    cases Spec.firstReading table c with
    | none => rfl
    | some r =>
      cases Spec.numberedReadings table s with
      | none => rfl
      | some q => rfl

theorem numbered_sigma {table : Dict Str (List Str)} {s q : Str} (hs : ∀ c ∈ s, ∀ r, Spec.firstReading table c = some r → 0x3a3 ∉ r)
    (hq : Spec.numberedReadings table s = some q) : 0x3a3 ∉ q := by
  induction s generalizing q with
  | nil => cases hq; simp
  | cons c s ih =>
    unfold Spec.numberedReadings at hq
    cases hr : Spec.firstReading table c with
    | none => rw [hr] at hq; cases hq
    | some r =>
      cases hn : Spec.numberedReadings table s with
      | none => rw [hr, hn] at hq; cases hq
      | some x =>
        rw [hr, hn] at hq
        cases hq
        have h1 := hs c (by simp) r hr
        have h2 := ih (fun d hd => hs d (by simp [hd])) hn
        simp [h1, h2]

/-- **C170** (partial).  Where every reading but the last ends with a tone digit (or another character that occurs in no syllable), the result
with tone marks is `from_ascii` of the one with tone digits, and the result without tones is `strip_tones` of it; the same exceptions are raised.
Missing: texts with Latin letters or with readings without a tone (`C170_refuted`). -/
theorem C170_forms_partial (lower : Str → Str) (hl : Spec.IsLower lower) (hlow : Spec.LowerPieces lower) (lines : List Str) (seg : List Str)
    (h : newSegmenter lines = .ok seg) (table : Dict Str (List Str)) (s : Str)
    (hs : ∀ c ∈ s, ∀ r, Spec.firstReading table c = some r → 0x3a3 ∉ r)
    (hend : Spec.ReadingsEnd lower ([0x72] :: (Spec.tablePairs lines).map Prod.snd) table s) :
    fromHanzi lower seg table true true s = Spec.followedBy (fromHanzi lower seg table false true s) (fromAscii lower seg) ∧
    ∀ inline, fromHanzi lower seg table inline false s = Spec.followedBy (fromHanzi lower seg table false true s) (stripTones lower seg) := by
  have errs : ∀ s e, fromHanziLoop lower seg table false true s = .error e → e = .indexError := by
    intro s e he
    rw [numbered_loop] at he
    split at he
    · cases he
    · exact (Except.error.inj he).symm
  have empty : fromAscii lower seg [] = .ok [] ∧ stripTones lower seg [] = .ok [] := by
    obtain ⟨_, hp, _, hw, _⟩ := newSegmenter_spec h
    have h0 : lower [] = [] := by
      have := hl.ascii [] (by simp)
      simpa using this
    have : segmentPinyin lower seg [] = .ok [] := by
      rw [C69_longest lower lines seg h]
      simp only [Spec.normal, h0, List.filter_nil, List.map_nil]
      exact .nil
    unfold fromAscii stripTones
    rw [segment_normalize hl, this]
    exact ⟨rfl, rfl⟩
  have main : fromHanziLoop lower seg table true true s = Spec.followedBy (fromHanziLoop lower seg table false true s) (fromAscii lower seg) ∧
      fromHanziLoop lower seg table false false s = Spec.followedBy (fromHanziLoop lower seg table false true s) (stripTones lower seg) := by
    induction s with
    | nil => simp [fromHanziLoop, Spec.followedBy, empty.1, empty.2]
    | cons c s ih =>
      have ih := ih (fun d hd => hs d (by simp [hd])) (fun d hd => hend d (by
        cases s with
        | nil => cases hd
        | cons x s => simp only [List.dropLast_cons_cons] at hd ⊢; exact List.mem_cons_of_mem _ hd))
      simp only [fromHanziLoop, fromHanziChar_reading]
      cases hr : Spec.firstReading table c with
      | none => exact ⟨rfl, rfl⟩
      | some r =>
        have hpieces : ∀ q, fromHanziLoop lower seg table false true s = .ok q →
            fromAscii lower seg (r ++ q) = Spec.inPieces (fromAscii lower seg r) (fromAscii lower seg q) ∧
            stripTones lower seg (r ++ q) = Spec.inPieces (stripTones lower seg r) (stripTones lower seg q) := by
          intro q hq
          cases s with
          | nil =>
            cases hq
            rw [List.append_nil, empty.1, empty.2]
            constructor
            · cases fromAscii lower seg r <;> simp [Spec.inPieces]
            · cases stripTones lower seg r <;> simp [Spec.inPieces]
          | cons x s =>
            apply C156_ascii lower hl lines seg h
            · apply hlow
              rw [numbered_loop] at hq
              split at hq
              · rename_i q' hq'
                cases hq
                have h1 := hs c (by simp) r hr
                have h2 := numbered_sigma (fun d hd => hs d (List.mem_cons_of_mem _ hd)) hq'
                simp [h1, h2]
              · cases hq
            · exact hend c (by simp [List.dropLast_cons_cons]) r hr
        obtain ⟨e1, e2⟩ := pinyin_errors hl h r
        simp only [if_true, Bool.not_true, Bool.false_eq_true, if_false, Bool.not_false]
        constructor
        · exact forms_step (s := s) ih.1 (errs s) e1 (fun q hq => (hpieces q hq).1)
        · exact forms_step (s := s) ih.2 (errs s) (fun e he => absurd he (e2 e)) (fun q hq => (hpieces q hq).2)
  refine ⟨main.1, fun inline => ?_⟩
  exact main.2

/-- A hanzi table with readings. -/
def hanziDemo : List Str := [u!"西 xi1\n", u!"安 an1\n", u!"儿 er r5\n"]

/-- **C170** (refuted).  Latin letters that are passed through are read together in the numbered form only. -/
theorem C170_refuted : ∃ seg table, newSegmenter xianLines = .ok seg ∧ newPinyinTable hanziDemo = .ok table ∧
    fromHanzi (fun s => s.map Spec.lowerChr) seg table false true u!"西an" = .ok u!"xi1an" ∧
    fromAscii (fun s => s.map Spec.lowerChr) seg u!"xi1an" = .ok u!"xīan" ∧
    fromHanzi (fun s => s.map Spec.lowerChr) seg table true true u!"西an" = .ok u!"xī" := by
  refine ⟨_, _, rfl, rfl, ?_, ?_, ?_⟩ <;> decide +kernel

/-- The hypotheses are met: 西安 is read `xi1an1`, `xīan` and `xian`. -/
example : ∃ seg table, newSegmenter xianLines = .ok seg ∧ newPinyinTable hanziDemo = .ok table ∧
    (∀ c ∈ u!"西安", ∀ r, Spec.firstReading table c = some r → 0x3a3 ∉ r) ∧
    fromHanzi (fun s => s.map Spec.lowerChr) seg table false true u!"西安" = .ok u!"xi1an1" ∧
    fromHanzi (fun s => s.map Spec.lowerChr) seg table true true u!"西安" = .ok u!"xīan" ∧
    fromHanzi (fun s => s.map Spec.lowerChr) seg table true false u!"西安" = .ok u!"xian" := by
  refine ⟨_, _, rfl, rfl, ?_, ?_, ?_, ?_⟩
  · intro c hc r hr
    have key : ∀ c ∈ u!"西安", ∀ r ∈ (Spec.firstReading [(u!"西", [u!"xi1"]), (u!"安", [u!"an1"]), (u!"儿", [u!"er", u!"r5"])] c).toList, 0x3a3 ∉ r := by
      decide +kernel
    refine key c hc r ?_
    have e : newPinyinTable hanziDemo = .ok [(u!"西", [u!"xi1"]), (u!"安", [u!"an1"]), (u!"儿", [u!"er", u!"r5"])] := by decide +kernel
    rw [Option.mem_toList]
    exact hr
  all_goals decide +kernel

example : ∃ table, newPinyinTable hanziDemo = .ok table ∧
    Spec.ReadingsEnd (fun s => s.map Spec.lowerChr) ([0x72] :: (Spec.tablePairs xianLines).map Prod.snd) table u!"西安" := by
  refine ⟨_, rfl, ?_⟩
  intro c hc r hr x hx s hs
  have e : ([0x72] :: (Spec.tablePairs xianLines).map Prod.snd) = [u!"r", u!"xi", u!"an", u!"xian"] := by decide +kernel
  rw [e] at hs
  have hc : c = c!"西" := by simpa using hc
  subst hc
  have : some r = some u!"xi1" := by rw [← hr]; decide +kernel
  cases this
  have : some x = some 0x31 := by rw [← hx]; decide +kernel
  cases this
  revert s
  decide +kernel

end Cjk
