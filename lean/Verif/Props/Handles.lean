import Verif.Model.Handles
/-!
# C83, C84: no file is left open, no stream of the caller is closed
-/

namespace Cjk
open Py

/-- Nothing has changed for the handles that existed before, and no new one is open. -/
def Spec.Tidy (w w' : World) : Prop := (∀ s < w.length, w'[s]? = w[s]?) ∧ ∀ s, w.length ≤ s → w'[s]? ≠ some true

/-- A program that leaves nothing behind, whatever happens. -/
def Spec.Clean {α : Type} (p : Prog α) : Prop := ∀ w, Spec.Tidy w (p w).2

theorem Tidy.refl (w : World) : Spec.Tidy w w :=
  ⟨fun _ _ => rfl, fun s hs => by rw [List.getElem?_eq_none hs]; simp⟩

theorem Tidy.trans {w1 w2 w3 : World} (h1 : Spec.Tidy w1 w2) (hl : w1.length ≤ w2.length) (h2 : Spec.Tidy w2 w3) : Spec.Tidy w1 w3 := by
  refine ⟨fun s hs => ?_, fun s hs => ?_⟩
  · rw [h2.1 s (by omega), h1.1 s hs]
  · by_cases h : s < w2.length
    · rw [h2.1 s h]; exact h1.2 s hs
    · exact h2.2 s (by omega)

/-- A way to enter a `with` block: nothing happens, or a new handle is opened. -/
def Enters (p : Prog Nat) : Prop := ∀ w, (∃ e, p w = (.error e, w)) ∨ p w = (.ok w.length, w ++ [true])

theorem openH_enters (os : OS) (call : OpenCall) : Enters (openH os call) := by
  intro w
  unfold openH
  cases os.fails call with
  | some e => exact Or.inl ⟨e, rfl⟩
  | none => exact Or.inr rfl

theorem sopenH_enters (os : OS) (f mode : Str) (h : f ≠ u!"-") : Enters (sopenH os f mode) := by
  intro w
  unfold sopenH
  have : ∀ st, (sopen os.fails [] f mode).1 = .ok st → ∃ c, st = .opened c := by
    intro st
    unfold sopen openFile
    simp only [if_neg h]
    split
    · intro e; cases e
    · split
      · split <;> intro e <;> simp at e <;> exact ⟨_, e.symm⟩
      · split
        · split <;> intro e <;> simp at e <;> exact ⟨_, e.symm⟩
        · split <;> intro e <;> simp at e <;> exact ⟨_, e.symm⟩
  cases hs : (sopen os.fails [] f mode).1 with
  | error e => exact Or.inl ⟨e, rfl⟩
  | ok st =>
    obtain ⟨c, rfl⟩ := this st hs
    exact Or.inr rfl

theorem defaultStream_enters (env : DataEnv) (os : OS) (name : Str) : Enters (defaultStream env os name) := by
  intro w
  unfold defaultStream
  cases getResource env name with
  | error e => exact Or.inl ⟨e, rfl⟩
  | ok p => exact openH_enters os _ w

/-- A body that does not touch the flags. -/
def Leaves {α : Type} (p : Prog α) : Prop := ∀ w, (p w).2 = w

theorem readAll_leaves {α : Type} (os : OS) (parse : List Str → Except PyErr α) (s : Nat) : Leaves (readAll os parse s) := by
  intro w
  unfold readAll
  split
  · split
    · rfl
    · split <;> rfl
  · rfl

theorem writeAll_leaves (failure : Option PyErr) (s : Nat) : Leaves (writeAll failure s) := by
  intro w
  unfold writeAll
  split
  · cases failure <;> rfl
  · rfl

theorem consumeRows_leaves {α : Type} (lim : Nat) (os : OS) (load : Rows → Except PyErr α) (s : Nat) : Leaves (consumeRows lim os load s) := by
  intro w
  unfold consumeRows
  split <;> rfl

theorem close_new (w : World) : Spec.Tidy w (closeH w.length (w ++ [true])) := by
  unfold closeH
  refine ⟨fun s hs => ?_, fun s hs => ?_⟩
  · rw [List.getElem?_set_ne (by omega), List.getElem?_append_left hs]
  · by_cases h : s = w.length
    · subst h; rw [List.getElem?_set_self (by simp)]; simp
    · rw [List.getElem?_set_ne (by omega), List.getElem?_eq_none (by simp; omega)]; simp

theorem withFile_clean {α : Type} {enter : Prog Nat} (he : Enters enter) {body : Nat → Prog α} (hb : ∀ s, Leaves (body s)) :
    Spec.Clean (withFile enter body) := by
  intro w
  unfold withFile
  rcases he w with ⟨e, h⟩ | h
  · rw [h]; exact Tidy.refl w
  · rw [h]
    simp only [hb _ _]
    exact close_new w

theorem withFile_length {α : Type} {enter : Prog Nat} (he : Enters enter) {body : Nat → Prog α} (hb : ∀ s, Leaves (body s)) (w : World) :
    w.length ≤ (withFile enter body w).2.length := by
  unfold withFile
  rcases he w with ⟨e, h⟩ | h
  · rw [h]; exact Nat.le_refl _
  · rw [h]
    simp only [hb _ _, closeH]
    simp

theorem leaves_clean {α : Type} {p : Prog α} (h : Leaves p) : Spec.Clean p := fun w => by rw [h w]; exact Tidy.refl w

theorem withContext_clean {α : Type} {enter : Prog Nat} (he : Enters enter) (istream : Option Nat) {body : Nat → Prog α}
    (hb : ∀ s, Leaves (body s)) : Spec.Clean (withContext enter istream body) := by
  cases istream with
  | none => exact withFile_clean he hb
  | some s => exact leaves_clean (hb s)

/-! ### The stack of files of Kanjidic -/

theorem exitAll_get (opened : List Nat) (w : World) (s : Nat) :
    (exitAll opened w)[s]? = if s ∈ opened then w[s]?.map (fun _ => false) else w[s]? := by
  unfold exitAll
  have key : ∀ (l : List Nat) (w : World), (l.foldl (fun w s => closeH s w) w)[s]? = if s ∈ l then w[s]?.map (fun _ => false) else w[s]? := by
    intro l
    induction l with
    | nil => intro w; simp
    | cons a l ih =>
      intro w
      rw [List.foldl_cons, ih]
      unfold closeH
      by_cases h : a = s
      · subst h
        simp only [List.mem_cons, true_or, if_true]
        by_cases hl : a < w.length
        · rw [List.getElem?_set_self hl, List.getElem?_eq_getElem hl]; simp
        · rw [List.getElem?_eq_none (by simp; omega), List.getElem?_eq_none (by omega)]; simp
      · rw [List.getElem?_set_ne h]
        simp [Ne.symm h]
  rw [key]
  simp

theorem enterAll_spec (os : OS) (files : List Str) (hd : ∀ f ∈ files, f ≠ u!"-") : ∀ (opened : List Nat) (w0 w : World),
    (∀ s, s ∈ opened ↔ w0.length ≤ s ∧ s < w.length) → (∀ s < w0.length, w[s]? = w0[s]?) → w0.length ≤ w.length →
    ∃ opened' w', (enterAll os files opened w).2 = (opened', w') ∧ (∀ s, s ∈ opened' ↔ w0.length ≤ s ∧ s < w'.length) ∧
      (∀ s < w0.length, w'[s]? = w0[s]?) ∧ w0.length ≤ w'.length := by
  induction files with
  | nil => intro opened w0 w h1 h2 h3; exact ⟨opened, w, rfl, h1, h2, h3⟩
  | cons f files ih =>
    intro opened w0 w h1 h2 h3
    unfold enterAll
    rcases sopenH_enters os f u!"r" (hd f (by simp)) w with ⟨e, h⟩ | h
    · rw [h]; exact ⟨opened, w, rfl, h1, h2, h3⟩
    · rw [h]
      refine ih (fun g hg => hd g (by simp [hg])) (opened ++ [w.length]) w0 (w ++ [true]) ?_ ?_ (by simp; omega)
      · intro s
        rw [List.mem_append, h1 s]
        simp only [List.mem_singleton, List.length_append, List.length_singleton]
        omega
      · intro s hs
        rw [List.getElem?_append_left (by omega), h2 s hs]

theorem kanjidicFilesH_clean (os : OS) (files : List Str) (hd : ∀ f ∈ files, f ≠ u!"-") : Spec.Clean (kanjidicFilesH os files) := by
  intro w
  obtain ⟨opened, w', h1, h2, h3, h4⟩ := enterAll_spec os files hd [] w w (by simp) (fun _ _ => rfl) (Nat.le_refl _)
  have key : Spec.Tidy w (exitAll opened w') := by
    refine ⟨fun s hs => ?_, fun s hs => ?_⟩
    · rw [exitAll_get, if_neg (by rw [h2]; omega), h3 s hs]
    · rw [exitAll_get]
      split
      · cases w'[s]? <;> simp
      · rename_i hn
        rw [h2] at hn
        rw [List.getElem?_eq_none (by omega)]; simp
  have e : ∃ x, enterAll os files [] w = (x, opened, w') := ⟨_, Prod.ext rfl h1⟩
  obtain ⟨x, e⟩ := e
  unfold kanjidicFilesH
  rw [e]
  cases x with
  | some e => exact key
  | none =>
    simp only
    split
    · exact key
    · split
      · exact key
      · split <;> exact key

theorem resource_long (env : DataEnv) (name p : Str) (hn : 2 ≤ name.length) (h : getResource env name = .ok p) : p ≠ u!"-" := by
  unfold getResource at h
  cases hb : findPath env with
  | error e => rw [hb] at h; cases h
  | ok base =>
    rw [hb] at h
    simp only [Except.ok.injEq] at h
    rintro rfl
    have hl := congrArg List.length h
    unfold pathJoin at hl
    split at hl
    · simp at hl; omega
    · split at hl
      · simp at hl; omega
      · simp at hl; omega

/-- C83: the dictionary and table loaders, the kanji lists, the place files, the cache files and the Tatoeba links leave nothing behind:
whether they succeed or raise, every file that they opened is closed, and every stream that existed before is open or closed as it was.
File names `-` are excluded (see `C83_dash`). -/
theorem C83_clean (env : DataEnv) (os : OS) :
    (∀ istream, Spec.Clean (radkDictH env os istream)) ∧
    (∀ istream, Spec.Clean (zhuyinH env os zhuyinToPinyinTable istream) ∧ Spec.Clean (zhuyinH env os pinyinToZhuyinTable istream) ∧
      Spec.Clean (zhuyinH env os getAllPinyin istream) ∧ Spec.Clean (zhuyinH env os pinyinRegexPattern istream) ∧
      Spec.Clean (zhuyinH env os zhuyinRegexPattern istream)) ∧
    (∀ name, Spec.Clean (kanjiListH env os name)) ∧
    Spec.Clean (pinyinTableH env os) ∧
    (∀ files, (∀ fs, files = some fs → ∀ f ∈ fs, f ≠ u!"-") → Spec.Clean (kanjidicH env os files)) ∧
    (∀ failure f, f ≠ u!"-" → Spec.Clean (placeDumpH os failure f) ∧ Spec.Clean (placeFromFileH os f) ∧
      Spec.Clean (storeCacheH os failure f)) ∧
    (∀ (α : Type) (parse : List Str → Except PyErr α) f, f ≠ u!"-" → Spec.Clean (tryCacheH os parse f)) ∧
    (∀ order src, Spec.Clean (codedH os order src)) ∧
    (∀ lim subset flt s, Spec.Clean (linksH lim os subset flt (.stream s))) ∧
    (∀ lim subset flt f, f ≠ u!"-" → Spec.Clean (linksH lim os subset flt (.path f))) := by
  have hz : ∀ (α : Type) (parse : List Str → Except PyErr α) istream, Spec.Clean (zhuyinH env os parse istream) :=
    fun α parse istream => withContext_clean (defaultStream_enters env os _) istream (readAll_leaves os _)
  refine ⟨?_, ?_, ?_, ?_, ?_, ?_, ?_, ?_, ?_, ?_⟩
  · exact fun istream => withContext_clean (defaultStream_enters env os _) istream (readAll_leaves os _)
  · exact fun istream => ⟨hz _ _ _, hz _ _ _, hz _ _ _, hz _ _ _, hz _ _ _⟩
  · intro name w
    unfold kanjiListH
    cases getResource env (u!"lists/char/" ++ name) with
    | error e => exact Tidy.refl w
    | ok f => exact withFile_clean (openH_enters os _) (readAll_leaves os _) w
  · intro w
    unfold pinyinTableH
    have h1 := hz _ newSegmenter none w
    have h2 : w.length ≤ (zhuyinH env os newSegmenter none w).2.length :=
      withFile_length (defaultStream_enters env os _) (readAll_leaves os _) w
    cases h : zhuyinH env os newSegmenter none w with
    | mk r w1 =>
      rw [h] at h1 h2
      cases r with
      | error e => exact h1
      | ok _ =>
        simp only
        cases getResource env u!"tables/gbk_pinyin_table" with
        | error e => exact h1
        | ok f => exact Tidy.trans h1 h2 (withFile_clean (openH_enters os _) (readAll_leaves os _) w1)
  · intro files hd w
    unfold kanjidicH
    cases files with
    | some fs => exact kanjidicFilesH_clean os fs (hd fs rfl) w
    | none =>
      simp only
      split
      · rename_i a b ha hb
        refine kanjidicFilesH_clean os [a, b] ?_ w
        intro f hf
        simp only [List.mem_cons, List.not_mem_nil, or_false] at hf
        rcases hf with rfl | rfl
        · exact resource_long env _ f (by decide) ha
        · exact resource_long env _ f (by decide) hb
      · exact Tidy.refl w
      · exact Tidy.refl w
  · exact fun failure f hf => ⟨withFile_clean (sopenH_enters os f _ hf) (writeAll_leaves failure),
      withFile_clean (sopenH_enters os f _ hf) (readAll_leaves os _), withFile_clean (sopenH_enters os f _ hf) (writeAll_leaves failure)⟩
  · intro α parse f hf w
    have := withFile_clean (sopenH_enters os f u!"rb" hf) (readAll_leaves os parse) w
    unfold tryCacheH
    cases h : withFile (sopenH os f u!"rb") (readAll os parse) w with
    | mk r w1 => rw [h] at this; cases r <;> exact this
  · intro order src
    cases src with
    | path f => exact withFile_clean (openH_enters os _) (readAll_leaves os _)
    | stream s => exact leaves_clean (readAll_leaves os _ s)
  · exact fun lim subset flt s => leaves_clean (consumeRows_leaves lim os _ s)
  · exact fun lim subset flt f hf => withFile_clean (sopenH_enters os f _ hf) (consumeRows_leaves lim os _)

/-- C83: with the file name `-`, the standard stream is closed at the end: reading a place file or Kanjidic closes standard input, writing
a place file closes standard output. -/
theorem C83_dash (os : OS) (i o : Bool) (rest : World) :
    ((placeFromFileH os u!"-") (i :: o :: rest)).2 = false :: o :: rest ∧
    ((kanjidicFilesH os [u!"-"]) (i :: o :: rest)).2 = false :: o :: rest ∧
    (∀ failure, ((placeDumpH os failure u!"-") (i :: o :: rest)).2 = i :: false :: rest) := by
  have h1 : ∀ w, sopenH os u!"-" u!"r" w = (.ok 0, w) := fun w => rfl
  have h2 : ∀ w, sopenH os u!"-" u!"w" w = (.ok 1, w) := fun w => rfl
  refine ⟨?_, ?_, ?_⟩
  · unfold placeFromFileH withFile
    rw [h1]
    simp only [readAll_leaves os _ _ _, closeH, List.set_cons_zero]
  · unfold kanjidicFilesH enterAll
    rw [h1]
    simp only [enterAll, List.nil_append, List.cons_ne_nil, if_false]
    have e : exitAll [0] (i :: o :: rest) = false :: o :: rest := rfl
    split
    · exact e
    · split <;> exact e
  · intro failure
    unfold placeDumpH withFile
    rw [h2]
    simp only [writeAll_leaves failure _ _, closeH, List.set_cons_succ, List.set_cons_zero]

/-- C83: a stream of the caller that is closed already makes the loaders raise `ValueError`. -/
theorem C83_closed_stream (env : DataEnv) (os : OS) (s : Nat) (w : World) (h : w[s]? ≠ some true) :
    radkDictH env os (some s) w = (.error .valueError, w) ∧ zhuyinH env os zhuyinToPinyinTable (some s) w = (.error .valueError, w) := by
  constructor
  · show readAll os radkDict s w = _
    unfold readAll; rw [if_neg h]
  · show readAll os zhuyinToPinyinTable s w = _
    unfold readAll; rw [if_neg h]

/-- The hypotheses can be met and the loaders can succeed: a file is opened, read and closed again, while a stream of the caller stays
open. -/
example : ∃ os : OS, ∃ d, placeFromFileH os u!"places" [true, true] = (.ok d, [true, true, false]) ∧
    codedH os id (.stream 2) [true, true, true] = (.error .unknownFormatError, [true, true, true]) :=
  ⟨⟨fun _ => none, fun _ => ([u!"0 a None None"], none)⟩, _, by rfl, by decide⟩

/-! ### Consumers that keep the generator -/

/-- A file name other than `-`, or a stream. -/
def Spec.goodSource : Source → Prop
  | .path f => f ≠ u!"-"
  | .stream _ => True

theorem keeping_clean {α : Type} (lim : Nat) (os : OS) (load : Rows → Except PyErr α) (src : Source) (hs : Spec.goodSource src) (w : World)
    (hok : ∀ f, src = .path f → (rowsOf lim os w.length).1 = [] ∨ ∃ a, load ((rowsOf lim os w.length).1, none) = .ok a) :
    Spec.Tidy w (keepingGenerator lim os load src w).2 := by
  cases src with
  | stream s => exact leaves_clean (consumeRows_leaves lim os load s) w
  | path f =>
    have hok := hok f rfl
    unfold keepingGenerator
    rcases sopenH_enters os f u!"r" hs w with ⟨e, h⟩ | h
    · simp only [h]; exact Tidy.refl w
    · simp only [h]
      split
      · rename_i h1 h2
        rcases hok with hok | ⟨a, ha⟩
        · rw [hok] at h1; cases h1
        · rw [ha] at h2; cases h2
      · exact close_new w

theorem keeping_open {α : Type} (lim : Nat) (os : OS) (load : Rows → Except PyErr α) (f : Str) (w : World)
    (ho : sopenH os f u!"r" w = (.ok w.length, w ++ [true])) (e : PyErr) (hne : (rowsOf lim os w.length).1 ≠ [])
    (hl : load ((rowsOf lim os w.length).1, none) = .error e) :
    keepingGenerator lim os load (.path f) w = (.error e, w ++ [true]) := by
  unfold keepingGenerator
  simp only [ho, hl]
  cases hr : (rowsOf lim os w.length).1 with
  | nil => exact absurd hr hne
  | cons r rs => rfl

/-- C84, partial: reading sentences or indices leaves nothing behind if every row is accepted, or if a stream was passed; exceptions of
the file itself are harmless as well.  Missing: files with a row that is rejected, see `C84_left_open`. -/
theorem C84_clean_partial {D : Type} (lim : Nat) (os : OS) (strptime : Str → Except PyErr D) (languages : Option (List Str))
    (edict : Option (Dict Str (List Str))) (subset : Option (List Int)) (src : Source) (hs : Spec.goodSource src) (w : World) :
    ((∀ f, src = .path f → (rowsOf lim os w.length).1 = [] ∨ ∃ a, sentLoad strptime languages ((rowsOf lim os w.length).1, none) = .ok a) →
      Spec.Tidy w (sentencesH lim os strptime languages src w).2) ∧
    ((∀ f, src = .path f → (rowsOf lim os w.length).1 = [] ∨ ∃ a, indexLoad edict subset ((rowsOf lim os w.length).1, none) = .ok a) →
      Spec.Tidy w (indicesH lim os edict subset src w).2) :=
  ⟨keeping_clean lim os _ src hs w, keeping_clean lim os _ src hs w⟩

/-- C84: if a row is rejected, the exception arrives while the file is still open. -/
theorem C84_left_open {D : Type} (lim : Nat) (os : OS) (strptime : Str → Except PyErr D) (languages : Option (List Str))
    (edict : Option (Dict Str (List Str))) (subset : Option (List Int)) (f : Str) (w : World)
    (ho : sopenH os f u!"r" w = (.ok w.length, w ++ [true])) (e : PyErr) (hne : (rowsOf lim os w.length).1 ≠ []) :
    (sentLoad strptime languages ((rowsOf lim os w.length).1, none) = .error e →
      sentencesH lim os strptime languages (.path f) w = (.error e, w ++ [true])) ∧
    (indexLoad edict subset ((rowsOf lim os w.length).1, none) = .error e →
      indicesH lim os edict subset (.path f) w = (.error e, w ++ [true])) :=
  ⟨keeping_open lim os _ f w ho e hne, keeping_open lim os _ f w ho e hne⟩

/-- C84: so the statement for all files is false: a file with two columns is left open. -/
theorem C84_refuted : ∃ (os : OS) (w : World), ¬ Spec.Tidy w (sentencesH (D := Nat) 100 os (fun _ => .error .valueError) none
    (.path u!"sentences.csv") w).2 := by
  refine ⟨⟨fun _ => none, fun _ => ([[0x31, 0x09, 0x78, 0x0a]], none)⟩, [true, true], ?_⟩
  have h := (C84_left_open (D := Nat) 100 ⟨fun _ => none, fun _ => ([[0x31, 0x09, 0x78, 0x0a]], none)⟩ (fun _ => .error .valueError) none none none
    u!"sentences.csv" [true, true] (by rfl) .invalidFileError (by decide)).1 (by rfl)
  rw [h]
  intro ht
  exact ht.2 2 (by decide) rfl

/-- The hypotheses of `C84_clean_partial` can be met. -/
example : ∃ a, sentLoad (D := Nat) (fun _ => .error .valueError) none
    ((rowsOf 100 ⟨fun _ => none, fun _ => ([[0x31, 0x09, 0x78, 0x09, 0x79, 0x0a]], none)⟩ 2).1, none) = .ok a := ⟨_, by rfl⟩

end Cjk
