import Verif.Props.Handles
import Verif.Props.Sources
/-!
# C83: with open files counted, the loaders give the same as without

Model/Handles.lean follows which streams are open; Model/Sources.lean follows which files are opened and what they say.  Both models give the same results.
-/

namespace Cjk
open Py

/-- The lines of a text file; a file that `codecs.open` opens is in binary mode and has the lines of `splitlines`. -/
def Spec.lineOf (call : OpenCall) (text : Str) : List Str :=
  match call with
  | .plain _ m => if m = u!"rb" then splitLines text else fileLines text
  | _ => fileLines text

/-- The operating system opens the files of the disk, and the streams with the handles from `n` on deliver the text of the opened files, in order. -/
structure Spec.Serves (os : OS) (d : DataDisk) (calls : List OpenCall) (n : Nat) : Prop where
  fails : os.fails = d.fails
  lines : ∀ i call text, calls[i]? = some call → d.file call.filename = .ok text → os.lines (n + i) = (Spec.lineOf call text, none)

theorem readAll_open {α : Type} (os : OS) (parse : List Str → Except PyErr α) (s : Nat) (w : World) (ls : List Str) (ho : w[s]? = some true)
    (hl : os.lines s = (ls, none)) : (readAll os parse s w).1 = parse ls := by
  unfold readAll
  rw [if_pos ho, hl]
  simp only
  cases parse ls <;> rfl

theorem last_open (w : World) : (w ++ [true])[w.length]? = some true := by simp

theorem file_cases (d : DataDisk) (f : Str) : (∃ e, d.file f = .error e) ∨ ∃ t, d.file f = .ok t := by
  cases d.file f with
  | error e => exact Or.inl ⟨e, rfl⟩
  | ok t => exact Or.inr ⟨t, rfl⟩

theorem openH_error {os : OS} {d : DataDisk} (h : os.fails = d.fails) {f m : Str} {e : PyErr} (hf : d.file f = .error e) (w : World) :
    openH os (.plain f m) w = (.error e, w) := by
  simp [openH, h, DataDisk.fails, OpenCall.filename, hf]

theorem openH_ok {os : OS} {d : DataDisk} (h : os.fails = d.fails) {f m t : Str} (hf : d.file f = .ok t) (w : World) :
    openH os (.plain f m) w = (.ok w.length, w ++ [true]) := by
  simp [openH, h, DataDisk.fails, OpenCall.filename, hf]

theorem withFile_error {α : Type} {enter : Prog Nat} {body : Nat → Prog α} {w : World} {e : PyErr} (h : enter w = (.error e, w)) :
    withFile enter body w = (.error e, w) := by
  unfold withFile; rw [h]

theorem withFile_read {α : Type} {enter : Prog Nat} {os : OS} {parse : List Str → Except PyErr α} {w : World} {ls : List Str}
    (h : enter w = (.ok w.length, w ++ [true])) (hl : os.lines w.length = (ls, none)) :
    withFile enter (readAll os parse) w = (parse ls, w ++ [false]) := by
  unfold withFile
  rw [h]
  simp only
  rw [readAll_open os parse w.length _ _ (last_open w) hl, readAll_leaves os parse _ _]
  simp [closeH]

/-- A resource that is opened and parsed. -/
theorem openResource_handle {α : Type} (d : DataDisk) (os : OS) (name : Str) (parse : List Str → Except PyErr α) (w : World)
    (h : Spec.Serves os d (openResource d name).2 w.length) :
    (withFile (defaultStream d.env os name) (readAll os parse) w).1 = ((openResource d name).parse parse).1 ∧
    ((∀ a, ((openResource d name).parse parse).1 = .ok a →
      (withFile (defaultStream d.env os name) (readAll os parse) w).2.length = w.length + 1 ∧ (openResource d name).2.length = 1)) := by
  cases hr : getResource d.env name with
  | error e =>
    have h1 : defaultStream d.env os name w = (.error e, w) := by simp [defaultStream, hr]
    have h2 : openResource d name = (.error e, []) := by simp [openResource, hr]
    rw [withFile_error h1, h2]
    exact ⟨rfl, fun a ha => by cases ha⟩
  | ok f =>
    have h0 : defaultStream d.env os name w = openH os (.plain f u!"r") w := by simp [defaultStream, hr]
    have h2 : openResource d name = openLines d f := by simp [openResource, hr]
    rw [h2] at h ⊢
    rcases file_cases d f with ⟨e, hf⟩ | ⟨t, hf⟩
    · have h3 : openLines d f = (.error e, [.plain f u!"r"]) := by simp [openLines, hf]
      rw [withFile_error (h0.trans (openH_error h.fails hf w)), h3]
      exact ⟨rfl, fun a ha => by cases ha⟩
    · have h3 : openLines d f = (.ok (fileLines t), [.plain f u!"r"]) := by simp [openLines, hf]
      rw [h3] at h ⊢
      have hl := h.lines 0 (.plain f u!"r") t rfl hf
      rw [withFile_read (h0.trans (openH_ok h.fails hf w)) hl]
      exact ⟨rfl, fun a _ => ⟨by simp, rfl⟩⟩

/-- A file that is opened with `sopen` and parsed. -/
theorem sopenH_cases {os : OS} {d : DataDisk} (h : os.fails = d.fails) {f : Str} (hp : Spec.PlainName f) (w : World) :
    (∀ e, d.file f = .error e → sopenH os f u!"r" w = (.error e, w)) ∧
    (∀ t, d.file f = .ok t → sopenH os f u!"r" w = (.ok w.length, w ++ [true])) := by
  unfold sopenH
  rw [sopen_plain os.fails [] f u!"r" hp (by decide), h]
  constructor
  · intro e hf
    simp [openFile, DataDisk.fails, OpenCall.filename, hf]
  · intro t hf
    simp [openFile, DataDisk.fails, OpenCall.filename, hf]

theorem serves_tail {os : OS} {d : DataDisk} {call : OpenCall} {calls : List OpenCall} {n : Nat} (h : Spec.Serves os d (call :: calls) n) :
    Spec.Serves os d calls (n + 1) := by
  refine ⟨h.fails, fun i c t hi ht => ?_⟩
  have := h.lines (i + 1) c t (by simpa using hi) ht
  rw [show n + (i + 1) = n + 1 + i by omega] at this
  exact this

theorem serves_append {os : OS} {d : DataDisk} {a b : List OpenCall} {n : Nat} (h : Spec.Serves os d (a ++ b) n) :
    Spec.Serves os d a n ∧ Spec.Serves os d b (n + a.length) := by
  refine ⟨⟨h.fails, fun i c t hi ht => h.lines i c t ?_ ht⟩, ⟨h.fails, fun i c t hi ht => ?_⟩⟩
  · rw [List.getElem?_append_left (by exact (List.getElem?_eq_some_iff.1 hi).1)]; exact hi
  · have := h.lines (a.length + i) c t (by rw [List.getElem?_append_right (by omega)]; simpa using hi) ht
    rw [← Nat.add_assoc] at this
    exact this

/-- All files of a list are opened. -/
theorem enterAll_open (os : OS) (d : DataDisk) (files : List Str) (hp : ∀ f ∈ files, Spec.PlainName f) :
    ∀ (opened : List Nat) (w : World), Spec.Serves os d (openAll d files).2 w.length →
      (∀ e, (openAll d files).1 = .error e → (enterAll os files opened w).1 = some e) ∧
      (∀ streams, (openAll d files).1 = .ok streams → ∃ (more : List Nat) (texts : List (List Str)),
        (enterAll os files opened w).1 = none ∧ (enterAll os files opened w).2.1 = opened ++ more ∧ streams = texts.map Lines.text ∧
        readChain os more = (texts.flatten, none) ∧ (more = [] ↔ texts = [])) := by
  induction files with
  | nil =>
    intro opened w h
    refine ⟨fun e he => (by cases he), fun streams hs => ?_⟩
    cases hs
    exact ⟨[], [], rfl, by simp [enterAll], rfl, rfl, by simp⟩
  | cons f fs ih =>
    intro opened w h
    have hpf := hp f (by simp)
    rcases file_cases d f with ⟨e, hf⟩ | ⟨t, hf⟩
    · have h1 : sopenLines d f = (.error e, [.plain f u!"r"]) := by rw [sopenLines_plain d f hpf, hf]; rfl
      have h2 : openAll d (f :: fs) = (.error e, [.plain f u!"r"]) := by simp only [openAll, h1]
      rw [h2] at h ⊢
      have h3 := (sopenH_cases h.fails hpf w).1 e hf
      refine ⟨fun e' he => ?_, fun streams hs => (by cases hs)⟩
      cases he
      simp only [enterAll, h3]
    · have h1 : sopenLines d f = (.ok (.text (fileLines t)), [.plain f u!"r"]) := by rw [sopenLines_plain d f hpf, hf]; rfl
      have h2 : openAll d (f :: fs) =
          ((openAll d fs).parse (fun rest => .ok (.text (fileLines t) :: rest)) |>.1, .plain f u!"r" :: (openAll d fs).2) := by
        simp only [openAll, h1]; rfl
      rw [h2] at h ⊢
      have h3 := (sopenH_cases h.fails hpf w).2 t hf
      have hlen : (w ++ [true]).length = w.length + 1 := by simp
      obtain ⟨ih1, ih2⟩ := ih (fun g hg => hp g (by simp [hg])) (opened ++ [w.length]) (w ++ [true]) (by rw [hlen]; exact serves_tail h)
      have he : enterAll os (f :: fs) opened w = enterAll os fs (opened ++ [w.length]) (w ++ [true]) := by simp only [enterAll, h3]
      rw [he]
      have hl : os.lines w.length = (fileLines t, none) := h.lines 0 (.plain f u!"r") t rfl hf
      cases ho : (openAll d fs).1 with
      | error e =>
        refine ⟨fun e' he' => ?_, fun streams hs => ?_⟩
        · simp only [Load.parse, ho] at he'
          cases he'
          exact ih1 e ho
        · simp only [Load.parse, ho] at hs
          cases hs
      | ok rest =>
        refine ⟨fun e' he' => ?_, fun streams hs => ?_⟩
        · simp only [Load.parse, ho] at he'
          cases he'
        · simp only [Load.parse, ho] at hs
          cases hs
          obtain ⟨more, texts, a1, a2, a3, a4, a5⟩ := ih2 rest ho
          refine ⟨w.length :: more, fileLines t :: texts, a1, ?_, by rw [a3]; rfl, ?_, by simp⟩
          · rw [a2, List.append_assoc]; rfl
          · simp only [readChain, hl, a4, List.flatten_cons]

theorem kanjidicStreams_texts (texts : List (List Str)) : ∀ dict : Dict Str KEntry,
    kanjidicStreams dict (texts.map Lines.text) = kanjidicLoop dict texts.flatten := by
  induction texts with
  | nil => intro dict; rfl
  | cons t ts ih =>
    intro dict
    simp only [List.map_cons, kanjidicStreams, List.flatten_cons, kanjidicLoop_append]
    cases kanjidicLoop dict t with
    | error e => rfl
    | ok d' => exact ih d'

theorem kanjidicFilesH_result (os : OS) (d : DataDisk) (files : List Str) (hp : ∀ f ∈ files, Spec.PlainName f) (w : World)
    (h : Spec.Serves os d (loadKanjidicFiles d files).2 w.length) : (kanjidicFilesH os files w).1 = (loadKanjidicFiles d files).1 := by
  have h' : Spec.Serves os d (openAll d files).2 w.length := by
    unfold loadKanjidicFiles at h
    cases ho : (openAll d files).1 <;> simp only [Load.parse, ho] at h <;> exact h
  obtain ⟨h1, h2⟩ := enterAll_open os d files hp [] w h'
  unfold kanjidicFilesH loadKanjidicFiles
  cases ho : (openAll d files).1 with
  | error e =>
    have := h1 e ho
    rcases hx : enterAll os files [] w with ⟨r, opened, w1⟩
    rw [hx] at this
    simp only at this
    subst this
    simp only [Load.parse, ho]
  | ok streams =>
    obtain ⟨more, texts, a1, a2, a3, a4, a5⟩ := h2 streams ho
    rcases hx : enterAll os files [] w with ⟨r, opened, w1⟩
    rw [hx] at a1 a2
    simp only [List.nil_append] at a1 a2
    subst a1 a2
    simp only [Load.parse, ho]
    by_cases hm : opened = []
    · rw [if_pos hm, if_pos (by rw [a3, a5.1 hm]; rfl)]
    · rw [if_neg hm, if_neg (by rw [a3]; simpa using fun e => hm (a5.2 e)), a3, kanjidicStreams_texts, a4]
      simp only
      cases kanjidicLoop [] texts.flatten <;> rfl

theorem parse_log {α β : Type} (l : Load α) (f : α → Except PyErr β) : (l.parse f).2 = l.2 := by
  unfold Load.parse
  cases l.1 <;> rfl

/-- C83: closing what they open does not change what the loaders give.  If the operating system serves the files of a disk (`Spec.Serves`), a loader that opens and
closes its files gives the value or the exception that the files determine (the results of C102), whatever streams were open before. -/
theorem C83_results (d : DataDisk) (os : OS) (w : World) :
    (Spec.Serves os d (loadRadkDict d none).2 w.length → (radkDictH d.env os none w).1 = (loadRadkDict d none).1) ∧
    (Spec.Serves os d (zhuyinStream d none).2 w.length →
      (zhuyinH d.env os zhuyinToPinyinTable none w).1 = (loadZhuyinToPinyin d none).1 ∧
      (zhuyinH d.env os pinyinToZhuyinTable none w).1 = (loadPinyinToZhuyin d none).1 ∧
      (zhuyinH d.env os getAllPinyin none w).1 = (loadAllPinyin d none).1 ∧
      (zhuyinH d.env os zhuyinRegexPattern none w).1 = (loadZhuyinRegex d none).1) ∧
    (Spec.Serves os d (loadPinyinTable d).2 w.length → (pinyinTableH d.env os w).1 = (loadPinyinTable d).1) ∧
    (∀ files, (∀ f ∈ files, Spec.PlainName f) → Spec.Serves os d (loadKanjidic d (some files)).2 w.length →
      (kanjidicH d.env os (some files) w).1 = (loadKanjidic d (some files)).1) ∧
    (∀ f, Spec.PlainName f → Spec.Serves os d (loadPlace d f).2 w.length → (placeFromFileH os f w).1 = (loadPlace d f).1) ∧
    (∀ order f, Spec.Serves os d (loadCodedFrom d order (.path f)).2 w.length →
      (codedH os order (.path f) w).1 = (loadCodedFrom d order (.path f)).1) ∧
    (∀ lim subset flt f, Spec.PlainName f → Spec.Serves os d (loadLinks d lim subset flt (.path f)).2 w.length →
      (linksH lim os subset flt (.path f) w).1 = (loadLinks d lim subset flt (.path f)).1) := by
  refine ⟨?_, ?_, ?_, ?_, ?_, ?_, ?_⟩
  · intro h
    have h' : Spec.Serves os d (openResource d u!"radkfile").2 w.length := by
      have e : (loadRadkDict d none).2 = (openResource d u!"radkfile").2 := parse_log _ _
      rw [e] at h; exact h
    exact (openResource_handle d os _ radkDict w h').1
  · intro h
    exact ⟨(openResource_handle d os _ _ w h).1, (openResource_handle d os _ _ w h).1, (openResource_handle d os _ _ w h).1,
      (openResource_handle d os _ _ w h).1⟩
  · intro h
    have hlog : ∃ more, (loadPinyinTable d).2 = (openResource d u!"tables/zhuyin_pinyin_conv_table").2 ++ more := by
      have e : (loadSegmenter d).2 = (openResource d u!"tables/zhuyin_pinyin_conv_table").2 := parse_log _ _
      rw [← e]
      unfold loadPinyinTable
      rcases loadSegmenter d with ⟨_ | _, log⟩
      · exact ⟨[], by simp⟩
      · simp only
        split
        · exact ⟨[], by simp⟩
        · exact ⟨_, rfl⟩
    obtain ⟨more, hm⟩ := hlog
    have h0 := h
    rw [hm] at h0
    obtain ⟨k1, k2⟩ := openResource_handle d os _ newSegmenter w (serves_append h0).1
    have k0 : (zhuyinH d.env os newSegmenter none w).1 = (loadSegmenter d).1 := k1
    unfold pinyinTableH
    have hs : zhuyinH d.env os newSegmenter none w = withFile (defaultStream d.env os u!"tables/zhuyin_pinyin_conv_table") (readAll os newSegmenter) w := rfl
    unfold loadPinyinTable at h ⊢
    rcases hz : zhuyinH d.env os newSegmenter none w with ⟨r, w1⟩
    rcases hl : loadSegmenter d with ⟨r', log⟩
    rw [hz, hl] at k0
    simp only at k0
    subst k0
    cases r with
    | error e => rfl
    | ok seg =>
      have k3 := k2 seg (by have := congrArg Prod.fst hl; exact this)
      rw [← hs, hz] at k3
      simp only at k3
      have e : (loadSegmenter d).2 = (openResource d u!"tables/zhuyin_pinyin_conv_table").2 := parse_log _ _
      rw [hl] at e
      simp only at e
      rw [← e] at k3
      cases hg : getResource d.env u!"tables/gbk_pinyin_table" with
      | error e => rfl
      | ok f =>
        rw [hl] at h
        simp only [hg] at h
        obtain ⟨h5, h6⟩ := serves_append h
        rw [k3.2, ← k3.1] at h6
        simp only
        rcases file_cases d f with ⟨e, hf⟩ | ⟨t, hf⟩
        · have h7 : codecsLines d f = (.error e, [.plain f u!"rb"]) := by simp [codecsLines, hf]
          rw [withFile_error (openH_error h.fails hf w1), h7]
          rfl
        · have h7 : codecsLines d f = (.ok (splitLines t), [.plain f u!"rb"]) := by simp [codecsLines, hf]
          rw [h7] at h6 ⊢
          have hl2 := h6.lines 0 (.plain f u!"rb") t rfl hf
          rw [withFile_read (openH_ok h.fails hf w1) hl2]
          rfl
  · intro files hp h
    exact kanjidicFilesH_result os d files hp w h
  · intro f hp h
    have e : (loadPlace d f).2 = (sopenLines d f).2 := parse_log _ _
    rw [e] at h
    unfold loadPlace placeFromFileH
    have hc := sopenH_cases h.fails hp w
    rw [sopenLines_plain d f hp] at h ⊢
    rcases file_cases d f with ⟨e, hf⟩ | ⟨t, hf⟩
    · rw [withFile_error (hc.1 e hf), hf]
      rfl
    · rw [withFile_read (hc.2 t hf) (h.lines 0 _ t rfl hf), hf]
      rfl
  · intro order f h
    have e : (loadCodedFrom d order (.path f)).2 = (openLines d f).2 := parse_log _ _
    rw [e] at h
    unfold loadCodedFrom codedH
    simp only
    rcases file_cases d f with ⟨e, hf⟩ | ⟨t, hf⟩
    · rw [withFile_error (openH_error h.fails hf w)]
      simp [openLines, hf, Load.parse]
    · have h3 : openLines d f = (.ok (fileLines t), [.plain f u!"r"]) := by simp [openLines, hf]
      rw [h3] at h ⊢
      rw [withFile_read (openH_ok h.fails hf w) (h.lines 0 _ t rfl hf)]
      rfl
  · intro lim subset flt f hp h
    have e : (loadLinks d lim subset flt (.path f)).2 = (sopenLines d f).2 := parse_log _ _
    rw [e] at h
    unfold loadLinks loadRows linksH loadFileH
    have hc := sopenH_cases h.fails hp w
    simp only
    rw [sopenLines_plain d f hp] at h ⊢
    rcases file_cases d f with ⟨e, hf⟩ | ⟨t, hf⟩
    · rw [withFile_error (hc.1 e hf), hf]
      rfl
    · have hl := h.lines 0 _ t rfl hf
      unfold withFile
      rw [hc.2 t hf, hf]
      simp only [consumeRows]
      rw [if_pos (last_open w)]
      simp only [Load.parse, Except.map, rowsOf]
      rw [show os.lines w.length = (fileLines t, none) from hl]
      simp only [rowsFrom]
      rcases loadFile lim (fileLines t) with ⟨rows, _ | e⟩ <;> rfl

theorem splitLinesAux_flatten : ∀ (acc s : Str), (splitLinesAux acc s).flatten = acc ++ s := by
  intro acc s
  fun_induction splitLinesAux acc s <;> simp_all

theorem splitLines_flatten (s : Str) : (splitLines s).flatten = s := splitLinesAux_flatten [] s

theorem endsWith_last (a b t : Str) (x y : Chr) (hxy : x ≠ y) : ¬ (∃ u, a ++ t ++ [x] = u ++ (b ++ [y])) := by
  rintro ⟨u, h⟩
  rw [← List.append_assoc] at h
  have := List.append_inj_right' h rfl
  exact hxy (List.singleton_inj.1 this)

/-- A generator that is kept in a variable: the rows before the rejected one have been read. -/
theorem keeping_result {α : Type} (lim : Nat) (os : OS) (d : DataDisk) (load : Rows → Except PyErr α)
    (hrow : ∀ rows e x, rows ≠ [] → load (rows, none) = .error e → load (rows, x) = .error e) (f : Str) (hp : Spec.PlainName f) (w : World)
    (h : Spec.Serves os d (loadRows d lim load (.path f)).2 w.length) :
    (keepingGenerator lim os load (.path f) w).1 = (loadRows d lim load (.path f)).1 := by
  have e : (loadRows d lim load (.path f)).2 = (sopenLines d f).2 := parse_log _ _
  rw [e] at h
  unfold loadRows keepingGenerator
  have hc := sopenH_cases h.fails hp w
  simp only
  rw [sopenLines_plain d f hp] at h ⊢
  rcases file_cases d f with ⟨e, hf⟩ | ⟨t, hf⟩
  · rw [hc.1 e hf, hf]
    rfl
  · have hl : os.lines w.length = (fileLines t, none) := h.lines 0 _ t rfl hf
    have hr : rowsOf lim os w.length = loadFile lim (fileLines t) := by
      unfold rowsOf
      rw [hl]
      rcases loadFile lim (fileLines t) with ⟨rows, _ | e⟩ <;> rfl
    rw [hc.2 t hf, hf]
    simp only [hr, Load.parse, Except.map, rowsFrom]
    split
    · rename_i r rs e h1 h2
      have := hrow _ e (loadFile lim (fileLines t)).2 (by rw [h1]; simp) h2
      rw [← this]
    · rfl

/-- C84: the same for the readers of sentences and indices, and C83 for the kanji lists and the default files of `Kanjidic`. -/
theorem C83_results_rest {D : Type} (d : DataDisk) (os : OS) (w : World) :
    (∀ lim (strptime : Str → Except PyErr D) languages f, Spec.PlainName f → Spec.Serves os d (loadSentences d lim strptime languages (.path f)).2 w.length →
      (sentencesH lim os strptime languages (.path f) w).1 = (loadSentences d lim strptime languages (.path f)).1) ∧
    (∀ lim edict subset f, Spec.PlainName f → Spec.Serves os d (loadIndices d lim edict subset (.path f)).2 w.length →
      (indicesH lim os edict subset (.path f) w).1 = (loadIndices d lim edict subset (.path f)).1) ∧
    (∀ name f, getResource d.env (u!"lists/char/" ++ name) = .ok f → Spec.Serves os d [.plain f u!"rb"] w.length →
      (kanjiListH d.env os name w).1 = getKanjiList d.env d.file name) ∧
    (∀ base, Spec.DataDir d.env base → Spec.Serves os d (loadKanjidic d none).2 w.length →
      (kanjidicH d.env os none w).1 = (loadKanjidic d none).1) := by
  refine ⟨?_, ?_, ?_, ?_⟩
  · intro lim strptime languages f hp h
    refine keeping_result lim os d _ ?_ f hp w h
    intro rows e x hne hl
    cases rows with
    | nil => exact absurd rfl hne
    | cons r rs =>
      simp only [sentLoad] at hl ⊢
      split at hl
      · rename_i h3
        rw [if_pos h3]
        split at hl
        · assumption
        · cases hl
      · rename_i h3
        rw [if_neg h3]
        exact hl
  · intro lim edict subset f hp h
    refine keeping_result lim os d _ ?_ f hp w h
    intro rows e x hne hl
    simp only [indexLoad] at hl ⊢
    split at hl
    · assumption
    · cases hl
  · intro name f hr h
    unfold kanjiListH getKanjiList
    rw [hr]
    simp only
    rcases file_cases d f with ⟨e, hf⟩ | ⟨t, hf⟩
    · rw [withFile_error (openH_error h.fails hf w), hf]
    · rw [withFile_read (openH_ok h.fails hf w) (h.lines 0 _ t rfl hf), hf]
      simp only [Spec.lineOf, if_true, splitLines_flatten]
  · intro base hb h
    have h1 := resource_path d.env base u!"kanjidic" hb (by decide)
    have h2 := resource_path d.env base u!"kanjd212" hb (by decide)
    have hplain : ∀ f ∈ [base ++ u!"/" ++ u!"kanjidic", base ++ u!"/" ++ u!"kanjd212"], Spec.PlainName f := by
      intro f hf
      simp only [List.mem_cons, List.not_mem_nil, or_false] at hf
      rcases hf with rfl | rfl
      · refine ⟨?_, ?_, ?_⟩
        · rintro ⟨u, hu⟩
          exact endsWith_last (base ++ u!"/") u!".bz" u!"kanjidi" 0x63 0x32 (by decide) ⟨u, by simpa using hu.symm⟩
        · rintro ⟨u, hu⟩
          exact endsWith_last (base ++ u!"/") u!".g" u!"kanjidi" 0x63 0x7a (by decide) ⟨u, by simpa using hu.symm⟩
        · intro e
          have := congrArg List.length e
          simp at this
      · refine ⟨?_, ?_, ?_⟩
        · rintro ⟨u, hu⟩
          have hu' : (base ++ u!"/kanjd2") ++ [0x31] ++ [0x32] = (u ++ u!".b") ++ [0x7a] ++ [0x32] := by simpa using hu.symm
          have h3 := List.append_inj_left' hu' rfl
          have h4 := List.append_inj_right' h3 rfl
          exact absurd (List.singleton_inj.1 h4) (by decide)
        · rintro ⟨u, hu⟩
          exact endsWith_last (base ++ u!"/") u!".g" u!"kanjd21" 0x32 0x7a (by decide) ⟨u, by simpa using hu.symm⟩
        · intro e
          have := congrArg List.length e
          simp at this
    have hl : loadKanjidic d none = loadKanjidicFiles d [base ++ u!"/" ++ u!"kanjidic", base ++ u!"/" ++ u!"kanjd212"] := by
      simp only [loadKanjidic, h1, h2]
    have hk : kanjidicH d.env os none w = kanjidicFilesH os [base ++ u!"/" ++ u!"kanjidic", base ++ u!"/" ++ u!"kanjd212"] w := by
      simp only [kanjidicH, h1, h2]
    rw [hl] at h ⊢
    rw [hk]
    exact kanjidicFilesH_result os d _ hplain w h

/-- A program that opens a file for writing and writes to it. -/
theorem write_result (os : OS) (failure : Option PyErr) (f m : Str) (hr : c!"r" ∉ m) (w : World) :
    (Spec.PlainName f → withFile (sopenH os f m) (writeAll failure) w =
      match os.fails (.plain f m), failure with
      | some e, _ => (.error e, w)
      | none, some e => (.error e, w ++ [false])
      | none, none => (.ok (), w ++ [false])) ∧
    (f = u!"-" → w[1]? = some true → withFile (sopenH os f m) (writeAll failure) w =
      match failure with
      | some e => (.error e, w.set 1 false)
      | none => (.ok (), w.set 1 false)) ∧
    (f = u!"-" → w[1]? ≠ some true → (withFile (sopenH os f m) (writeAll failure) w).1 = .error .valueError) := by
  refine ⟨fun hp => ?_, fun hf ho => ?_, fun hf ho => ?_⟩
  · unfold withFile sopenH
    rw [sopen_plain os.fails [] f m hp (fun h => hr h.1)]
    cases hfail : os.fails (.plain f m) with
    | some e => simp [openFile, hfail]
    | none => cases failure <;> simp [openFile, hfail, writeAll, closeH]
  all_goals
    subst hf
    have h1 : (sopen os.fails [] u!"-" m).1 = .ok .stdout := by
      unfold sopen
      simp [hr, show endsWith u!"-" u!".bz2" = false from rfl, show endsWith u!"-" u!".gz" = false from rfl]
    unfold withFile sopenH
    rw [h1]
    cases failure <;> simp [writeAll, ho, closeH]

/-- C83: `Place.dump` and storing a cache raise what opening the file raises, or else what writing raises, and otherwise succeed; the file is opened and closed.
With `-` they write to the standard output as long as it is open. -/
theorem C83_written (os : OS) (failure : Option PyErr) (w : World) (f : Str) :
    (Spec.PlainName f →
      placeDumpH os failure f w =
        (match os.fails (.plain f u!"w"), failure with
        | some e, _ => (.error e, w)
        | none, some e => (.error e, w ++ [false])
        | none, none => (.ok (), w ++ [false])) ∧
      storeCacheH os failure f w =
        (match os.fails (.plain f u!"wb"), failure with
        | some e, _ => (.error e, w)
        | none, some e => (.error e, w ++ [false])
        | none, none => (.ok (), w ++ [false]))) ∧
    (f = u!"-" → w[1]? = some true → placeDumpH os none f w = (.ok (), w.set 1 false)) ∧
    (f = u!"-" → w[1]? ≠ some true → (placeDumpH os failure f w).1 = .error .valueError) := by
  have hw : c!"r" ∉ u!"w" := by decide
  have hb : c!"r" ∉ u!"wb" := by decide
  exact ⟨fun hp => ⟨(write_result os failure f _ hw w).1 hp, (write_result os failure f _ hb w).1 hp⟩,
    fun hf ho => (write_result os none f _ hw w).2.1 hf ho, fun hf ho => (write_result os failure f _ hw w).2.2 hf ho⟩

/-- A dump on a full disk: the file is opened, the exception of writing comes out and the file is closed; a file that cannot be opened is not. -/
example : placeDumpH ⟨fun c => if c = .plain u!"ro.yaml" u!"w" then some .osError else none, fun _ => ([], none)⟩ (some .genericException) u!"out.yaml"
    [true, true] = (.error .genericException, [true, true, false]) ∧
    placeDumpH ⟨fun c => if c = .plain u!"ro.yaml" u!"w" then some .osError else none, fun _ => ([], none)⟩ none u!"ro.yaml" [true, true] =
      (.error .osError, [true, true]) :=
  ⟨((C83_written _ _ _ _).1 (by unfold Spec.PlainName; decide)).1, ((C83_written _ _ _ _).1 (by unfold Spec.PlainName; decide)).1⟩

/-- The hypothesis can be met: every disk is served by some operating system. -/
example (d : DataDisk) (calls : List OpenCall) (n : Nat) : ∃ os, Spec.Serves os d calls n := by
  refine ⟨⟨d.fails, fun s => match calls[s - n]? with
    | some call => match d.file call.filename with
      | .ok t => (Spec.lineOf call t, none)
      | .error _ => ([], none)
    | none => ([], none)⟩, rfl, fun i call t hi ht => ?_⟩
  simp [hi, ht]

end Cjk
