import Verif.Model.Sources
import Verif.Spec.Sources
import Verif.Props.Common
import Verif.Props.SplitByCodes
/-!
# Where the loaders get their text from (C102 to C104)
-/

namespace Cjk
open Py

/-! ### An optional stream (C102) -/

theorem resource_path (env : DataEnv) (base name : Str) (h : Spec.DataDir env base) (hn : name.head? ≠ some 0x2f) :
    getResource env name = .ok (base ++ u!"/" ++ name) := by
  rw [C73_resource env base name h.1 h.2.1 hn, if_neg h.2.2]

theorem readsResource_parse {α : Type} (parse : List Str → Except PyErr α) (name : Str) (hn : name.head? ≠ some 0x2f) :
    Spec.ReadsResource (fun d istream => (streamContext (openResource d name) istream).parse parse) parse name where
  stream d ls := rfl
  file d base text hb hf := by
    simp only [streamContext, openResource, resource_path d.env base name hb hn, openLines, hf, Load.parse]
  unreadable d base e hb hf := by
    simp only [streamContext, openResource, resource_path d.env base name hb hn, openLines, hf, Load.parse]
  missing d e he := by
    simp only [streamContext, openResource, C73_missing d.env name e he, Load.parse]

/-- C102: `RadkDict(istream)` parses the stream and opens nothing; `RadkDict()` opens exactly the file `radkfile` of the data directory
and parses it. -/
theorem C102_radkdict : Spec.ReadsResource loadRadkDict radkDict u!"radkfile" := readsResource_parse _ _ (by decide)

theorem loadPinyinRegex_eq (d : DataDisk) (istream : Option (List Str)) :
    loadPinyinRegex d istream = (zhuyinStream d istream).parse pinyinRegexPattern := by
  unfold loadPinyinRegex loadAllPinyin
  cases h : (zhuyinStream d istream).1 with
  | error e => simp only [Load.parse, h]
  | ok ls =>
    simp only [Load.parse, h, pinyinRegexPattern]
    cases getAllPinyin ls <;> rfl

/-- C102: the same for the five functions of the zhuyin table. -/
theorem C102_zhuyin :
    Spec.ReadsResource loadZhuyinToPinyin zhuyinToPinyinTable u!"tables/zhuyin_pinyin_conv_table" ∧
    Spec.ReadsResource loadPinyinToZhuyin pinyinToZhuyinTable u!"tables/zhuyin_pinyin_conv_table" ∧
    Spec.ReadsResource loadAllPinyin getAllPinyin u!"tables/zhuyin_pinyin_conv_table" ∧
    Spec.ReadsResource loadPinyinRegex pinyinRegexPattern u!"tables/zhuyin_pinyin_conv_table" ∧
    Spec.ReadsResource loadZhuyinRegex zhuyinRegexPattern u!"tables/zhuyin_pinyin_conv_table" := by
  refine ⟨readsResource_parse _ _ (by decide), readsResource_parse _ _ (by decide), readsResource_parse _ _ (by decide), ?_,
    readsResource_parse _ _ (by decide)⟩
  have : loadPinyinRegex = fun d istream => (zhuyinStream d istream).parse pinyinRegexPattern :=
    funext fun d => funext fun i => loadPinyinRegex_eq d i
  rw [this]
  exact readsResource_parse _ _ (by decide)

/-- C102: `print_radicals` reads the same file as `RadkDict()`, once. -/
theorem C102_print_radicals (d : DataDisk) (base text : Str) (ks : List Str) (hb : Spec.DataDir d.env base)
    (hf : d.file (base ++ u!"/radkfile") = .ok text) :
    printRadicalsFrom d ks = (printRadicals (fileLines text) ks, [.plain (base ++ u!"/radkfile") u!"r"]) := by
  have h := C102_radkdict.file d base text hb (by simpa using hf)
  unfold printRadicalsFrom printRadicals
  rw [h]
  cases radkDict (fileLines text) <;> simp

/-- C102: `PinyinTable()` opens the table of syllables, then the table of hanzi, and nothing else; its entries are those of the second. -/
theorem C102_pinyin_table (d : DataDisk) (base syllables hanzi : Str) (hb : Spec.DataDir d.env base)
    (hs : d.file (base ++ u!"/tables/zhuyin_pinyin_conv_table") = .ok syllables)
    (hh : d.file (base ++ u!"/tables/gbk_pinyin_table") = .ok hanzi) (all : List Str) (ha : getAllPinyin (fileLines syllables) = .ok all) :
    loadPinyinTable d = (newPinyinTable (splitLines hanzi),
      [.plain (base ++ u!"/tables/zhuyin_pinyin_conv_table") u!"r", .plain (base ++ u!"/tables/gbk_pinyin_table") u!"rb"]) := by
  have h := (readsResource_parse newSegmenter u!"tables/zhuyin_pinyin_conv_table" (by decide)).file d base syllables hb (by simpa using hs)
  have h2 : newSegmenter (fileLines syllables) = .ok (longestFirst all) := by simp only [newSegmenter, ha]
  rw [h2] at h
  have h3 : loadSegmenter d = (.ok (longestFirst all), [.plain (base ++ u!"/" ++ u!"tables/zhuyin_pinyin_conv_table") u!"r"]) := h
  unfold loadPinyinTable
  rw [h3]
  simp only [resource_path d.env base u!"tables/gbk_pinyin_table" hb (by decide)]
  have hh' : d.file (base ++ u!"/" ++ u!"tables/gbk_pinyin_table") = .ok hanzi := by simpa using hh
  simp only [codecsLines, hh', Load.parse]
  simp

/-- C102: a syllable table that cannot be used ends `PinyinTable()` before the hanzi table is opened. -/
theorem C102_pinyin_table_first (d : DataDisk) (base syllables : Str) (hb : Spec.DataDir d.env base) (e : PyErr)
    (hs : d.file (base ++ u!"/tables/zhuyin_pinyin_conv_table") = .error e ∨
      (d.file (base ++ u!"/tables/zhuyin_pinyin_conv_table") = .ok syllables ∧ getAllPinyin (fileLines syllables) = .error e)) :
    loadPinyinTable d = (.error e, [.plain (base ++ u!"/tables/zhuyin_pinyin_conv_table") u!"r"]) := by
  have hr := readsResource_parse newSegmenter u!"tables/zhuyin_pinyin_conv_table" (by decide)
  have h3 : loadSegmenter d = (.error e, [.plain (base ++ u!"/" ++ u!"tables/zhuyin_pinyin_conv_table") u!"r"]) := by
    rcases hs with hs | ⟨hs, ha⟩
    · exact hr.unreadable d base e hb (by simpa using hs)
    · have h := hr.file d base syllables hb (by simpa using hs)
      have h2 : newSegmenter (fileLines syllables) = .error e := by simp only [newSegmenter, ha]
      rw [h2] at h
      exact h
  unfold loadPinyinTable
  rw [h3]
  simp

/-! ### Kanjidic files -/

theorem suffix_iff (s e : Str) : endsWith s e = true ↔ e <:+ s := by
  unfold endsWith; exact List.isSuffixOf_iff_suffix

theorem sopen_plain (os : OpenCall → Option PyErr) (log : List OpenCall) (f mode : Str) (h : Spec.PlainName f)
    (hm : ¬ (0x72 ∈ mode ∧ 0x77 ∈ mode)) : sopen os log f mode = openFile os log (.plain f mode) := by
  unfold sopen
  rw [if_neg (by simpa using hm), if_neg (fun e => h.1 ((suffix_iff _ _).1 e)), if_neg (fun e => h.2.1 ((suffix_iff _ _).1 e)), if_neg h.2.2]

theorem sopenLines_plain (d : DataDisk) (f : Str) (h : Spec.PlainName f) :
    sopenLines d f = ((d.file f).map (fun t => .text (fileLines t)), [.plain f u!"r"]) := by
  unfold sopenLines
  rw [sopen_plain d.fails [] f u!"r" h (by decide)]
  unfold openFile DataDisk.fails
  simp only [OpenCall.filename]
  cases hf : d.file f with
  | error e => rfl
  | ok t => simp only [hf]; rfl

theorem kanjidicLoop_append (ls ls' : List Str) : ∀ d : Dict Str KEntry, kanjidicLoop d (ls ++ ls') =
    (match kanjidicLoop d ls with | .error e => .error e | .ok d' => kanjidicLoop d' ls') := by
  induction ls with
  | nil => intro d; rfl
  | cons l ls ih =>
    intro d
    simp only [List.cons_append, kanjidicLoop]
    split
    · exact ih d
    · cases kanjidicLine l with
      | error e => rfl
      | ok k => exact ih _

theorem kanjidicStreams_text (texts : List (List Str)) : ∀ d : Dict Str KEntry,
    kanjidicStreams d (texts.map Lines.text) = kanjidicLoop d texts.flatten := by
  induction texts with
  | nil => intro d; rfl
  | cons t texts ih =>
    intro d
    simp only [List.map_cons, kanjidicStreams, List.flatten_cons, kanjidicLoop_append]
    cases kanjidicLoop d t with
    | error e => rfl
    | ok d' => exact ih d'

theorem openAll_plain (d : DataDisk) (files : List (Str × Str)) (h : ∀ f ∈ files, Spec.PlainName f.1 ∧ d.file f.1 = .ok f.2) :
    openAll d (files.map Prod.fst) = (.ok (files.map (fun f => Lines.text (fileLines f.2))), files.map (fun f => .plain f.1 u!"r")) := by
  induction files with
  | nil => rfl
  | cons f files ih =>
    have ih := ih (fun g hg => h g (by simp [hg]))
    have hf := h f (by simp)
    simp only [List.map_cons, openAll, sopenLines_plain d f.1 hf.1, hf.2, ih, Except.map, Load.parse]
    rfl

/-- C102: `Kanjidic(files)` opens exactly the files it is given, in their order, whatever the environment, and reads them one after the
other. -/
theorem C102_kanjidic_files (d : DataDisk) (files : List (Str × Str)) (h : ∀ f ∈ files, Spec.PlainName f.1 ∧ d.file f.1 = .ok f.2) :
    loadKanjidic d (some (files.map Prod.fst)) = (kanjidic (files.map (fun f => fileLines f.2)), files.map (fun f => .plain f.1 u!"r")) := by
  show loadKanjidicFiles d _ = _
  unfold loadKanjidicFiles
  simp only [openAll_plain d files h, Load.parse, kanjidic]
  congr 1
  have hs := kanjidicStreams_text (files.map (fun f => fileLines f.2)) []
  rw [List.map_map] at hs
  by_cases hn : files = []
  · subst hn; rfl
  · rw [if_neg (by simpa using hn), if_neg (by simpa using hn)]
    exact hs

/-- C102: a file that cannot be opened ends it with the exception of opening; the files behind it are not opened. -/
theorem C102_kanjidic_unreadable (d : DataDisk) (files : List (Str × Str)) (bad : Str) (rest : List Str) (e : PyErr)
    (h : ∀ f ∈ files, Spec.PlainName f.1 ∧ d.file f.1 = .ok f.2) (hb : Spec.PlainName bad) (he : d.file bad = .error e) :
    loadKanjidic d (some (files.map Prod.fst ++ bad :: rest)) = (.error e, (files.map Prod.fst ++ [bad]).map (fun f => .plain f u!"r")) := by
  show loadKanjidicFiles d _ = _
  have key : openAll d (files.map Prod.fst ++ bad :: rest) = (.error e, (files.map Prod.fst ++ [bad]).map (fun f => .plain f u!"r")) := by
    induction files with
    | nil => simp only [List.map_nil, List.nil_append, openAll, sopenLines_plain d bad hb, he, Except.map]; rfl
    | cons f files ih =>
      have ih := ih (fun g hg => h g (by simp [hg]))
      have hf := h f (by simp)
      simp only [List.map_cons, List.cons_append, openAll, sopenLines_plain d f.1 hf.1, hf.2, ih, Except.map, Load.parse]
      rfl
  unfold loadKanjidicFiles
  simp only [key, Load.parse]

/-- C102: `Kanjidic()` is `Kanjidic` of the files `kanjidic` and `kanjd212` of the data directory. -/
theorem C102_kanjidic_default (d : DataDisk) :
    (∀ base, Spec.DataDir d.env base → loadKanjidic d none = loadKanjidic d (some [base ++ u!"/kanjidic", base ++ u!"/kanjd212"])) ∧
    (∀ e, findPath d.env = .error e → loadKanjidic d none = (.error e, [])) := by
  refine ⟨fun base hb => ?_, fun e he => ?_⟩
  · simp only [loadKanjidic, resource_path d.env base u!"kanjidic" hb (by decide), resource_path d.env base u!"kanjd212" hb (by decide)]
    simp
  · simp only [loadKanjidic, C73_missing d.env _ e he]

/-- C102: for `load_coded_dictionary` and the three Tatoeba readers a file name and an open stream with the same lines give the same;
with a name exactly this file is opened, with a stream none. -/
theorem C102_path_or_stream {D : Type} (d : DataDisk) (f text : Str) (hf : d.file f = .ok text) :
    (∀ order, ∃ r, loadCodedFrom d order (.stream (fileLines text)) = (r, []) ∧ loadCodedFrom d order (.path f) = (r, [.plain f u!"r"])) ∧
    (Spec.PlainName f → ∀ lim,
      (∀ (strptime : Str → Except PyErr D) languages, ∃ r, loadSentences d lim strptime languages (.stream (fileLines text)) = (r, []) ∧
        loadSentences d lim strptime languages (.path f) = (r, [.plain f u!"r"])) ∧
      (∀ subset flt, ∃ r, loadLinks d lim subset flt (.stream (fileLines text)) = (r, []) ∧
        loadLinks d lim subset flt (.path f) = (r, [.plain f u!"r"])) ∧
      (∀ edict subset, ∃ r, loadIndices d lim edict subset (.stream (fileLines text)) = (r, []) ∧
        loadIndices d lim edict subset (.path f) = (r, [.plain f u!"r"]))) := by
  refine ⟨fun order => ⟨_, rfl, by simp only [loadCodedFrom, openLines, hf, Load.parse]⟩, fun hp lim => ?_⟩
  have key : ∀ {α : Type} (load : Rows → Except PyErr α),
      ∃ r, loadRows d lim load (.stream (fileLines text)) = (r, []) ∧ loadRows d lim load (.path f) = (r, [.plain f u!"r"]) := by
    intro α load
    refine ⟨_, rfl, ?_⟩
    simp only [loadRows, sopenLines_plain d f hp, hf, Except.map, Load.parse, rowsFrom]
  exact ⟨fun _ _ => key _, fun _ _ => key _, fun _ _ => key _⟩

/-- A disk with a data directory and a file. -/
def exampleDisk : DataDisk where
  env := ⟨none, some u!"/home/x", fun p => p == u!"/usr/share/data/cjkdata"⟩
  file f :=
    if f = u!"/usr/share/data/cjkdata/radkfile" then .ok u!"$ 一 1\r\n亜\r\n"
    else if f = u!"/usr/share/data/cjkdata/kanjidic" then .ok u!"亜 3021 S7 P4-7-1 {Asia}\n"
    else if f = u!"words.gz" then .ok u!"亜 3021 S7 P4-7-1 {Asia}\n"
    else .error .osError
  stdin := []

example : Spec.DataDir exampleDisk.env u!"/usr/share/data/cjkdata" := by unfold Spec.DataDir; decide +kernel
example : (loadRadkDict exampleDisk none).2 = [.plain u!"/usr/share/data/cjkdata/radkfile" u!"r"] := by decide +kernel
example : printRadicalsFrom exampleDisk [u!"亜"] = (([u!"亜:  一"], none), [.plain u!"/usr/share/data/cjkdata/radkfile" u!"r"]) := by
  decide +kernel
example : (loadRadkDict exampleDisk (some [u!"$ 丨 1\n", u!"中\n"])).2 = [] := by decide +kernel
example : loadAllPinyin exampleDisk none = (.error .osError, [.plain u!"/usr/share/data/cjkdata/tables/zhuyin_pinyin_conv_table" u!"r"]) := by
  decide +kernel
example : ((loadKanjidic exampleDisk (some [u!"/usr/share/data/cjkdata/kanjidic"])).1.map Dict.keys) = .ok [u!"亜"] := by decide +kernel
example : (loadKanjidic exampleDisk none).1 = .error .osError ∧ (loadKanjidic exampleDisk none).2 =
    [.plain u!"/usr/share/data/cjkdata/kanjidic" u!"r", .plain u!"/usr/share/data/cjkdata/kanjd212" u!"r"] := by decide +kernel

/-! ### Compressed files (C103) -/

theorem sopenLines_compressed (d : DataDisk) (f text : Str) (hc : Spec.Compressed f) (hf : d.file f = .ok text) :
    ∃ call, sopenLines d f = (.ok (.bytes (byteLines (utf8 text))), [call]) := by
  unfold sopenLines sopen
  rw [if_neg (by decide)]
  by_cases h1 : endsWith f u!".bz2" = true
  · rw [if_pos h1]
    refine ⟨.bz2 f u!"r", ?_⟩
    simp only [openFile, DataDisk.fails, OpenCall.filename, hf, List.nil_append, Except.map]
  · have h2 : endsWith f u!".gz" = true := by
      rcases hc with hc | hc
      · exact absurd ((suffix_iff _ _).2 hc) h1
      · exact (suffix_iff _ _).2 hc
    rw [if_neg h1, if_pos h2]
    refine ⟨.gzip f u!"r", ?_⟩
    simp only [openFile, DataDisk.fails, OpenCall.filename, hf, List.nil_append, Except.map]

theorem utf8_nil (s : Str) : utf8 s = [] ↔ s = [] := by
  cases s with
  | nil => simp [utf8]
  | cons c s =>
    simp only [utf8, List.flatMap_cons, List.append_eq_nil_iff, reduceCtorEq, iff_false, not_and]
    intro h
    exfalso
    unfold utf8Char at h
    split at h <;> [skip; split at h <;> [skip; split at h]] <;> simp at h

theorem byteLinesAux_ne (acc b : List Nat) (h : acc ≠ [] ∨ b ≠ []) : byteLinesAux acc b ≠ [] := by
  induction b generalizing acc with
  | nil => rcases h with h | h
           · simp [byteLinesAux, h]
           · exact absurd rfl h
  | cons c b ih =>
    unfold byteLinesAux
    split
    · simp
    · exact ih _ (Or.inl (by simp))

theorem byteLines_cons (text : Str) (h : text ≠ []) : ∃ l rest, byteLines (utf8 text) = l :: rest := by
  have : byteLines (utf8 text) ≠ [] := byteLinesAux_ne [] _ (Or.inr (fun e => h ((utf8_nil text).1 e)))
  cases hb : byteLines (utf8 text) with
  | nil => exact absurd hb this
  | cons l rest => exact ⟨l, rest, rfl⟩

/-- C103, the part that holds: an empty compressed file is read like an empty file. -/
theorem C103_empty_partial {D : Type} (d : DataDisk) (f g : Str) (hc : Spec.Compressed f) (hf : d.file f = .ok []) (hp : Spec.PlainName g)
    (hg : d.file g = .ok []) :
    (loadKanjidic d (some [f])).1 = (loadKanjidic d (some [g])).1 ∧
    (loadPlace d f).1 = (loadPlace d g).1 ∧
    ∀ lim, (∀ (strptime : Str → Except PyErr D) languages,
        (loadSentences d lim strptime languages (.path f)).1 = (loadSentences d lim strptime languages (.path g)).1) ∧
      (∀ subset flt, (loadLinks d lim subset flt (.path f)).1 = (loadLinks d lim subset flt (.path g)).1) ∧
      (∀ edict subset, (loadIndices d lim edict subset (.path f)).1 = (loadIndices d lim edict subset (.path g)).1) := by
  obtain ⟨call, h⟩ := sopenLines_compressed d f [] hc hf
  have hb : byteLines (utf8 []) = [] := rfl
  rw [hb] at h
  have hg' := sopenLines_plain d g hp
  rw [hg] at hg'
  refine ⟨?_, ?_, fun lim => ?_⟩
  · simp only [loadKanjidic, loadKanjidicFiles, openAll, h, hg', Load.parse, Except.map]
    rfl
  · simp only [loadPlace, h, hg', Load.parse, Except.map]
    rfl
  · have key : ∀ {α : Type} (load : Rows → Except PyErr α), (loadRows d lim load (.path f)).1 = (loadRows d lim load (.path g)).1 := by
      intro α load
      simp only [loadRows, h, hg', Load.parse, Except.map]
      rfl
    exact ⟨fun _ _ => key _, fun _ _ => key _, fun _ _ => key _⟩

/-- C103 is false: `Kanjidic` raises `TypeError` for every compressed file that is not empty, whatever the file says. -/
theorem C103_kanjidic_refuted (d : DataDisk) (f text : Str) (hc : Spec.Compressed f) (hf : d.file f = .ok text) (ht : text ≠ []) :
    (loadKanjidic d (some [f])).1 = .error .typeError := by
  obtain ⟨call, h⟩ := sopenLines_compressed d f text hc hf
  obtain ⟨l, rest, hb⟩ := byteLines_cons text ht
  rw [hb] at h
  simp only [loadKanjidic, loadKanjidicFiles, openAll, h, Load.parse]
  rfl

/-- The lines of a file as `sopen` gives them. -/
theorem sopenLines_either (d : DataDisk) (f text : Str) (h : Spec.PlainName f ∨ Spec.Compressed f) (hf : d.file f = .ok text) :
    (Spec.PlainName f ∧ (sopenLines d f).1 = .ok (.text (fileLines text))) ∨
    (Spec.Compressed f ∧ (sopenLines d f).1 = .ok (.bytes (byteLines (utf8 text)))) := by
  rcases h with h | h
  · left
    refine ⟨h, ?_⟩
    rw [sopenLines_plain d f h, hf]; rfl
  · right
    obtain ⟨call, hc⟩ := sopenLines_compressed d f text h hf
    exact ⟨h, by rw [hc]⟩

theorem openAll_cons (d : DataDisk) (f : Str) (fs : List Str) (ls : Lines) (rest : List Lines) (h : (sopenLines d f).1 = .ok ls)
    (hr : (openAll d fs).1 = .ok rest) : (openAll d (f :: fs)).1 = .ok (ls :: rest) := by
  simp only [openAll]
  rcases ho : sopenLines d f with ⟨r, log⟩
  rw [ho] at h
  cases h
  simp only [Load.parse, hr]

/-- C103, exactly what `Kanjidic` does with compressed files among the others: empty ones count like empty uncompressed files; the first
one that is not empty ends it with `TypeError`, unless a line of a file in front of it is malformed. -/
theorem C103_kanjidic_exact (d : DataDisk) (files : List (Str × Str))
    (h : ∀ f ∈ files, (Spec.PlainName f.1 ∨ Spec.Compressed f.1) ∧ d.file f.1 = .ok f.2) (he : ∀ f ∈ files, Spec.Compressed f.1 → f.2 = []) :
    (loadKanjidic d (some (files.map Prod.fst))).1 = kanjidic (files.map (fun f => fileLines f.2)) ∧
    ∀ (bad : Str × Str) (rest : List (Str × Str)), Spec.Compressed bad.1 → d.file bad.1 = .ok bad.2 → bad.2 ≠ [] →
      (∀ f ∈ rest, (Spec.PlainName f.1 ∨ Spec.Compressed f.1) ∧ d.file f.1 = .ok f.2) →
      (loadKanjidic d (some ((files ++ bad :: rest).map Prod.fst))).1 =
        match kanjidic (files.map (fun f => fileLines f.2)) with
        | .error e => .error e
        | .ok _ => .error .typeError := by
  have hopen : ∀ fs : List (Str × Str), (∀ f ∈ fs, (Spec.PlainName f.1 ∨ Spec.Compressed f.1) ∧ d.file f.1 = .ok f.2) →
      ∃ ls, (openAll d (fs.map Prod.fst)).1 = .ok ls ∧ (ls = [] ↔ fs = []) := by
    intro fs
    induction fs with
    | nil => intro _; exact ⟨[], rfl, by simp⟩
    | cons f fs ih =>
      intro hfs
      obtain ⟨ls, h1, _⟩ := ih (fun g hg => hfs g (by simp [hg]))
      obtain ⟨hk, hf⟩ := hfs f (by simp)
      rcases sopenLines_either d f.1 f.2 hk hf with ⟨_, ho⟩ | ⟨_, ho⟩ <;>
        exact ⟨_ :: ls, openAll_cons d f.1 _ _ _ ho h1, by simp⟩
  have hstreams : ∀ (fs tail : List (Str × Str)) (more : List Lines), (openAll d (tail.map Prod.fst)).1 = .ok more →
      (∀ f ∈ fs, (Spec.PlainName f.1 ∨ Spec.Compressed f.1) ∧ d.file f.1 = .ok f.2) → (∀ f ∈ fs, Spec.Compressed f.1 → f.2 = []) →
      ∃ ls, (openAll d ((fs ++ tail).map Prod.fst)).1 = .ok ls ∧ (ls = [] ↔ fs = [] ∧ more = []) ∧
        ∀ dict, kanjidicStreams dict ls =
          match kanjidicLoop dict (fs.map (fun f => fileLines f.2)).flatten with
          | .error e => .error e
          | .ok dict' => kanjidicStreams dict' more := by
    intro fs tail more hm
    induction fs with
    | nil => intro _ _; exact ⟨more, hm, by simp, fun dict => rfl⟩
    | cons f fs ih =>
      intro hfs hes
      obtain ⟨ls, h1, _, h3⟩ := ih (fun g hg => hfs g (by simp [hg])) (fun g hg => hes g (by simp [hg]))
      obtain ⟨hk, hf⟩ := hfs f (by simp)
      rcases sopenLines_either d f.1 f.2 hk hf with ⟨_, ho⟩ | ⟨hc, ho⟩
      · refine ⟨_, openAll_cons d f.1 _ _ _ ho h1, by simp, fun dict => ?_⟩
        simp only [kanjidicStreams, List.map_cons, List.flatten_cons, kanjidicLoop_append]
        cases kanjidicLoop dict (fileLines f.2) with
        | error e => rfl
        | ok dict' => exact h3 dict'
      · have hn := hes f (by simp) hc
        rw [hn, (utf8_nil []).2 rfl] at ho
        refine ⟨_, openAll_cons d f.1 _ _ _ ho h1, by simp, fun dict => ?_⟩
        rw [show kanjidicStreams dict (Lines.bytes (byteLines []) :: ls) = kanjidicStreams dict ls from rfl, h3 dict]
        simp only [List.map_cons, List.flatten_cons, hn]
        rfl
  refine ⟨?_, ?_⟩
  · show (loadKanjidicFiles d _).1 = _
    obtain ⟨ls, h1, h2, h3⟩ := hstreams files [] [] rfl h he
    rw [List.append_nil] at h1
    unfold loadKanjidicFiles
    simp only [Load.parse, h1, kanjidic]
    by_cases hn : files = []
    · rw [if_pos (h2.2 ⟨hn, rfl⟩), if_pos (by simpa using hn)]
    · rw [if_neg (fun e => hn (h2.1 e).1), if_neg (by simpa using hn), h3 []]
      cases kanjidicLoop [] (files.map (fun f => fileLines f.2)).flatten <;> rfl
  · intro bad rest hc hf hne hr
    show (loadKanjidicFiles d _).1 = _
    obtain ⟨more, hm, _⟩ := hopen rest hr
    obtain ⟨call, hb⟩ := sopenLines_compressed d bad.1 bad.2 hc hf
    have hm' := openAll_cons d bad.1 (rest.map Prod.fst) _ more (by rw [hb]) hm
    obtain ⟨ls, h1, h2, h3⟩ := hstreams files (bad :: rest) _ hm' h he
    unfold loadKanjidicFiles
    simp only [Load.parse, h1, kanjidic]
    rw [if_neg (fun e => by simpa using (h2.1 e).2), h3 []]
    have hx : ∀ dict', kanjidicStreams dict' (Lines.bytes (byteLines (utf8 bad.2)) :: more) = .error .typeError := by
      intro dict'
      cases hl : byteLines (utf8 bad.2) with
      | nil =>
        exfalso
        exact byteLinesAux_ne [] _ (Or.inr (fun e => hne ((utf8_nil _).1 e))) hl
      | cons l more' => rfl
    by_cases hn : files = []
    · subst hn
      simp only [List.map_nil, List.flatten_nil, kanjidicLoop, if_true, hx]
    · rw [if_neg (by simpa using hn)]
      cases kanjidicLoop [] (files.map (fun f => fileLines f.2)).flatten with
      | error e => rfl
      | ok dict' => exact hx dict'

/-- C103 is false: the Tatoeba readers raise `csv.Error` for every compressed file that is not empty. -/
theorem C103_tatoeba_refuted {D : Type} (d : DataDisk) (f text : Str) (hc : Spec.Compressed f) (hf : d.file f = .ok text) (ht : text ≠ [])
    (lim : Nat) :
    (∀ (strptime : Str → Except PyErr D) languages, (loadSentences d lim strptime languages (.path f)).1 = .error .genericException) ∧
    (∀ subset flt, (loadLinks d lim subset flt (.path f)).1 = .error .genericException) ∧
    (∀ edict subset, (loadIndices d lim edict subset (.path f)).1 = .error .genericException) := by
  obtain ⟨call, h⟩ := sopenLines_compressed d f text hc hf
  obtain ⟨l, rest, hb⟩ := byteLines_cons text ht
  rw [hb] at h
  refine ⟨fun _ _ => ?_, fun _ _ => ?_, fun _ _ => ?_⟩
  · simp only [loadSentences, loadRows, h, Load.parse, rowsFrom, sentLoad]; rfl
  · simp only [loadLinks, loadRows, h, Load.parse, rowsFrom, linkLoad, linkRows]
  · simp only [loadIndices, loadRows, h, Load.parse, rowsFrom, indexLoad, indexRows]

/-- C103 is false: `Place.from_file` never reads a place from a compressed file. -/
theorem C103_from_file_refuted (d : DataDisk) (f text : Str) (hc : Spec.Compressed f) (hf : d.file f = .ok text) (p : PStore) :
    (loadPlace d f).1 ≠ .ok p := by
  obtain ⟨call, h⟩ := sopenLines_compressed d f text hc hf
  simp only [loadPlace, h, Load.parse]
  cases byteLines (utf8 text) <;> simp

theorem placeDump_ne (r : Str → Str) (p : Place) : placeDump r p ≠ [] := by
  cases p with
  | node l rd a k => simp [placeDump, placeWalk, placeWalkLoop]

/-- C103 is false: `dump` to a compressed file raises `TypeError` and leaves an empty file, for every place. -/
theorem C103_dump_refuted (d : DataDisk) (r : Str → Str) (p : Place) (f text : Str) (hc : Spec.Compressed f) (hf : d.file f = .ok text) :
    ∃ log, dumpPlace d r p f = (some [], some .typeError, log) := by
  unfold dumpPlace sopen
  rw [if_neg (by decide)]
  by_cases h1 : endsWith f u!".bz2" = true
  · rw [if_pos h1]
    refine ⟨[.bz2 f u!"w"], ?_⟩
    simp only [openFile, DataDisk.fails, OpenCall.filename, hf, List.nil_append, if_neg (placeDump_ne r p)]
  · have h2 : endsWith f u!".gz" = true := by
      rcases hc with hc | hc
      · exact absurd ((suffix_iff _ _).2 hc) h1
      · exact (suffix_iff _ _).2 hc
    rw [if_neg h1, if_pos h2]
    refine ⟨[.gzip f u!"w"], ?_⟩
    simp only [openFile, DataDisk.fails, OpenCall.filename, hf, List.nil_append, if_neg (placeDump_ne r p)]

example : Spec.Compressed u!"words.gz" := Or.inr ⟨u!"words", rfl⟩
example : exampleDisk.file u!"words.gz" = exampleDisk.file u!"/usr/share/data/cjkdata/kanjidic" := by decide +kernel
example : (loadKanjidic exampleDisk (some [u!"words.gz"])).1 = .error .typeError := by decide +kernel

/-! ### `iter_coded_entries` (C104) -/

/-- C104, the part that holds: on a stream `iter_coded_entries` and `load_coded_dictionary` agree: a word is filed under a code iff it is
yielded with this code. -/
theorem C104_stream_partial (d : DataDisk) (order : List Str → List Str) (ho : ∀ l x, x ∈ order l ↔ x ∈ l) (ls : List Str)
    (out : List (Entry × List Str)) (h : iterCodedFrom (.stream ls) = .ok (out, none)) :
    ∃ st, loadCodedFrom d order (.stream ls) = (.ok st, []) ∧
      ∀ c w, (∃ r, Spec.Filed st c w r) ↔ ∃ p ∈ out, p.1.word = w ∧ c ∈ p.2 := by
  cases hi : iterFile ls with
  | error e => simp only [iterCodedFrom, iterCodedEntries, hi] at h; cases h
  | ok r =>
    obtain ⟨es, x⟩ := r
    obtain ⟨out', h1, h2, h3⟩ := C36_iter ls es x hi
    have h' : iterCodedEntries ls = .ok (out, none) := h
    rw [h1] at h'
    cases h'
    obtain ⟨st, h4, h5, _⟩ := C36_index order ho ls es hi
    refine ⟨st, by simp only [loadCodedFrom, h4], fun c w => ?_⟩
    rw [h5]
    subst h2
    constructor
    · rintro ⟨e, he, hw, hs⟩
      obtain ⟨p, hp, rfl⟩ := List.mem_map.1 he
      exact ⟨p, hp, hw, (h3 p hp c).2 hs⟩
    · rintro ⟨p, hp, hw, hc⟩
      exact ⟨p.1, List.mem_map_of_mem hp, hw, (h3 p hp c).1 hc⟩

/-- C104 is false for file names, which is what the documentation asks for: whatever the files hold, the name itself is taken for the
dictionary, and its first character is no header. -/
theorem C104_filename_refuted (f : Str) : iterCodedFrom (.path f) = .error (if f = [] then .stopIteration else .unknownFormatError) := by
  cases f with
  | nil => rfl
  | cons c f =>
    have : detectFormat [c] = .error .unknownFormatError := by
      rw [(C33_detect_exact [c]).2.1]
      intro g hg hh
      rcases hh with ⟨_, x, t, h, _⟩ | ⟨_, nl, h⟩ | ⟨_, nl, h⟩ | ⟨_, t, h, _⟩ <;> exact absurd (congrArg List.length h) (by simp)
    simp only [iterCodedFrom, iterCodedEntries, List.map_cons, iterFile, this, if_neg (List.cons_ne_nil c f)]
    rfl

example : (iterCodedFrom (.stream [u!"　？？？ /EDICT/\n", u!"月 /(n) moon/\n"])).map (fun r => r.1.map (fun p => (p.1.word, p.2))) =
    .ok [(u!"月", [u!"n"])] := by decide +kernel
example : iterCodedFrom (.path u!"edict") = .error .unknownFormatError := by decide +kernel

end Cjk
