import Verif.Lemmas.Encoding
import Verif.Props.PlaceFiles
import Verif.Props.Sources
import Verif.Props.Radkdict
import Verif.Props.TatoebaSentences
import Verif.Props.Convert
import Verif.Props.Display

/-!
# C138, C139: the encoding of data files and the locale
-/

namespace Cjk
open Py

/-! ### What a loader sees -/

theorem view_plain {d : ByteDisk} {c : TextCodec} {f : Str} {b : List Nat} (hf : Spec.PlainName f) (hb : d.file f = .ok b) :
    (d.view c).file f = c.decode b := by
  unfold ByteDisk.view
  simp only [hb]
  rw [if_neg]
  simp only [Bool.or_eq_true, suffix_iff]
  exact fun h => h.elim hf.1 hf.2.1

theorem view_error {d : ByteDisk} {c : TextCodec} {f : Str} {e : PyErr} (hb : d.file f = .error e) : (d.view c).file f = .error e := by
  unfold ByteDisk.view
  simp only [hb]

/-- The same text behind one name. -/
theorem view_agree {d : ByteDisk} {c1 c2 : TextCodec} {f : Str} (h : ∀ b, d.file f = .ok b → c1.decode b = c2.decode b) :
    (d.view c1).file f = (d.view c2).file f := by
  unfold ByteDisk.view
  simp only
  cases hf : d.file f with
  | error e => rfl
  | ok b => simp only; rw [h b hf]

theorem readsResource_congr {α : Type} {load : DataDisk → Option (List Str) → Load α} {parse : List Str → Except PyErr α} {name : Str}
    (hr : Spec.ReadsResource load parse name) {d1 d2 : DataDisk} {base : Str} (h1 : Spec.DataDir d1.env base) (he : d2.env = d1.env)
    (hf : d1.file (base ++ u!"/" ++ name) = d2.file (base ++ u!"/" ++ name)) : load d1 none = load d2 none := by
  cases h : d1.file (base ++ u!"/" ++ name) with
  | error e => rw [hr.unreadable d1 base e h1 h, hr.unreadable d2 base e (he ▸ h1) (hf ▸ h)]
  | ok t => rw [hr.file d1 base t h1 h, hr.file d2 base t (he ▸ h1) (hf ▸ h)]

/-- Every character of the texts that are seen has a byte (or is the end of a line). -/
theorem lines_hasByte {T : ByteTable} {b : List Nat} {t l : Str} (ht : T.codec.decode b = .ok t) (hl : l ∈ fileLines t) {c : Nat} (hc : c ∈ l) :
    Spec.HasByte T c ∨ c = 0x0a := by
  rcases mem_fileLines hl hc with h | h
  · obtain ⟨x, _, hx⟩ := mapAll_mem ht h
    exact .inl ⟨x, hx⟩
  · exact .inr h

/-! ### UTF-8 and one-byte encodings -/

/-- C138: decoding UTF-8 succeeds on exactly the encoded texts, and gives the text back; every text without surrogates can be encoded. -/
theorem C138_utf8 (b : List Nat) (s : Str) :
    (utf8Codec.decode b = .ok s ↔ utf8Codec.encode s = .ok b) ∧ ((∃ b, utf8Codec.encode s = .ok b) ↔ ∀ c ∈ s, c < 0x110000 ∧ ¬ (0xd800 ≤ c ∧ c ≤ 0xdfff)) := by
  refine ⟨utf8_decode_iff b s, ?_⟩
  simp only [utf8Codec]
  constructor
  · rintro ⟨b, h⟩ c hc
    split at h
    · rename_i hs
      exact (isScalar_iff c).1 (List.all_eq_true.1 hs c hc)
    · cases h
  · intro h
    rw [if_pos (List.all_eq_true.2 (fun c hc => (isScalar_iff c).2 (h c hc)))]
    exact ⟨_, rfl⟩

/-- C138: read with a one-byte encoding, a UTF-8 file yields its text if and only if the text is ASCII. -/
theorem C138_one_byte_iff (T : ByteTable) (hT : Spec.OneByte T) (s : Str) (b : List Nat) (hb : utf8Codec.encode s = .ok b) :
    T.codec.decode b = .ok s ↔ ∀ c ∈ s, c < 0x80 := by
  have hb' : b = utf8 s := by
    simp only [utf8Codec] at hb
    split at hb
    · cases hb; rfl
    · cases hb
  subst hb'
  constructor
  · intro h
    exact (utf8_length s).2 (mapAll_length h).symm
  · intro h
    rw [utf8_asciiText s h]
    exact mapAll_ascii hT s h

/-! ### The loaders -/

/-- C138, what holds: a loader that opens one file gives the same result (and opens the same files) as with UTF-8 if the encoding of the locale decodes the bytes of
this file as UTF-8 does.  Missing: other locales; see the refutations. -/
theorem C138_agree_partial {D : Type} (locale : TextCodec) (d : ByteDisk) :
    (∀ base, Spec.DataDir d.env base → (∀ b, d.file (base ++ u!"/" ++ u!"radkfile") = .ok b → locale.decode b = utf8Codec.decode b) →
      radkDictAt locale d = radkDictAt utf8Codec d) ∧
    (∀ base, Spec.DataDir d.env base → (∀ b, d.file (base ++ u!"/" ++ u!"tables/zhuyin_pinyin_conv_table") = .ok b → locale.decode b = utf8Codec.decode b) →
      zhuyinToPinyinAt locale d = zhuyinToPinyinAt utf8Codec d) ∧
    (∀ f, Spec.PlainName f → (∀ b, d.file f = .ok b → locale.decode b = utf8Codec.decode b) →
      loadPlaceAt locale d f = loadPlaceAt utf8Codec d f ∧ (∀ order, codedAt locale d order f = codedAt utf8Codec d order f) ∧
      ∀ lim (strptime : Str → Except PyErr D) languages, sentencesAt locale d lim strptime languages f = sentencesAt utf8Codec d lim strptime languages f) ∧
    (∀ files, (∀ f b, d.file f = .ok b → locale.decode b = utf8Codec.decode b) → kanjidicAt locale d files = kanjidicAt utf8Codec d files) := by
  refine ⟨fun base hb h => ?_, fun base hb h => ?_, fun f hf h => ⟨?_, fun order => ?_, fun lim strptime languages => ?_⟩, fun files h => ?_⟩
  · exact readsResource_congr C102_radkdict (d1 := d.view locale) (d2 := d.view utf8Codec) hb rfl (view_agree h)
  · exact readsResource_congr C102_zhuyin.1 (d1 := d.view locale) (d2 := d.view utf8Codec) hb rfl (view_agree h)
  · unfold loadPlaceAt loadPlace
    rw [sopenLines_plain _ f hf, sopenLines_plain _ f hf, view_agree h]
  · unfold codedAt loadCodedFrom openLines
    simp only [view_agree h]
  · unfold sentencesAt loadSentences loadRows
    simp only [sopenLines_plain _ f hf, view_agree h]
  · have : d.view locale = d.view utf8Codec := by
      have h1 : (d.view locale).file = (d.view utf8Codec).file := funext (fun f => view_agree (h f))
      unfold ByteDisk.view at h1 ⊢
      simp only at h1 ⊢
      rw [h1]
    unfold kanjidicAt
    rw [this]

/-- The text behind a resource name, in a locale. -/
theorem view_resource {d : ByteDisk} {c : TextCodec} {base name : Str} {b : List Nat} (hn : 4 ≤ name.length)
    (h1 : ¬ (u!".bz2" <:+ name)) (h2 : ¬ (u!".gz" <:+ name)) (hf : d.file (base ++ u!"/" ++ name) = .ok b) :
    (d.view c).file (base ++ u!"/" ++ name) = c.decode b := by
  unfold ByteDisk.view
  simp only [hf]
  rw [if_neg]
  simp only [Bool.or_eq_true, suffix_iff]
  rintro (e | e)
  · exact h1 (List.suffix_of_suffix_length_le e (List.suffix_append (base ++ u!"/") name) (by simpa using hn))
  · exact h2 (List.suffix_of_suffix_length_le e (List.suffix_append (base ++ u!"/") name) (by simp; omega))

/-- C138: in any locale, a loader parses the lines of the text that the encoding of the locale makes of the bytes of its file; if this
encoding cannot decode the bytes, the loader raises that exception. -/
theorem C138_text {D : Type} (locale : TextCodec) (d : ByteDisk) :
    (∀ base b, Spec.DataDir d.env base → d.file (base ++ u!"/" ++ u!"radkfile") = .ok b →
      (radkDictAt locale d).1 = (locale.decode b).bind (fun text => radkDict (fileLines text))) ∧
    (∀ base b, Spec.DataDir d.env base → d.file (base ++ u!"/" ++ u!"tables/zhuyin_pinyin_conv_table") = .ok b →
      (zhuyinToPinyinAt locale d).1 = (locale.decode b).bind (fun text => zhuyinToPinyinTable (fileLines text))) ∧
    (∀ f b, Spec.PlainName f → d.file f = .ok b →
      (loadPlaceAt locale d f).1 = (locale.decode b).bind (fun text => placeFromFile (fileLines text)) ∧
      (∀ order, (codedAt locale d order f).1 = (locale.decode b).bind (fun text => loadCodedDictionary order (fileLines text))) ∧
      ∀ lim (strptime : Str → Except PyErr D) languages, (sentencesAt locale d lim strptime languages f).1 =
        (locale.decode b).bind (fun text => sentLoad strptime languages (loadFile lim (fileLines text)))) ∧
    (∀ files : List (Str × List Nat × Str), (∀ f ∈ files, Spec.PlainName f.1 ∧ d.file f.1 = .ok f.2.1 ∧ locale.decode f.2.1 = .ok f.2.2) →
      (kanjidicAt locale d (some (files.map (·.1)))).1 = kanjidic (files.map (fun f => fileLines f.2.2))) := by
  refine ⟨fun base b hb hf => ?_, fun base b hb hf => ?_, fun f b hp hf => ⟨?_, fun order => ?_, fun lim strptime languages => ?_⟩, fun files h => ?_⟩
  · have hv := view_resource (c := locale) (by decide) (by decide) (by decide) hf
    unfold radkDictAt
    cases ht : locale.decode b with
    | error e => rw [C102_radkdict.unreadable (d.view locale) base e hb (by rw [hv, ht])]; rfl
    | ok t => rw [C102_radkdict.file (d.view locale) base t hb (by rw [hv, ht])]; rfl
  · have hv := view_resource (c := locale) (by decide) (by decide) (by decide) hf
    unfold zhuyinToPinyinAt
    cases ht : locale.decode b with
    | error e => rw [C102_zhuyin.1.unreadable (d.view locale) base e hb (by rw [hv, ht])]; rfl
    | ok t => rw [C102_zhuyin.1.file (d.view locale) base t hb (by rw [hv, ht])]; rfl
  · unfold loadPlaceAt loadPlace
    rw [sopenLines_plain _ f hp, view_plain hp hf]
    cases locale.decode b <;> rfl
  · unfold codedAt loadCodedFrom openLines
    simp only [view_plain hp hf]
    cases locale.decode b <;> rfl
  · unfold sentencesAt loadSentences loadRows
    simp only [sopenLines_plain _ f hp, view_plain hp hf]
    cases locale.decode b <;> rfl
  · have := C102_kanjidic_files (d.view locale) (files.map (fun f => (f.1, f.2.2))) (by
      intro g hg
      obtain ⟨f, hf, e⟩ := List.mem_map.1 hg
      subst e
      exact ⟨(h f hf).1, by rw [view_plain (h f hf).1 (h f hf).2.1]; exact (h f hf).2.2⟩)
    unfold kanjidicAt
    simp only [List.map_map, Function.comp_def] at this
    rw [this]

/-- C138: an ASCII file is read alike in every locale with a one-byte encoding. -/
theorem C138_ascii (T : ByteTable) (hT : Spec.OneByte T) (b : List Nat) (hb : ∀ x ∈ b, x < 0x80) : T.codec.decode b = utf8Codec.decode b := by
  rw [mapAll_ascii hT b hb]
  refine ((utf8_decode_iff b b).2 ?_).symm
  simp only [utf8Codec]
  rw [if_pos (List.all_eq_true.2 (fun c hc => (isScalar_iff c).2 (by have := hb c hc; omega))), utf8_asciiText b hb]

/-- C138, refuted for radkfile: in a locale with a one-byte encoding, no character without a byte (no kanji) is ever found, whatever the file. -/
theorem C138_radkdict_refuted (T : ByteTable) (d : ByteDisk) (base : Str) (hb : Spec.DataDir d.env base) (rd : RadkDict)
    (h : (radkDictAt T.codec d).1 = .ok rd) (c : Chr) (hc : ¬ Spec.HasByte T c) (hn : c ≠ 0x0a) : Dict.get? rd.dict c = none := by
  cases hf : d.file (base ++ u!"/" ++ u!"radkfile") with
  | error e =>
    have := C102_radkdict.unreadable (d.view T.codec) base e hb (view_error hf)
    unfold radkDictAt at h
    rw [this] at h
    cases h
  | ok b =>
    have hp : (d.view T.codec).file (base ++ u!"/" ++ u!"radkfile") = T.codec.decode b := by
      unfold ByteDisk.view
      simp only [hf]
      rw [if_neg]
      simp only [Bool.or_eq_true, suffix_iff]
      rintro (e | e)
      · exact absurd ((List.suffix_of_suffix_length_le e (List.suffix_append (base ++ u!"/") u!"radkfile") (by decide))) (by decide)
      · exact absurd ((List.suffix_of_suffix_length_le e (List.suffix_append (base ++ u!"/") u!"radkfile") (by decide))) (by decide)
    cases ht : T.codec.decode b with
    | error e =>
      have := C102_radkdict.unreadable (d.view T.codec) base e hb (by rw [hp, ht])
      unfold radkDictAt at h
      rw [this] at h
      cases h
    | ok t =>
      have := C102_radkdict.file (d.view T.codec) base t hb (by rw [hp, ht])
      unfold radkDictAt at h
      rw [this] at h
      rw [C39_radicals _ rd h c, if_neg]
      rintro ⟨p, hp, hk⟩
      have aux : ∀ (ls before : List Str), ∀ p ∈ Spec.radkBody before ls, ∀ c ∈ p.2, ∃ l ∈ ls, c ∈ l := by
        intro ls
        induction ls with
        | nil => intro before p hp; cases hp
        | cons l ls ih =>
          intro before p hp c hc
          unfold Spec.radkBody at hp
          split at hp
          · obtain ⟨l', h1, h2⟩ := ih _ p hp c hc
            exact ⟨l', by simp [h1], h2⟩
          · rcases List.mem_cons.1 hp with e | hp
            · rw [e] at hc
              exact ⟨l, by simp, mem_strip hc⟩
            · obtain ⟨l', h1, h2⟩ := ih _ p hp c hc
              exact ⟨l', by simp [h1], h2⟩
      obtain ⟨l, hl, hcl⟩ := aux _ _ p hp c hk
      rcases lines_hasByte ht hl hcl with h | h
      · exact hc h
      · exact hn h

/-- C138, refuted for Tatoeba sentences: in a locale with a one-byte encoding, every character of every sentence has a byte, whatever the file. -/
theorem C138_sentences_refuted {D : Type} (T : ByteTable) (d : ByteDisk) (f : Str) (hf : Spec.PlainName f) (lim : Nat) (strptime : Str → Except PyErr D)
    (languages : Option (List Str)) (a : SentData D) (h : (sentencesAt T.codec d lim strptime languages f).1 = .ok a) (i : Int) (s : Str)
    (hs : a.sentence i = .ok s) : ∀ c ∈ s, Spec.HasByte T c ∨ c = 0x0a := by
  unfold sentencesAt loadSentences loadRows at h
  simp only [sopenLines_plain _ f hf] at h
  cases hb : d.file f with
  | error e => rw [view_error hb] at h; cases h
  | ok b =>
    rw [view_plain hf hb] at h
    cases ht : T.codec.decode b with
    | error e => rw [ht] at h; cases h
    | ok t =>
      rw [ht] at h
      have h' : sentLoad strptime languages (loadFile lim (fileLines t)) = .ok a := h
      rw [C54_sentence h' i] at hs
      cases hl : Spec.lastRow (Spec.accepted languages (loadFile lim (fileLines t)).1) i with
      | none => rw [hl] at hs; cases hs
      | some r =>
        rw [hl] at hs
        cases hs
        intro c hc
        have hm : r ∈ (loadFile lim (fileLines t)).1 := List.mem_of_mem_filter (lastRow_mem hl).1
        have hfield : Spec.rowText3 r ∈ r := by
          unfold Spec.rowText3 at hc ⊢
          rw [List.getD_eq_getElem?_getD] at hc ⊢
          cases hr : r[2]? with
          | none => rw [hr] at hc; cases hc
          | some x => exact List.mem_iff_getElem?.2 ⟨2, hr⟩
        exact csvRows_all (P := fun c => Spec.HasByte T c ∨ c = 0x0a) (fileLines t) Csv.init ⟨fun c hc => (by cases hc), fun f hf => (by cases hf)⟩
          (fun l hl c hc => lines_hasByte ht hl hc) r hm _ hfield c hc

/-- C138: the argument `encoding` of `sopen` does not help: a UTF-8 file without carriage returns, opened with `encoding='utf8'` in a locale with a one-byte encoding,
yields the lines of its text if and only if the text is ASCII. -/
theorem C138_encoding_argument (T : ByteTable) (hT : Spec.OneByte T) (d : ByteDisk) (f s : Str) (b : List Nat) (hf : Spec.PlainName f) (hb : d.file f = .ok b)
    (hs : utf8Codec.encode s = .ok b) (hcr : 0x0d ∉ s) :
    (sopenLinesAt T.codec d utf8Codec f).1 = .ok (.text (fileLines s)) ↔ ∀ c ∈ s, c < 0x80 := by
  rw [← C138_one_byte_iff T hT s b hs]
  unfold sopenLinesAt
  rw [sopenLines_plain _ f hf, view_plain hf hb]
  cases ht : T.codec.decode b with
  | error e => simp [Except.map]
  | ok t =>
    simp only [Except.map, Except.ok.injEq, Lines.text.injEq]
    constructor
    · intro h
      have hcr' : 0x0d ∉ t := by
        intro hm
        obtain ⟨x, hx, hxc⟩ := mapAll_mem ht hm
        have hx13 := oneByte_small hT hxc (by decide)
        subst hx13
        refine hcr (utf8_lowByte ?_ (by decide))
        have hb' : b = utf8 s := by
          simp only [utf8Codec] at hs
          split at hs
          · cases hs; rfl
          · cases hs
        rw [← hb']
        exact hx
      have h1 := fileLinesAux_flatten t hcr' []
      have h2 := fileLinesAux_flatten s hcr []
      unfold fileLines at h
      rw [h, h2] at h1
      simpa using h1.symm
    · intro h; rw [h]

/-- C138: the kanji lists do not depend on the locale: a list in UTF-8 is read as its text. -/
theorem C138_kanji_list (locale : TextCodec) (d : ByteDisk) (base name s : Str) (b : List Nat) (hb : getResource d.env (u!"lists/char/" ++ name) = .ok base)
    (hf : d.file base = .ok b) (hs : utf8Codec.encode s = .ok b) : kanjiListAt locale d name = .ok (uniqueKanji s) := by
  unfold kanjiListAt getKanjiList
  simp only [hb]
  have : (d.view utf8Codec).file base = .ok s := by
    unfold ByteDisk.view
    simp only [hf, (utf8_decode_iff b s).2 hs, ite_self]
  rw [this]

/-! ### Places between locales -/

/-- C139: written and read in the same locale, whose encoding is lossless, and if the file was written at all: the hierarchy is restored if and only if it is
storable. -/
theorem C139_same_locale (locale : TextCodec) (hl : Spec.Lossless locale) (d : ByteDisk) (r : Str → Str) (hr : ReprOk r) (p : Place) (f : Str) (b : List Nat)
    (hf : Spec.PlainName f) (h : dumpPlaceAt locale d r p f = (some b, none)) :
    (∃ st, (loadPlaceAt locale (Spec.writtenBytes d f b) f).1 = .ok st ∧ Spec.Holds st 0 p) ↔ p.storable := by
  have he : locale.encode (placeDumpText r p) = .ok b := by
    unfold dumpPlaceAt at h
    split at h
    · cases h
    · split at h
      · rename_i hb
        cases h
        exact hb
      · cases h
  rw [← C41_exact r hr p]
  unfold loadPlaceAt loadPlace
  rw [sopenLines_plain _ f hf, view_plain (b := b) hf (by simp [Spec.writtenBytes]), hl _ _ he]
  rfl

/-- C139: UTF-8 and the one-byte encodings are lossless. -/
theorem C139_lossless : Spec.Lossless utf8Codec ∧ ∀ T, Spec.OneByte T → Spec.Lossless T.codec :=
  ⟨fun s b h => (utf8_decode_iff b s).2 h, fun _ hT => oneByte_lossless hT⟩

theorem dump_chars (r : Str → Str) (p : Place) (hp : p.storable) (c : Chr) :
    (c ∈ (placeDump r p).flatten → Spec.PlaceChar p c ∨ c < 0x80) ∧ (Spec.PlaceChar p c → c ∈ (placeDump r p).flatten) := by
  rw [placeDump_eq]
  constructor
  · intro h
    obtain ⟨l, hl, hc⟩ := List.mem_flatten.1 h
    obtain ⟨dp, hdp, rfl⟩ := List.mem_map.1 hl
    unfold lineOf placeToLine at hc
    rw [storable_preorder hp dp hdp] at hc
    simp only [List.mem_append] at hc
    rcases hc with ((((h | h) | h) | h) | h) | h
    · have := showNat_digits dp.1 c h
      exact .inr (by unfold AsciiDigit at this; omega)
    · have : c = 0x20 := by simpa using h
      exact .inr (by omega)
    · exact .inl ⟨dp, hdp, .inl h⟩
    · have : c = 0x20 := by simpa using h
      exact .inr (by omega)
    · unfold readingText at h
      cases hr : dp.2.reading with
      | none =>
        rw [hr] at h
        have : ∀ c ∈ u!"None", c < 0x80 := by decide
        exact .inr (this c h)
      | some x =>
        rw [hr] at h
        exact .inl ⟨dp, hdp, .inr (by rw [hr]; exact h)⟩
    · have : c = 0x0a := by simpa using h
      exact .inr (by omega)
  · rintro ⟨dp, hdp, hc⟩
    refine List.mem_flatten.2 ⟨lineOf r dp, List.mem_map.2 ⟨dp, hdp, rfl⟩, ?_⟩
    unfold lineOf placeToLine
    rw [storable_preorder hp dp hdp]
    simp only [List.mem_append]
    rcases hc with hc | hc
    · simp [hc]
    · unfold readingText
      cases hr : dp.2.reading with
      | none => rw [hr] at hc; cases hc
      | some x => rw [hr] at hc; simp only [Option.getD_some] at hc ⊢; simp [hc]

/-- C139: in a locale with a one-byte encoding a storable hierarchy can be written if and only if every character of its labels and readings has a byte; otherwise there is
a ValueError. -/
theorem C139_dump_iff (T : ByteTable) (hT : Spec.OneByte T) (d : ByteDisk) (r : Str → Str) (p : Place) (hp : p.storable) (f : Str) (old : List Nat)
    (ho : d.file f = .ok old) :
    ((∃ b, dumpPlaceAt T.codec d r p f = (some b, none)) ↔ ∀ c, Spec.PlaceChar p c → Spec.HasByte T c) ∧
    ((∃ c, Spec.PlaceChar p c ∧ ¬ Spec.HasByte T c) → dumpPlaceAt T.codec d r p f = (none, some .valueError)) := by
  have key : (∃ b, T.codec.encode (placeDump r p).flatten = .ok b) ↔ ∀ c, Spec.PlaceChar p c → Spec.HasByte T c := by
    rw [oneByte_encode hT]
    constructor
    · intro h c hc
      exact h c ((dump_chars r p hp c).2 hc)
    · intro h c hc
      rcases (dump_chars r p hp c).1 hc with h1 | h1
      · exact h c h1
      · exact ⟨c, hT.ascii c h1⟩
  unfold dumpPlaceAt
  simp only [ho]
  cases he : T.codec.encode (placeDump r p).flatten with
  | ok b =>
    rw [he] at key
    refine ⟨⟨fun _ => key.1 ⟨b, rfl⟩, fun _ => ⟨b, rfl⟩⟩, ?_⟩
    rintro ⟨c, h1, h2⟩
    exact absurd (key.1 ⟨b, rfl⟩ c h1) h2
  | error e =>
    rw [he] at key
    refine ⟨⟨?_, ?_⟩, fun _ => ?_⟩
    · rintro ⟨b, h⟩; simp at h
    · intro h; obtain ⟨b, hb⟩ := key.2 h; cases hb
    · rw [mapAll_error he]

/-- C139: in a UTF-8 locale a storable hierarchy is written and restored by the same program or another one in such a locale iff its labels and readings contain no lone surrogate;
otherwise dump raises ValueError. -/
theorem C139_utf8 (d : ByteDisk) (r : Str → Str) (hr : ReprOk r) (p : Place) (hp : p.storable) (f : Str) (hf : Spec.PlainName f) (old : List Nat) (ho : d.file f = .ok old) :
    ((∃ b st, dumpPlaceAt utf8Codec d r p f = (some b, none) ∧ (loadPlaceAt utf8Codec (Spec.writtenBytes d f b) f).1 = .ok st ∧ Spec.Holds st 0 p) ↔
      ∀ c, Spec.PlaceChar p c → isScalar c = true) ∧
    ((∃ c, Spec.PlaceChar p c ∧ isScalar c = false) → dumpPlaceAt utf8Codec d r p f = (none, some .valueError)) := by
  have key : (placeDump r p).flatten.all isScalar = true ↔ ∀ c, Spec.PlaceChar p c → isScalar c = true := by
    rw [List.all_eq_true]
    constructor
    · intro h c hc
      exact h c ((dump_chars r p hp c).2 hc)
    · intro h c hc
      rcases (dump_chars r p hp c).1 hc with h1 | h1
      · exact h c h1
      · exact (isScalar_iff c).2 (by omega)
  have hd : dumpPlaceAt utf8Codec d r p f = if (placeDump r p).flatten.all isScalar = true then (some (utf8 (placeDump r p).flatten), none) else (none, some .valueError) := by
    unfold dumpPlaceAt
    simp only [ho, utf8Codec]
    by_cases h : (placeDump r p).flatten.all isScalar = true
    · rw [if_pos h, if_pos h]
    · rw [if_neg h, if_neg h]
  by_cases h : (placeDump r p).flatten.all isScalar = true
  · rw [if_pos h] at hd
    refine ⟨iff_of_true ?_ (key.1 h), ?_⟩
    · obtain ⟨st, h1, h2⟩ := (C139_same_locale utf8Codec C139_lossless.1 d r hr p f _ hf hd).2 hp
      exact ⟨_, st, hd, h1, h2⟩
    · rintro ⟨c, h1, h2⟩
      rw [key.1 h c h1] at h2; cases h2
  · rw [if_neg h] at hd
    refine ⟨iff_of_false ?_ (fun h' => h (key.2 h')), fun _ => hd⟩
    rintro ⟨b, st, h1, _⟩
    rw [hd] at h1
    cases h1

/-- Not vacuous: a hierarchy with a Japanese label. -/
example : isScalar 0x65e5 = true ∧ isScalar 0xd800 = false := by decide

/-- C139, refuted between locales: whatever bytes the file has, a reader whose locale has a one-byte encoding never gets a hierarchy with a character that has no byte; in particular
not the hierarchy that was written in a UTF-8 locale. -/
theorem C139_between_refuted (T : ByteTable) (d : ByteDisk) (f : Str) (hf : Spec.PlainName f) (p : Place) (c : Chr) (hp : Spec.PlaceChar p c)
    (hc : ¬ Spec.HasByte T c) (hn : c ≠ 0x0a) : ¬ ∃ st, (loadPlaceAt T.codec d f).1 = .ok st ∧ Spec.Holds st 0 p := by
  rintro ⟨st, h, hh⟩
  unfold loadPlaceAt loadPlace at h
  rw [sopenLines_plain _ f hf] at h
  cases hb : d.file f with
  | error e => rw [view_error hb] at h; cases h
  | ok b =>
    rw [view_plain hf hb] at h
    cases ht : T.codec.decode b with
    | error e => rw [ht] at h; cases h
    | ok t =>
      rw [ht] at h
      have h' : placeFromFile (fileLines t) = .ok st := h
      have hs := nodeChars_file (P := fun c => Spec.HasByte T c ∨ c = 0x0a) (fun l hl c hc => lines_hasByte ht hl hc) h'
      obtain ⟨dp, hdp, hc'⟩ := hp
      rcases nodeChars_holds hs hh dp hdp c hc' with h1 | h1
      · exact hc h1
      · exact hn h1

/-! ### Cases that meet the hypotheses -/

theorem oneByte_latin1 : Spec.OneByte latin1 := by
  refine ⟨fun b hb => ?_, fun b c => ?_⟩
  · simp only [latin1]; rw [if_pos (by omega)]
  · simp only [latin1]
    by_cases h1 : c < 256 <;> by_cases h2 : b < 256 <;> simp [h1, h2] <;> omega

theorem oneByte_ascii : Spec.OneByte asciiTable := by
  refine ⟨fun b hb => ?_, fun b c => ?_⟩
  · simp only [asciiTable]; rw [if_pos hb]
  · simp only [asciiTable]
    by_cases h1 : c < 128 <;> by_cases h2 : b < 128 <;> simp [h1, h2] <;> omega

/-- No kanji in Latin-1. -/
theorem no_byte_latin1 (c : Chr) (h : 256 ≤ c) : ¬ Spec.HasByte latin1 c := by
  rintro ⟨b, hb⟩
  simp only [latin1] at hb
  split at hb
  · cases hb; omega
  · cases hb

/-- A disk with one file. -/
def oneFileDisk (f : Str) (b : List Nat) : ByteDisk := ⟨⟨some u!"/data", none, fun p => p = u!"/data"⟩, fun g => if g = f then .ok b else .error .osError, []⟩

example : Spec.DataDir (oneFileDisk [] []).env u!"/data" := ⟨by decide, by decide, by decide⟩

-- U+4E9C with the radical U+4E00, in UTF-8
example : utf8Codec.encode u!"$ 一 1\n亜\n" = .ok [0x24, 0x20, 0xe4, 0xb8, 0x80, 0x20, 0x31, 0x0a, 0xe4, 0xba, 0x9c, 0x0a] := by decide

example : (radkDictAt utf8Codec (oneFileDisk u!"/data/radkfile" (utf8 u!"$ 一 1\n亜\n"))).1.map (fun rd => Dict.get? rd.dict c!"亜") = .ok (some [some u!"一"]) := by decide

-- the same file in a Latin-1 locale: no error, but nothing under U+4E9C
example : (radkDictAt latin1.codec (oneFileDisk u!"/data/radkfile" (utf8 u!"$ 一 1\n亜\n"))).1.map (fun rd => (Dict.get? rd.dict c!"亜", Dict.keys rd.dict)) =
    .ok (none, [0xe4, 0xba, 0x9c]) := by decide

-- in the locale C of Python 3.6 and before: an error
example : (radkDictAt asciiTable.codec (oneFileDisk u!"/data/radkfile" (utf8 u!"$ 一 1\n亜\n"))).1.map (fun rd => Dict.keys rd.dict) = .error .valueError := by decide

example : ¬ Spec.HasByte latin1 c!"亜" := no_byte_latin1 _ (by decide)

-- a hierarchy with one place
example : (Place.node u!"東京" none none .nil).storable := by
  refine ⟨by decide, by simp, rfl, by decide, trivial⟩

example : Spec.PlaceChar (Place.node u!"東京" none none .nil) c!"東" := 
  ⟨(0, Place.node u!"東京" none none .nil), by simp [Place.preorder, Places.preorder], .inl (by decide)⟩

theorem dump_tokyo : placeDump id (Place.node u!"東京" none none .nil) = [u!"0 東京 None\n"] := by
  rw [placeDump_eq]
  simp only [Place.preorder, Places.preorder, List.map_cons, List.map_nil, lineOf, placeToLine, Place.label, Place.reading, Place.aliases]
  rw [showNat_digit 0 (by decide)]
  decide

example : (dumpPlaceAt utf8Codec (oneFileDisk u!"p" []) id (Place.node u!"東京" none none .nil) u!"p") = (some (utf8 u!"0 東京 None\n"), none) := by
  unfold dumpPlaceAt
  rw [dump_tokyo]
  decide

example : (dumpPlaceAt latin1.codec (oneFileDisk u!"p" []) id (Place.node u!"東京" none none .nil) u!"p") = (none, some .valueError) := by
  unfold dumpPlaceAt
  rw [dump_tokyo]
  decide

example : (loadPlaceAt latin1.codec (oneFileDisk u!"p" (utf8 u!"0 東京 None\n")) u!"p").1.map (fun st => st.map PNode.label) =
    .ok [[0xe6, 0x9d, 0xb1, 0xe4, 0xba, 0xac]] := by decide

end Cjk
