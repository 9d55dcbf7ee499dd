import Verif.Props.DictGrammar
/-!
# C93: dictionary files from text to look-up

`load_dictionary` and `iter_entries` on a whole file, in terms of the header line and the readers of Spec/DictLine.lean.
-/

namespace Cjk
open Py

theorem parseLine_eq_reader (f : RegexFormat) (hf : f ∈ knownFormats) (s : Str) : f.parseLine s = Spec.lineReader f.name s := by
  simp only [knownFormats, List.mem_cons, List.not_mem_nil, or_false] at hf
  rcases hf with rfl | rfl | rfl | rfl
  · exact C92_edict s
  · exact C92_jc_kdic s
  · exact C92_cj_kdic s
  · exact C92_cedict s

theorem isHeader_known {name h : Str} (hh : Spec.isHeader name h) : ∃ f ∈ knownFormats, f.name = name := by
  rcases hh with ⟨rfl, _⟩ | ⟨rfl, _⟩ | ⟨rfl, _⟩ | ⟨rfl, _⟩
  · exact ⟨edict, by simp [knownFormats], rfl⟩
  · exact ⟨jcKdic, by simp [knownFormats], rfl⟩
  · exact ⟨cjKdic, by simp [knownFormats], rfl⟩
  · exact ⟨cedict, by simp [knownFormats], rfl⟩

theorem mapE_of_map {f : Str → Except PyErr Entry} {ls : List Str} {es : List Entry} (h : ls.map f = es.map .ok) :
    mapE f ls = .ok es := by
  induction ls generalizing es with
  | nil =>
    cases es with
    | nil => rfl
    | cons e es => simp at h
  | cons l ls ih =>
    cases es with
    | nil => simp at h
    | cons e es =>
      simp only [List.map_cons, List.cons.injEq] at h
      simp only [mapE, h.1, ih h.2, bind, Except.bind]

theorem merged_aligned {es : List Entry} (hal : ∀ e ∈ es, Spec.Aligned e) {w : Str} {e : Entry} (h : Spec.merged es w = some e) :
    Spec.Aligned e := by
  unfold Spec.merged at h
  split at h
  · cases h
  · rename_i x hx
    cases h
    have : e ∈ es.filter (fun e => e.word = w) := by rw [hx]; simp
    exact hal e (List.mem_of_mem_filter this)
  · cases h
    have hfun : (Spec.readingsPerSense) = Entry.padded := funext Spec.readingsPerSense_eq
    right
    simp only [hfun]
    exact flatMap_padded_length _ (fun x hx => hal x (List.mem_of_mem_filter hx))

/-- C93: a file with a known header whose lines can all be read: the words of the dictionary are those of the lines, in the order
in which they first occur, and looking up the senses of a word by reading gives the senses of the lines with that word and that
reading, in file order. -/
theorem C93_lookup (name h : Str) (hh : Spec.isHeader name h) (ls : List Str) (es : List Entry)
    (hes : ls.map (Spec.lineReader name) = es.map .ok) :
    ∃ d, loadDictionary (h :: ls) = .ok d ∧ Dict.keys d = dedup (es.map Entry.word) ∧
      ∀ w, match Dict.get? d w with
        | none => ∀ e ∈ es, e.word ≠ w
        | some entry => entry.word = w ∧ entry.senses = (es.filter (fun e => e.word = w)).flatMap Entry.senses ∧
            ∃ senses, entry.sensesByReading = .ok senses ∧
              ∀ r, (Dict.get? senses r).getD [] = (es.filter (fun e => e.word = w ∧ e.readings = [r])).flatMap Entry.senses := by
  obtain ⟨f, hf, rfl⟩ := isHeader_known hh
  have hp : ls.map f.parseLine = es.map .ok := by
    rw [← hes]; exact List.map_congr_left (fun l _ => parseLine_eq_reader f hf l)
  obtain ⟨_, d, hd, hk, hg⟩ := C34_agrees_with_iter h ls f hf hh es (mapE_of_map hp)
  refine ⟨d, hd, hk, ?_⟩
  intro w
  have hread : ∀ e ∈ es, e.senses ≠ [] ∧ e.readings.length = 1 := by
    intro e he
    have : Except.ok e ∈ ls.map f.parseLine := by rw [hp]; exact List.mem_map_of_mem he
    obtain ⟨l, _, hl⟩ := List.mem_map.1 this
    exact C31_never_empty f l e hl
  cases hw : Dict.get? d w with
  | none => exact Spec.merged_eq_none.1 ((hg w).symm.trans hw)
  | some entry =>
    have hm := (hg w).symm.trans hw
    have hword := Spec.merged_word hm
    have hsenses := Spec.merged_senses hm
    have hmem : w ∈ es.map Entry.word := by
      by_cases hw' : w ∈ es.map Entry.word
      · exact hw'
      · have : Spec.merged es w = none :=
          Spec.merged_eq_none.2 (fun e he h => hw' (h ▸ List.mem_map_of_mem he))
        rw [this] at hm; cases hm
    obtain ⟨d', e', hd', he', _, hs', hpairs⟩ :=
      C30_senses f.parseLine (parseLine_aligned f) ls es (mapE_of_map hp) w hmem
    have hdd : d' = d := by
      have : loadDictionary (h :: ls) = parseDictionary f.parseLine ls := by
        show (do let f ← detectFormat h; parseDictionary f.parseLine ls) = _
        rw [((C33_detect_exact h).1 f).2 ⟨hf, hh⟩]; rfl
      rw [this, hd'] at hd
      cases hd; rfl
    subst hdd
    rw [hw] at he'
    cases he'
    have hal : Spec.Aligned entry := by
      exact merged_aligned (fun e he => by
        have : Except.ok e ∈ ls.map f.parseLine := by rw [hp]; exact List.mem_map_of_mem he
        obtain ⟨l, _, hl⟩ := List.mem_map.1 this
        exact parseLine_aligned f l e hl) hm
    have hne : entry.senses ≠ [] := by
      rw [hsenses]
      obtain ⟨x, hx, hxw⟩ := List.mem_map.1 hmem
      intro h0
      rw [List.flatMap_eq_nil_iff] at h0
      exact (hread x hx).1 (h0 x (List.mem_filter.2 ⟨hx, by simpa using hxw⟩))
    refine ⟨hword, hsenses, ?_⟩
    obtain ⟨senses, hsr, hget⟩ := C29_partition entry hal hne
    refine ⟨senses, hsr, ?_⟩
    intro r
    have h1 : (Dict.get? senses r).getD [] = Spec.sensesFor entry r := by
      rw [hget r]; split
      · rename_i h; rw [h]; rfl
      · rfl
    rw [h1]
    unfold Spec.sensesFor
    rw [hpairs]
    have key : ∀ l : List Entry, (∀ e ∈ l, e.readings.length = 1) →
        (((l.filter (fun e => e.word = w)).flatMap Spec.pairs).filter (fun p => p.1 = r)).map Prod.snd =
          (l.filter (fun e => e.word = w ∧ e.readings = [r])).flatMap Entry.senses := by
      intro l
      induction l with
      | nil => intro _; rfl
      | cons e l ih =>
        intro hl
        have ih' := ih (fun x hx => hl x (by simp [hx]))
        obtain ⟨q, hq⟩ : ∃ q, e.readings = [q] := by
          have := hl e (by simp)
          match hr : e.readings with
          | [] => rw [hr] at this; cases this
          | [q] => exact ⟨q, rfl⟩
          | _ :: _ :: _ => rw [hr] at this; simp at this
        have hpe : Spec.pairs e = e.senses.map (fun s => (q, s)) := by
          unfold Spec.pairs; rw [hq]
        by_cases hw : e.word = w
        · rw [List.filter_cons_of_pos (by simpa using hw), List.flatMap_cons, List.filter_append, List.map_append, ih', hpe]
          by_cases hqr : q = r
          · rw [List.filter_cons_of_pos (by simp [hw, hq, hqr]), List.flatMap_cons]
            congr 1
            rw [List.filter_eq_self.2 (by intro p hp; obtain ⟨s, _, rfl⟩ := List.mem_map.1 hp; simpa using hqr)]
            simp [Function.comp_def]
          · rw [List.filter_cons_of_neg (by simp [hq, hqr])]
            rw [List.filter_eq_nil_iff.2 (by intro p hp; obtain ⟨s, _, rfl⟩ := List.mem_map.1 hp; simpa using hqr)]
            rfl
        · rw [List.filter_cons_of_neg (by simpa using hw), List.filter_cons_of_neg (by simp [hw]), ih']
    exact key es (fun e he => (hread e he).2)

/-- C93: a file with a known header in which some line cannot be read: FormatError, nothing is returned; `iter_entries` first yields
the entries before that line. -/
theorem C93_bad_line (name h : Str) (hh : Spec.isHeader name h) (pre : List Str) (bad : Str) (post : List Str) (es : List Entry)
    (hes : pre.map (Spec.lineReader name) = es.map .ok) (x : PyErr) (hb : Spec.lineReader name bad = .error x) :
    loadDictionary (h :: (pre ++ bad :: post)) = .error .formatError ∧
    iterFile (h :: (pre ++ bad :: post)) = .ok (es, some .formatError) := by
  obtain ⟨f, hf, rfl⟩ := isHeader_known hh
  have hp : pre.map f.parseLine = es.map .ok := by
    rw [← hes]; exact List.map_congr_left (fun l _ => parseLine_eq_reader f hf l)
  have hbad : f.parseLine bad = .error x := (parseLine_eq_reader f hf bad).trans hb
  have hx := C92_only_format_error f hf bad x hbad
  subst hx
  have hdet := ((C33_detect_exact h).1 f).2 ⟨hf, hh⟩
  constructor
  · show (do let f ← detectFormat h; parseDictionary f.parseLine (pre ++ bad :: post)) = _
    rw [hdet]
    refine (C30_error f.parseLine (parseLine_aligned f) _ _).2 ⟨pre, bad, post, rfl, hbad, ?_⟩
    intro y hy
    have : f.parseLine y ∈ es.map Except.ok := by rw [← hp]; exact List.mem_map_of_mem hy
    obtain ⟨e, _, he⟩ := List.mem_map.1 this
    exact ⟨e, he.symm⟩
  · show (do let f ← detectFormat h; Except.ok (iterEntries f.parseLine (pre ++ bad :: post))) = _
    rw [hdet]
    show Except.ok (iterEntries f.parseLine (pre ++ bad :: post)) = _
    rw [(C30_iter f.parseLine (pre ++ bad :: post)).2 pre bad post es _ rfl (mapE_of_map hp) hbad]

/-- C93: `iter_entries` on a readable file yields one entry per line, in order. -/
theorem C93_iter (name h : Str) (hh : Spec.isHeader name h) (ls : List Str) (es : List Entry)
    (hes : ls.map (Spec.lineReader name) = es.map .ok) : iterFile (h :: ls) = .ok (es, none) := by
  obtain ⟨f, hf, rfl⟩ := isHeader_known hh
  have hp : ls.map f.parseLine = es.map .ok := by
    rw [← hes]; exact List.map_congr_left (fun l _ => parseLine_eq_reader f hf l)
  exact (C34_agrees_with_iter h ls f hf hh es (mapE_of_map hp)).1

/-- A CEDICT file with a homograph: the hypotheses are met. -/
example : Spec.isHeader u!"cedict" u!"# CEDICT x\n" ∧
    [u!"行 行 [xing2] /to walk/\n", u!"銀 银 [yin2] /silver/\n", u!"行 行 [hang2] /row/line/"].map (Spec.lineReader u!"cedict") =
      [⟨u!"行", [u!"xing2"], [u!"to walk"]⟩, ⟨u!"银", [u!"yin2"], [u!"silver"]⟩, ⟨u!"行", [u!"hang2"], [u!"row", u!"line"]⟩].map
        Except.ok := by
  refine ⟨Or.inr (Or.inr (Or.inr ⟨rfl, u!" x\n", rfl, u!" x", true, rfl, by decide⟩)), by decide +kernel⟩

end Cjk
