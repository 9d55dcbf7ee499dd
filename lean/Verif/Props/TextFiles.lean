import Verif.Spec.TextFile
import Verif.Py.Lines
import Verif.Props.DictLoad
import Verif.Model.SplitByCodes
import Verif.Model.Radkdict
import Verif.Model.Kanjidic
import Verif.Model.Zhuyin
import Verif.Model.PlaceText
import Verif.Model.Pinyin
/-!
# C94: line endings and the end of the last line do not matter
-/

namespace Cjk
open Py

theorem noEol_of {s : Str} (h : ∀ c ∈ s, c ≠ c!"\r" ∧ c ≠ c!"\n") : NoEol s :=
  ⟨fun hm => (h _ hm).1 rfl, fun hm => (h _ hm).2 rfl⟩

/-- What a file delivers: its lines, each with a newline except perhaps the last one. -/
theorem textOf_lines {ls : List Str} {text : Str} (h : Spec.TextOf ls text) :
    ∃ ms : List (Str × Bool), fileLines text = ms.map (fun m => m.1 ++ Spec.eol m.2) ∧ ms.map Prod.fst = ls ∧ ∀ m ∈ ms, NoEol m.1 := by
  induction h with
  | nil => exact ⟨[], rfl, rfl, by simp⟩
  | @last s ne h =>
    refine ⟨[(s, false)], ?_, rfl, by simpa using noEol_of h⟩
    unfold fileLines
    rw [fileLinesAux_last s (noEol_of h)]
    simp [ne, Spec.eol]
  | @cons s e text ls h he hm _ ih =>
    obtain ⟨ms, h1, h2, h3⟩ := ih
    refine ⟨(s, true) :: ms, ?_, by simp [h2], ?_⟩
    · have hs := noEol_of h
      have : fileLines (s ++ e ++ text) = (s ++ [0x0a]) :: fileLines text := by
        unfold fileLines
        cases he with
        | unix => simpa using fileLinesAux_line s hs _ (Or.inl rfl) text []
        | windows => simpa using fileLinesAux_line s hs _ (Or.inr rfl) text []
        | mac => exact (fileLinesAux_cr s hs text (hm rfl) []).trans (by simp)
      rw [this, h1]
      rfl
    · intro m hm
      rcases List.mem_cons.1 hm with rfl | hm
      · exact noEol_of h
      · exact h3 m hm

/-- Every text has lines. -/
theorem textOf_total (text : Str) : ∃ ls, Spec.TextOf ls text := by
  generalize hn : text.length = n
  induction n using Nat.strongRecOn generalizing text with
  | _ n ih =>
    let s := text.takeWhile (fun c => c != 0x0d && c != 0x0a)
    have hs : ∀ c ∈ s, c ≠ c!"\r" ∧ c ≠ c!"\n" := by
      intro c hc
      have := List.all_eq_true.1 (List.all_takeWhile (p := fun c => c != 0x0d && c != 0x0a) (l := text)) c hc
      simpa using this
    have htext : text = s ++ text.dropWhile (fun c => c != 0x0d && c != 0x0a) := (List.takeWhile_append_dropWhile).symm
    match hr : text.dropWhile (fun c => c != 0x0d && c != 0x0a) with
    | [] =>
      rw [hr, List.append_nil] at htext
      by_cases hne : s = []
      · exact ⟨[], by rw [htext, hne]; exact .nil⟩
      · exact ⟨[s], by rw [htext]; exact .last hne hs⟩
    | c :: rest =>
      rw [hr] at htext
      have hc : c = 0x0d ∨ c = 0x0a := by
        have := List.head?_dropWhile_not (fun c => c != 0x0d && c != 0x0a) text
        rw [hr] at this
        simp at this
        omega
      rcases hc with rfl | rfl
      · by_cases hh : rest.head? = some c!"\n"
        · match rest, hh with
          | _ :: rest, hh =>
            cases hh
            obtain ⟨ls, hls⟩ := ih rest.length (by rw [← hn, htext]; simp; omega) rest rfl
            refine ⟨s :: ls, ?_⟩
            rw [htext]
            have := Spec.TextOf.cons hs .windows (by intro h; cases h) hls
            simpa using this
        · obtain ⟨ls, hls⟩ := ih rest.length (by rw [← hn, htext]; simp; omega) rest rfl
          refine ⟨s :: ls, ?_⟩
          rw [htext]
          have := Spec.TextOf.cons hs .mac (fun _ => hh) hls
          simpa using this
      · obtain ⟨ls, hls⟩ := ih rest.length (by rw [← hn, htext]; simp; omega) rest rfl
        refine ⟨s :: ls, ?_⟩
        rw [htext]
        have := Spec.TextOf.cons hs .unix (by intro h; cases h) hls
        simpa using this

/-- The lines of a text are determined. -/
theorem textOf_unique {ls ls' : List Str} {text : Str} (h : Spec.TextOf ls text) (h' : Spec.TextOf ls' text) : ls = ls' := by
  obtain ⟨ms, h1, rfl, h3⟩ := textOf_lines h
  obtain ⟨ms', h1', rfl, h3'⟩ := textOf_lines h'
  rw [h1] at h1'
  clear h1 h h'
  induction ms generalizing ms' with
  | nil =>
    cases ms' with
    | nil => rfl
    | cons m ms' => simp at h1'
  | cons m ms ih =>
    cases ms' with
    | nil => simp at h1'
    | cons m' ms' =>
      simp only [List.map_cons, List.cons.injEq] at h1' ⊢
      refine ⟨?_, ih (fun x hx => h3 x (by simp [hx])) ms' h1'.2 (fun x hx => h3' x (by simp [hx]))⟩
      have key : ∀ (a : Str) (b : Bool), NoEol a → (a ++ Spec.eol b).takeWhile (· != 0x0a) = a := by
        intro a b ha
        have h0 : ∀ x ∈ a, (x != 0x0a) = true := by
          intro x hx
          have : x ≠ 0x0a := fun h => ha.2 (h ▸ hx)
          simpa using this
        rw [List.takeWhile_append_of_pos h0]
        cases b <;> simp [Spec.eol]
      rw [← key m.1 m.2 (h3 m (by simp)), h1'.1, key m'.1 m'.2 (h3' m' (by simp))]

/-! ### A newline at the end of a line is ignored -/

theorem eol_space (b : Bool) : ∀ c ∈ Spec.eol b, isSpace c = true := by
  cases b
  · simp [Spec.eol]
  · intro c hc
    simp only [Spec.eol, if_true, List.mem_singleton] at hc
    subst hc
    decide +kernel

theorem rstrip_eol (s : Str) (b : Bool) : rstrip (s ++ Spec.eol b) = rstrip s := rstrip_append (eol_space b)

theorem strip_eol (s : Str) (b : Bool) : strip (s ++ Spec.eol b) = strip s := by
  rw [← strip_rstrip, rstrip_eol, strip_rstrip]

theorem startsWith_hash_eol (s : Str) (b : Bool) : startsWith (s ++ Spec.eol b) u!"#" = startsWith s u!"#" := by
  cases b
  · simp [Spec.eol]
  · cases s with
    | nil => decide +kernel
    | cons c s => simp [startsWith, Spec.eol, List.isPrefixOf]

theorem mem_eol {x : Chr} (hx : x ≠ 0x0a) (b : Bool) : x ∉ Spec.eol b := by
  cases b <;> simp [Spec.eol, hx]

theorem cut_eol {x : Chr} (hx : x ≠ 0x0a) (s : Str) (b : Bool) :
    Spec.cut x (s ++ Spec.eol b) = (Spec.cut x s).map (fun p => (p.1, p.2 ++ Spec.eol b)) := by
  cases h : Spec.cut x s with
  | none =>
    have := cut_eq_none.1 h
    exact cut_eq_none.2 (by simp [this, mem_eol hx b])
  | some p =>
    obtain ⟨w, t⟩ := p
    obtain ⟨rfl, hw⟩ := cut_spec h
    have : w ++ x :: t ++ Spec.eol b = w ++ x :: (t ++ Spec.eol b) := by simp
    rw [this, cut_append hw]
    rfl

theorem prefix_eol {close v : Str} (hc : 0x0a ∉ close) (b : Bool) : close <+: v ++ Spec.eol b ↔ close <+: v := by
  constructor
  · intro h
    cases b
    · simpa [Spec.eol] using h
    · simp only [Spec.eol, if_true] at h
      rcases List.prefix_concat_iff.1 h with h | h
      · exact absurd (by rw [h]; simp) hc
      · exact h
  · intro h
    exact h.trans (List.prefix_append _ _)

theorem bracketed_eol {close : Str} (hc : 0x0a ∉ close) (t : Str) (b : Bool) :
    Spec.bracketed close (t ++ Spec.eol b) = ((Spec.bracketed close t).1, (Spec.bracketed close t).2 ++ Spec.eol b) := by
  cases t with
  | nil => cases b <;> rfl
  | cons c u =>
    by_cases h : c = 0x5b
    · subst h
      show (match Spec.cut 0x5d (u ++ Spec.eol b) with
        | some (r, v) => if r ≠ [] ∧ close <+: v then (some r, v.drop close.length) else (none, 0x5b :: u ++ Spec.eol b)
        | none => (none, 0x5b :: u ++ Spec.eol b)) = _
      rw [cut_eol (by decide)]
      simp only [Spec.bracketed]
      cases Spec.cut 0x5d u with
      | none => rfl
      | some p =>
        obtain ⟨r, v⟩ := p
        simp only [Option.map_some, prefix_eol hc]
        split
        · rename_i h
          simp only [Prod.mk.injEq, true_and]
          rw [List.drop_append_of_le_length h.2.length_le]
        · rfl
    · have h1 : ∀ z, Spec.bracketed close (c :: z) = (none, c :: z) := by
        intro z
        unfold Spec.bracketed
        split
        · rename_i h'
          simp at h'
          exact absurd h'.1 h
        · rfl
      rw [List.cons_append, h1, h1]
      rfl

theorem takeWhile_eol (s : Str) (b : Bool) : (s ++ Spec.eol b).takeWhile (· != 0x0a) = s.takeWhile (· != 0x0a) := by
  induction s with
  | nil => cases b <;> rfl
  | cons c s ih =>
    rw [List.cons_append]
    simp only [List.takeWhile_cons]
    split <;> simp_all

theorem chomp_eol {s : Str} (h : 0x0a ∉ s) (b : Bool) : Spec.chomp (s ++ Spec.eol b) = Spec.chomp s := by
  unfold Spec.chomp
  rw [takeWhile_eol, if_neg, if_neg]
  · intro hm; exact h (List.dropLast_subset _ hm)
  · cases b
    · simp only [Spec.eol, Bool.false_eq_true, if_false, List.append_nil]
      intro hm; exact h (List.dropLast_subset _ hm)
    · simpa [Spec.eol] using h

theorem cut_mem {x : Chr} {s w t : Str} (h : Spec.cut x s = some (w, t)) {c : Chr} (hc : c ∉ s) : c ∉ t := by
  obtain ⟨rfl, _⟩ := cut_spec h
  simp at hc
  exact hc.2.2

theorem bracketed_mem {close t : Str} {c : Chr} (hc : c ∉ t) : c ∉ (Spec.bracketed close t).2 := by
  unfold Spec.bracketed
  split
  · split
    · rename_i u r v h
      split
      · intro hm
        exact cut_mem h (by simp at hc; exact hc.2) (List.mem_of_mem_drop hm)
      · exact hc
    · exact hc
  · exact hc

theorem readEdict_eol {s : Str} (hs : 0x0a ∉ s) (b : Bool) : Spec.readEdict (s ++ Spec.eol b) = Spec.readEdict s := by
  unfold Spec.readEdict
  rw [cut_eol (by decide)]
  cases h : Spec.cut 0x20 s with
  | none => rfl
  | some p =>
    obtain ⟨w, t⟩ := p
    simp only [Option.map_some]
    rw [bracketed_eol (by decide)]
    simp only
    rw [chomp_eol (bracketed_mem (cut_mem h hs))]

theorem readCedict_eol {s : Str} (b : Bool) : Spec.readCedict (s ++ Spec.eol b) = Spec.readCedict s := by
  unfold Spec.readCedict
  rw [cut_eol (by decide)]
  cases h : Spec.cut 0x20 s with
  | none => rfl
  | some p =>
    obtain ⟨w, t⟩ := p
    simp only [Option.map_some]
    rw [cut_eol (by decide)]
    cases h' : Spec.cut 0x20 t with
    | none => rfl
    | some q =>
      simp only [Option.map_some]
      rw [bracketed_eol (by decide)]
      simp only
      rw [takeWhile_eol]

theorem readJcKdic_eol {s : Str} (hs : 0x0a ∉ s) (b : Bool) : Spec.readJcKdic (s ++ Spec.eol b) = Spec.readJcKdic s := by
  unfold Spec.readJcKdic
  rw [cut_eol (by decide)]
  cases h : Spec.cut 0x20 s with
  | none => rfl
  | some p =>
    obtain ⟨w, t⟩ := p
    simp only [Option.map_some]
    rw [bracketed_eol (by decide)]
    have hm : 0x0a ∉ (Spec.bracketed u!"\t" t).2 := bracketed_mem (cut_mem h hs)
    generalize Spec.bracketed u!"\t" t = q at hm
    obtain ⟨r, u⟩ := q
    cases r with
    | none => rfl
    | some r =>
      simp only
      rw [chomp_eol hm]

theorem readCjKdic_eol {s : Str} (hs : 0x0a ∉ s) (b : Bool) : Spec.readCjKdic (s ++ Spec.eol b) = Spec.readCjKdic s := by
  unfold Spec.readCjKdic
  rw [cut_eol (by decide)]
  cases h : Spec.cut 0x09 s with
  | none => rfl
  | some p =>
    obtain ⟨w, t⟩ := p
    simp only [Option.map_some]
    rw [cut_eol (by decide)]
    cases h' : Spec.cut 0x5c t with
    | none => rfl
    | some q =>
      obtain ⟨r, u⟩ := q
      simp only [Option.map_some]
      have hu : 0x0a ∉ u := cut_mem h' (cut_mem h hs)
      cases u with
      | nil => cases b <;> simp [Spec.eol]
      | cons c u =>
        simp only [List.cons_append, List.head?_cons, List.drop_succ_cons, List.drop_zero]
        rw [chomp_eol (by simp at hu; exact hu.2)]

theorem lineReader_eol (name : Str) {s : Str} (hs : 0x0a ∉ s) (b : Bool) : Spec.lineReader name (s ++ Spec.eol b) = Spec.lineReader name s := by
  unfold Spec.lineReader
  rw [readEdict_eol hs, readJcKdic_eol hs, readCjKdic_eol hs, readCedict_eol]

theorem parseLine_eol (f : RegexFormat) (hf : f ∈ knownFormats) {s : Str} (hs : 0x0a ∉ s) (b : Bool) :
    f.parseLine (s ++ Spec.eol b) = f.parseLine s := by
  rw [parseLine_eq_reader f hf, parseLine_eq_reader f hf, lineReader_eol _ hs]

theorem isHeader_eol {name s : Str} (hs : 0x0a ∉ s) (b : Bool) (h : Spec.isHeader name (s ++ Spec.eol b)) : Spec.isHeader name s := by
  have one : ∀ t : Str, 0x0a ∉ t → Spec.OneLine t := fun t ht => ⟨t, false, by simp [Spec.eol], ht⟩
  have front : ∀ p t : Str, 0x0a ∉ p → s ++ Spec.eol b = p ++ t → ∃ u, s = p ++ u ∧ 0x0a ∉ u := by
    intro p t hp h
    have : p <+: s := (prefix_eol hp b).1 ⟨t, h.symm⟩
    obtain ⟨u, rfl⟩ := this
    exact ⟨u, rfl, fun hm => hs (by simp [hm])⟩
  have whole : ∀ (p : Str) (nl : Bool), 0x0a ∉ p → s ++ Spec.eol b = p ++ Spec.eol nl → s = p := by
    intro p nl hp h
    have h1 := takeWhile_eol s b
    rw [h, takeWhile_eol] at h1
    have key : ∀ z : Str, 0x0a ∉ z → z.takeWhile (· != 0x0a) = z := by
      intro z hz
      have h0 : ∀ x ∈ z, (x != 0x0a) = true := by
        intro x hx
        have : x ≠ 0x0a := fun h => hz (h ▸ hx)
        simpa using this
      have := List.takeWhile_append_of_pos (l₂ := []) h0
      simpa using this
    rw [key p hp, key s hs] at h1
    exact h1.symm
  rcases h with ⟨hn, c, t, h, hc, _⟩ | ⟨hn, nl, h⟩ | ⟨hn, nl, h⟩ | ⟨hn, t, h, _⟩
  · obtain ⟨u, hu, hu'⟩ := front (c :: u!"？？？") t (by
      simp only [List.mem_cons, not_or]
      refine ⟨fun h => hc h.symm, ?_⟩
      decide) h
    exact Or.inl ⟨hn, c, u, hu, hc, one u hu'⟩
  · exact Or.inr (Or.inl ⟨hn, false, by rw [whole _ nl (by decide) h]; rfl⟩)
  · exact Or.inr (Or.inr (Or.inl ⟨hn, false, by rw [whole _ nl (by decide) h]; rfl⟩))
  · obtain ⟨u, hu, hu'⟩ := front _ t (by decide) h
    exact Or.inr (Or.inr (Or.inr ⟨hn, u, hu, one u hu'⟩))

theorem eol_isHeader {name s : Str} (hs : 0x0a ∉ s) (b : Bool) (h : Spec.isHeader name s) : Spec.isHeader name (s ++ Spec.eol b) := by
  have one : ∀ t : Str, 0x0a ∉ t → Spec.OneLine (t ++ Spec.eol b) := fun t ht => ⟨t, b, rfl, ht⟩
  rcases h with ⟨hn, c, t, rfl, hc, _⟩ | ⟨hn, nl, rfl⟩ | ⟨hn, nl, rfl⟩ | ⟨hn, t, rfl, _⟩
  · exact Or.inl ⟨hn, c, t ++ Spec.eol b, by simp, hc, one t (fun hm => hs (by simp [hm]))⟩
  · cases nl
    · exact Or.inr (Or.inl ⟨hn, b, by simp [Spec.eol]⟩)
    · exact absurd (by simp [Spec.eol]) hs
  · cases nl
    · exact Or.inr (Or.inr (Or.inl ⟨hn, b, by simp [Spec.eol]⟩))
    · exact absurd (by simp [Spec.eol]) hs
  · exact Or.inr (Or.inr (Or.inr ⟨hn, t ++ Spec.eol b, by simp, one t (fun hm => hs (by simp [hm]))⟩))

theorem detectFormat_eol {s : Str} (hs : 0x0a ∉ s) (b : Bool) : detectFormat (s ++ Spec.eol b) = detectFormat s := by
  cases h : detectFormat s with
  | ok f =>
    have := ((C33_detect_exact s).1 f).1 h
    exact ((C33_detect_exact _).1 f).2 ⟨this.1, eol_isHeader hs b this.2⟩
  | error x =>
    have hx := (C33_detect_exact s).2.2 x h
    subst hx
    have := (C33_detect_exact s).2.1.1 h
    exact (C33_detect_exact _).2.1.2 (fun f hf h' => this f hf (isHeader_eol hs b h'))

/-! ### Loaders -/

/-- Newlines at the ends of the lines make no difference to a loader. -/
def EolBlind {α : Type} (load : List Str → α) : Prop :=
  ∀ ms : List (Str × Bool), (∀ m ∈ ms, NoEol m.1) → load (ms.map (fun m => m.1 ++ Spec.eol m.2)) = load (ms.map Prod.fst)

theorem EolBlind.same {α : Type} {load : List Str → α} (h : EolBlind load) {ls : List Str} {text : Str} (ht : Spec.TextOf ls text) :
    load (fileLines text) = load ls := by
  obtain ⟨ms, h1, h2, h3⟩ := textOf_lines ht
  rw [h1, ← h2]
  exact h ms h3

theorem parseLoop_eol (f : RegexFormat) (hf : f ∈ knownFormats) (ms : List (Str × Bool)) (h : ∀ m ∈ ms, NoEol m.1) : ∀ b : Dict Str Entry,
    parseLoop f.parseLine b (ms.map (fun m => m.1 ++ Spec.eol m.2)) = parseLoop f.parseLine b (ms.map Prod.fst) := by
  induction ms with
  | nil => intro b; rfl
  | cons m ms ih =>
    intro b
    simp only [List.map_cons, parseLoop, parseLine_eol f hf (h m (by simp)).2]
    cases f.parseLine m.1 with
    | error e => rfl
    | ok e =>
      simp only [bind, Except.bind]
      cases addEntry b e with
      | error e => rfl
      | ok b' => exact ih (fun x hx => h x (by simp [hx])) b'

theorem iterEntries_eol (f : RegexFormat) (hf : f ∈ knownFormats) (ms : List (Str × Bool)) (h : ∀ m ∈ ms, NoEol m.1) :
    iterEntries f.parseLine (ms.map (fun m => m.1 ++ Spec.eol m.2)) = iterEntries f.parseLine (ms.map Prod.fst) := by
  induction ms with
  | nil => rfl
  | cons m ms ih =>
    simp only [List.map_cons, iterEntries, parseLine_eol f hf (h m (by simp)).2, ih (fun x hx => h x (by simp [hx]))]

theorem loadDictionary_eol : EolBlind loadDictionary := by
  intro ms h
  cases ms with
  | nil => rfl
  | cons m ms =>
    simp only [List.map_cons, loadDictionary, detectFormat_eol (h m (by simp)).2]
    cases hd : detectFormat m.1 with
    | error e => rfl
    | ok f => exact parseLoop_eol f (detect_mem hd) ms (fun x hx => h x (by simp [hx])) []

theorem iterFile_eol : EolBlind iterFile := by
  intro ms h
  cases ms with
  | nil => rfl
  | cons m ms =>
    simp only [List.map_cons, iterFile, detectFormat_eol (h m (by simp)).2]
    cases hd : detectFormat m.1 with
    | error e => rfl
    | ok f =>
      simp only [bind, Except.bind]
      rw [iterEntries_eol f (detect_mem hd) ms (fun x hx => h x (by simp [hx]))]

theorem loadCoded_eol (order : List Str → List Str) : EolBlind (loadCodedDictionary order) := by
  intro ms h
  simp only [loadCodedDictionary, iterFile_eol ms h]

theorem iterCoded_eol : EolBlind iterCodedEntries := by
  intro ms h
  simp only [iterCodedEntries, iterFile_eol ms h]

theorem radkDict_eol : EolBlind radkDict := by
  have step : ∀ st s b, radkStep st (s ++ Spec.eol b) = radkStep st s := by
    intro st s b
    unfold radkStep
    rw [rstrip_eol]
  have loop : ∀ ms : List (Str × Bool), ∀ st, radkLoop st (ms.map (fun m => m.1 ++ Spec.eol m.2)) = radkLoop st (ms.map Prod.fst) := by
    intro ms
    induction ms with
    | nil => intro st; rfl
    | cons m ms ih =>
      intro st
      simp only [List.map_cons, radkLoop, step]
      cases radkStep st m.1 with
      | error e => rfl
      | ok st' => exact ih st'
  intro ms _
  simp only [radkDict, loop]

theorem kanjidicLoop_eol (ms : List (Str × Bool)) : ∀ d : Dict Str KEntry,
    kanjidicLoop d (ms.map (fun m => m.1 ++ Spec.eol m.2)) = kanjidicLoop d (ms.map Prod.fst) := by
  induction ms with
  | nil => intro d; rfl
  | cons m ms ih =>
    intro d
    have hl : kanjidicLine (m.1 ++ Spec.eol m.2) = kanjidicLine m.1 := by unfold kanjidicLine; rw [strip_eol]
    simp only [List.map_cons, kanjidicLoop, startsWith_hash_eol, hl, ih]

theorem zhuyinLines_eol : EolBlind zhuyinLines := by
  intro ms hm
  clear hm
  induction ms with
  | nil => rfl
  | cons m ms ih => simp only [List.map_cons, zhuyinLines, startsWith_hash_eol, rstrip_eol, ih]

theorem zhuyin_eol {α : Type} (g : List (List Str) → α) : EolBlind (fun lines => g (zhuyinLines lines)) := by
  intro ms h
  show g _ = g _
  rw [zhuyinLines_eol ms h]

theorem placeFromLine_eol (s : Str) (b : Bool) : placeFromLine (s ++ Spec.eol b) = placeFromLine s := by
  unfold placeFromLine
  rw [rstrip_eol]

theorem placeFromFile_eol : EolBlind placeFromFile := by
  have step : ∀ st s b, loadStep st (s ++ Spec.eol b) = loadStep st s := by
    intro st s b
    unfold loadStep
    rw [placeFromLine_eol]
  have loop : ∀ ms : List (Str × Bool), ∀ st, loadLoop st (ms.map (fun m => m.1 ++ Spec.eol m.2)) = loadLoop st (ms.map Prod.fst) := by
    intro ms
    induction ms with
    | nil => intro st; rfl
    | cons m ms ih =>
      intro st
      simp only [List.map_cons, loadLoop, step]
      cases loadStep st m.1 with
      | error e => rfl
      | ok st' => exact ih st'
  intro ms _
  cases ms with
  | nil => rfl
  | cons m ms => simp only [List.map_cons, placeFromFile, placeFromLine_eol, loop]

/-- C94: the readers of dictionaries, of place files and of the zhuyin table, and the radical dictionary, do the same (including the same exception, if
any) on any two texts with the same lines; namely what they do on the bare lines. -/
theorem C94_readers {ls : List Str} {text : Str} (h : Spec.TextOf ls text) :
    loadDictionary (fileLines text) = loadDictionary ls ∧
    iterFile (fileLines text) = iterFile ls ∧
    (∀ order, loadCodedDictionary order (fileLines text) = loadCodedDictionary order ls) ∧
    iterCodedEntries (fileLines text) = iterCodedEntries ls ∧
    radkDict (fileLines text) = radkDict ls ∧
    zhuyinToPinyinTable (fileLines text) = zhuyinToPinyinTable ls ∧
    pinyinToZhuyinTable (fileLines text) = pinyinToZhuyinTable ls ∧
    pinyinRegexPattern (fileLines text) = pinyinRegexPattern ls ∧
    zhuyinRegexPattern (fileLines text) = zhuyinRegexPattern ls ∧
    newSegmenter (fileLines text) = newSegmenter ls ∧
    placeFromText text = placeFromFile ls :=
  ⟨loadDictionary_eol.same h, iterFile_eol.same h, fun order => (loadCoded_eol order).same h, iterCoded_eol.same h, radkDict_eol.same h,
    (zhuyin_eol (fun rows => zhuyinToPinyinLoop [] rows)).same h, (zhuyin_eol (fun rows => pinyinToZhuyinLoop [] rows)).same h,
    by unfold pinyinRegexPattern getAllPinyin; rw [zhuyinLines_eol.same h],
    by unfold zhuyinRegexPattern; rw [zhuyinLines_eol.same h],
    by unfold newSegmenter getAllPinyin; rw [zhuyinLines_eol.same h],
    placeFromFile_eol.same h⟩

/-- C94 for `Kanjidic`, which reads several files. -/
theorem C94_kanjidic (files : List (List Str × Str)) (h : ∀ f ∈ files, Spec.TextOf f.1 f.2) :
    kanjidic (files.map (fun f => fileLines f.2)) = kanjidic (files.map Prod.fst) := by
  unfold kanjidic
  simp only [List.map_eq_nil_iff]
  split
  · rfl
  · have : ∃ ms : List (Str × Bool), (files.map (fun f => fileLines f.2)).flatten = ms.map (fun m => m.1 ++ Spec.eol m.2) ∧
        (files.map Prod.fst).flatten = ms.map Prod.fst := by
      clear * - h
      induction files with
      | nil => exact ⟨[], rfl, rfl⟩
      | cons f files ih =>
        obtain ⟨ms, h1, h2⟩ := ih (fun x hx => h x (by simp [hx]))
        obtain ⟨ks, k1, k2, _⟩ := textOf_lines (h f (by simp))
        exact ⟨ks ++ ms, by simp [k1, h1], by simp [k2, h2]⟩
    obtain ⟨ms, h1, h2⟩ := this
    rw [h1, h2]
    exact kanjidicLoop_eol ms []

/-- C94: every text is one of a unique list of lines, so the statements above apply to every file. -/
theorem C94_every_file (text : Str) : ∃ ls, Spec.TextOf ls text ∧ ∀ ls', Spec.TextOf ls' text → ls' = ls := by
  obtain ⟨ls, h⟩ := textOf_total text
  exact ⟨ls, h, fun ls' h' => textOf_unique h' h⟩

/-- The same two lines with three line endings and without the last one. -/
example : Spec.TextOf [u!"0 日本 にほん", u!"1 東京 とうきょう"] u!"0 日本 にほん\r\n1 東京 とうきょう" ∧
    Spec.TextOf [u!"0 日本 にほん", u!"1 東京 とうきょう"] u!"0 日本 にほん\r1 東京 とうきょう\n" := by
  constructor
  · exact .cons (s := u!"0 日本 にほん") (by decide) .windows (by decide) (.last (by decide) (by decide))
  · exact .cons (s := u!"0 日本 にほん") (by decide) .mac (by decide)
      (.cons (s := u!"1 東京 とうきょう") (text := []) (by decide) .unix (by decide) .nil)

end Cjk
