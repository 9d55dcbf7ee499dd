import Verif.Spec.CsvFile
import Verif.Props.CsvWritten
/-!
# C135: what `load_file` reads from any file
-/

namespace Cjk
open Py
open Spec (RawField RawRecord FileOf doubledQuotes)

/-! ### The reader on a field -/

section
variable (lim : Nat)

/-- The reader without options on the characters of a text. -/
def csvPlain (b : Bool) (r : CsvR) (s : Str) : Rows := csvTextD (.excel 0x09) lim b r s

/-- What is read if a character is too much or a NUL. -/
def csvFail : Rows := ([], some .genericException)

/-- No NUL and not too long. -/
def FitsIn (v : Str) : Prop := 0 ∉ v ∧ v.length ≤ lim

variable {lim}

theorem plain_inField (fs : List Str) (rest : Str) : ∀ (s g : Str) (b : Bool), (∀ c ∈ s, c ≠ 0x09 ∧ c ≠ 0x0a ∧ c ≠ 0x0d) →
    g.length ≤ lim →
    (0 ∉ s ∧ g.length + s.length ≤ lim →
      csvPlain lim b ⟨.inField, g, fs⟩ (s ++ rest) = csvPlain lim (if s = [] then b else false) ⟨.inField, g ++ s, fs⟩ rest) ∧
    (¬ (0 ∉ s ∧ g.length + s.length ≤ lim) → csvPlain lim b ⟨.inField, g, fs⟩ (s ++ rest) = csvFail)
  | [], g, b, _, hg => by simp [hg]
  | c :: s, g, b, hs, hg => by
    obtain ⟨h1, h2, h3⟩ := hs c (by simp)
    by_cases h0 : c = 0
    · subst h0
      refine ⟨fun h => absurd (by simp) h.1, fun _ => ?_⟩
      rw [List.cons_append, csvPlain, csvTextD, if_pos rfl]; rfl
    by_cases hl : g.length < lim
    · have ih := plain_inField fs rest s (g ++ [c]) false (fun x hx => hs x (by simp [hx])) (by simp; omega)
      have e : csvPlain lim b ⟨.inField, g, fs⟩ ((c :: s) ++ rest) = csvPlain lim false ⟨.inField, g ++ [c], fs⟩ (s ++ rest) := by
        rw [List.cons_append]
        refine csvTextD_step h0 h2 ?_
        simp only [CsvR.char, CsvR.fieldChar, CsvDialect.excel, h1, h2, h3, or_self, if_false, reduceCtorEq]
        exact csvAdd_ok hl
      rw [e]
      simp only [List.length_append, List.length_cons, List.length_nil, List.append_assoc, List.singleton_append] at ih
      have hiff : (0 ∉ c :: s ∧ g.length + (c :: s).length ≤ lim) ↔ (0 ∉ s ∧ g.length + (0 + 1) + s.length ≤ lim) := by
        simp only [List.mem_cons, List.length_cons, not_or]
        constructor
        · rintro ⟨⟨_, a⟩, b⟩; exact ⟨a, by omega⟩
        · rintro ⟨a, b⟩; exact ⟨⟨fun h => h0 h.symm, a⟩, by omega⟩
      rw [hiff]
      refine ⟨fun h => ?_, ih.2⟩
      rw [ih.1 h]
      simp
    · refine ⟨fun h => ?_, fun _ => ?_⟩
      · simp at h; omega
      · rw [List.cons_append, csvPlain, csvTextD, if_neg h0]
        simp only [CsvR.char, CsvR.fieldChar, CsvDialect.excel, h1, h2, h3, or_self, if_false, reduceCtorEq, CsvR.add,
          if_pos (Nat.le_of_not_lt hl)]
        rfl

theorem plain_inQuoted (fs : List Str) (rest : Str) : ∀ (s g : Str) (b : Bool), g.length ≤ lim →
    (0 ∉ s ∧ g.length + s.length ≤ lim →
      ∃ b', csvPlain lim b ⟨.inQuoted, g, fs⟩ (doubledQuotes s ++ rest) = csvPlain lim b' ⟨.inQuoted, g ++ s, fs⟩ rest) ∧
    (¬ (0 ∉ s ∧ g.length + s.length ≤ lim) → csvPlain lim b ⟨.inQuoted, g, fs⟩ (doubledQuotes s ++ rest) = csvFail)
  | [], g, b, hg => by
    refine ⟨fun _ => ⟨b, by simp [doubledQuotes]⟩, fun h => absurd ?_ h⟩
    simp [hg]
  | c :: s, g, b, hg => by
    by_cases h0 : c = 0
    · subst h0
      refine ⟨fun h => absurd (by simp) h.1, fun _ => ?_⟩
      simp only [doubledQuotes, List.flatMap_cons]
      rw [if_neg (by decide), List.singleton_append, List.cons_append, csvPlain, csvTextD, if_pos rfl]; rfl
    by_cases hl : g.length < lim
    · have e : ∃ b', csvPlain lim b ⟨.inQuoted, g, fs⟩ (doubledQuotes (c :: s) ++ rest) =
          csvPlain lim b' ⟨.inQuoted, g ++ [c], fs⟩ (doubledQuotes s ++ rest) := by
        simp only [doubledQuotes, List.flatMap_cons]
        by_cases hq : c = 0x22
        · subst hq
          rw [if_pos rfl]
          refine ⟨false, ?_⟩
          simp only [csvPlain, List.cons_append, List.nil_append]
          rw [csvTextD_step (r' := ⟨.quoteInQuoted, g, fs⟩) (by decide) (by decide) (by simp [CsvR.char, CsvDialect.excel])]
          refine csvTextD_step (by decide) (by decide) ?_
          simp only [CsvR.char, CsvDialect.excel, if_true]
          exact csvAdd_ok hl
        · rw [if_neg hq]
          simp only [csvPlain, List.cons_append, List.nil_append]
          refine csvTextD_inQuoted h0 ?_
          simp only [CsvR.char, CsvDialect.excel, reduceCtorEq, if_false, Option.some.injEq, hq]
          exact csvAdd_ok hl
      obtain ⟨b', e⟩ := e
      have ih := plain_inQuoted fs rest s (g ++ [c]) b' (by simp; omega)
      rw [e]
      simp only [List.length_append, List.length_cons, List.length_nil, List.append_assoc, List.singleton_append] at ih
      have hiff : (0 ∉ c :: s ∧ g.length + (c :: s).length ≤ lim) ↔ (0 ∉ s ∧ g.length + (0 + 1) + s.length ≤ lim) := by
        simp only [List.mem_cons, List.length_cons, not_or]
        constructor
        · rintro ⟨⟨_, a⟩, b⟩; exact ⟨a, by omega⟩
        · rintro ⟨a, b⟩; exact ⟨⟨fun h => h0 h.symm, a⟩, by omega⟩
      rw [hiff]
      exact ih
    · refine ⟨fun h => ?_, fun _ => ?_⟩
      · simp at h; omega
      · simp only [doubledQuotes, List.flatMap_cons]
        by_cases hq : c = 0x22
        · subst hq
          rw [if_pos rfl]
          simp only [csvPlain, List.cons_append, List.nil_append]
          rw [csvTextD_step (r' := ⟨.quoteInQuoted, g, fs⟩) (by decide) (by decide) (by simp [CsvR.char, CsvDialect.excel])]
          rw [csvTextD, if_neg (by decide)]
          simp only [CsvR.char, CsvDialect.excel, if_true, CsvR.add, if_pos (Nat.le_of_not_lt hl)]
          rfl
        · rw [if_neg hq]
          simp only [csvPlain, List.cons_append, List.nil_append]
          rw [csvTextD, if_neg h0]
          simp only [CsvR.char, CsvDialect.excel, reduceCtorEq, if_false, Option.some.injEq, hq, CsvR.add, if_pos (Nat.le_of_not_lt hl)]
          rfl

/-- Where the reader stands behind a field. -/
def Behind (start : CsvMode) (b0 : Bool) (f : RawField) (m : CsvMode) (b : Bool) : Prop :=
  f.text = [] ∧ m = start ∧ b = b0 ∨ f.text ≠ [] ∧ (m = .inField ∨ m = .quoteInQuoted) ∧ b = false

theorem plain_field (fs : List Str) (rest : Str) (start : CsvMode) (hst : start = .startRecord ∨ start = .startField) (b : Bool)
    (f : RawField) (hf : f.Ok) (hcr : 0x0d ∉ f.text) :
    (FitsIn lim f.value → ∃ m b', Behind start b f m b' ∧
      csvPlain lim b ⟨start, [], fs⟩ (f.text ++ rest) = csvPlain lim b' ⟨m, f.value, fs⟩ rest) ∧
    (¬ FitsIn lim f.value → csvPlain lim b ⟨start, [], fs⟩ (f.text ++ rest) = csvFail) := by
  cases f with
  | plain s =>
    cases s with
    | nil => exact ⟨fun _ => ⟨start, b, Or.inl ⟨rfl, rfl, rfl⟩, rfl⟩, fun h => absurd ⟨by simp [RawField.value], by simp [RawField.value]⟩ h⟩
    | cons c s =>
      obtain ⟨h1, h2⟩ := hf
      obtain ⟨ht, hn⟩ := h1 c (by simp)
      have hq : c ≠ 0x22 := fun e => h2 (by rw [e]; rfl)
      have hr : c ≠ 0x0d := fun e => hcr (by rw [RawField.text, e]; simp)
      simp only [RawField.text, RawField.value]
      unfold FitsIn
      by_cases h0 : c = 0
      · subst h0
        refine ⟨fun h => absurd (by simp) h.1, fun _ => ?_⟩
        rw [List.cons_append, csvPlain, csvTextD, if_pos rfl]; rfl
      by_cases hl : 0 < lim
      · have e : csvPlain lim b ⟨start, [], fs⟩ ((c :: s) ++ rest) = csvPlain lim false ⟨.inField, [c], fs⟩ (s ++ rest) := by
          rw [List.cons_append]
          refine csvTextD_step h0 hn ?_
          rcases hst with rfl | rfl <;>
            simp only [CsvR.char, CsvR.startChar, CsvDialect.excel, ht, hn, hr, hq, or_self, if_false, reduceCtorEq, Option.some.injEq, Bool.false_eq_true, and_false] <;>
            exact csvAdd_ok hl
        have ih := plain_inField (lim := lim) fs rest s [c] false (fun x hx => ⟨(h1 x (by simp [hx])).1, (h1 x (by simp [hx])).2,
          fun e => hcr (by rw [RawField.text, ← e]; simp [hx])⟩) (by simp; omega)
        rw [e]
        have hiff : (0 ∉ c :: s ∧ (c :: s).length ≤ lim) ↔ (0 ∉ s ∧ [c].length + s.length ≤ lim) := by
          simp only [List.mem_cons, List.length_cons, List.length_nil, not_or]
          constructor
          · rintro ⟨⟨_, a⟩, b⟩; exact ⟨a, by omega⟩
          · rintro ⟨a, b⟩; exact ⟨⟨fun h => h0 h.symm, a⟩, by omega⟩
        rw [hiff]
        refine ⟨fun h => ⟨.inField, false, Or.inr ⟨by simp [RawField.text], Or.inl rfl, rfl⟩, ?_⟩, ih.2⟩
        rw [ih.1 h]; simp
      · refine ⟨fun h => ?_, fun _ => ?_⟩
        · simp at h; omega
        · rw [List.cons_append, csvPlain, csvTextD, if_neg h0]
          have hl' : lim ≤ ([] : Str).length := by simp; omega
          rcases hst with rfl | rfl <;>
            simp only [CsvR.char, CsvR.startChar, CsvDialect.excel, ht, hn, hr, hq, or_self, if_false, reduceCtorEq, Option.some.injEq, Bool.false_eq_true, and_false,
              CsvR.add, if_pos hl'] <;> rfl
  | quoted i t =>
    obtain ⟨h1, h2⟩ := hf
    have e : csvPlain lim b ⟨start, [], fs⟩ ((RawField.quoted i t).text ++ rest) =
        csvPlain lim false ⟨.inQuoted, [], fs⟩ (doubledQuotes i ++ (0x22 :: (t ++ rest))) := by
      simp only [RawField.text, List.append_assoc, List.cons_append, List.nil_append]
      refine csvTextD_step (by decide) (by decide) ?_
      rcases hst with rfl | rfl <;> simp [CsvR.char, CsvR.startChar, CsvDialect.excel]
    rw [e]
    obtain ⟨ok, bad⟩ := plain_inQuoted (lim := lim) fs (0x22 :: (t ++ rest)) i [] false (Nat.zero_le _)
    simp only [List.length_nil, Nat.zero_add, List.nil_append] at ok bad
    by_cases hi : 0 ∉ i ∧ i.length ≤ lim
    · obtain ⟨b', e2⟩ := ok hi
      have e3 : csvPlain lim b' ⟨.inQuoted, i, fs⟩ (0x22 :: (t ++ rest)) = csvPlain lim false ⟨.quoteInQuoted, i, fs⟩ (t ++ rest) := by
        refine csvTextD_step (by decide) (by decide) ?_
        simp [CsvR.char, CsvDialect.excel]
      rw [e2, e3]
      have hne : (RawField.quoted i t).text ≠ [] := by simp [RawField.text]
      cases t with
      | nil =>
        refine ⟨fun _ => ⟨.quoteInQuoted, false, Or.inr ⟨hne, Or.inr rfl, rfl⟩, ?_⟩, fun h => absurd ?_ h⟩
        · simp [RawField.value]
        · simpa [FitsIn, RawField.value] using hi
      | cons c t =>
        obtain ⟨ht, hn⟩ := h1 c (by simp)
        have hq : c ≠ 0x22 := fun e => h2 (by rw [e]; rfl)
        have hr : c ≠ 0x0d := fun e => hcr (by rw [RawField.text, e]; simp)
        simp only [RawField.value]
        unfold FitsIn
        by_cases h0 : c = 0
        · subst h0
          refine ⟨fun h => absurd (by simp) h.1, fun _ => ?_⟩
          rw [List.cons_append, csvPlain, csvTextD, if_pos rfl]; rfl
        by_cases hl : i.length < lim
        · have e : csvPlain lim false ⟨.quoteInQuoted, i, fs⟩ ((c :: t) ++ rest) = csvPlain lim false ⟨.inField, i ++ [c], fs⟩ (t ++ rest) := by
            rw [List.cons_append]
            refine csvTextD_step h0 hn ?_
            simp only [CsvR.char, CsvDialect.excel, ht, hn, hr, hq, or_self, if_false, Option.some.injEq, if_true]
            exact csvAdd_ok hl
          have ih := plain_inField (lim := lim) fs rest t (i ++ [c]) false (fun x hx => ⟨(h1 x (by simp [hx])).1, (h1 x (by simp [hx])).2,
            fun e => hcr (by rw [RawField.text, ← e]; simp [hx])⟩) (by simp; omega)
          rw [e]
          have hiff : (0 ∉ i ++ c :: t ∧ (i ++ c :: t).length ≤ lim) ↔ (0 ∉ t ∧ (i ++ [c]).length + t.length ≤ lim) := by
            simp only [List.mem_append, List.mem_cons, List.length_append, List.length_cons, List.length_nil, not_or]
            constructor
            · rintro ⟨⟨_, _, a⟩, b⟩; exact ⟨a, by omega⟩
            · rintro ⟨a, b⟩; exact ⟨⟨hi.1, fun h => h0 h.symm, a⟩, by omega⟩
          rw [hiff]
          refine ⟨fun h => ⟨.inField, false, Or.inr ⟨hne, Or.inl rfl, rfl⟩, ?_⟩, ih.2⟩
          rw [ih.1 h]; simp
        · refine ⟨fun h => ?_, fun _ => ?_⟩
          · simp at h; omega
          · rw [List.cons_append, csvPlain, csvTextD, if_neg h0]
            simp only [CsvR.char, CsvDialect.excel, ht, hn, hr, hq, or_self, if_false, Option.some.injEq, if_true, CsvR.add,
              if_pos (Nat.le_of_not_lt hl)]
            rfl
    · rw [bad hi]
      refine ⟨fun h => absurd ⟨fun h0 => h.1 (by simp [RawField.value, h0]), ?_⟩ hi, fun _ => rfl⟩
      have := h.2
      simp only [RawField.value, List.length_append] at this
      omega

/-! ### The reader on a record -/

theorem plain_tab (b : Bool) (m : CsvMode) (v : Str) (fs : List Str) (rest : Str)
    (hm : m = .startRecord ∨ m = .startField ∨ m = .inField ∨ m = .quoteInQuoted) :
    csvPlain lim b ⟨m, v, fs⟩ (0x09 :: rest) = csvPlain lim false ⟨.startField, [], fs ++ [v]⟩ rest := by
  refine csvTextD_step (by decide) (by decide) ?_
  rcases hm with rfl | rfl | rfl | rfl <;> simp [CsvR.char, CsvR.startChar, CsvR.fieldChar, CsvDialect.excel, CsvR.save]

theorem plain_newline (b : Bool) (m : CsvMode) (v : Str) (fs : List Str) (rest : Str)
    (hm : m = .startField ∨ m = .inField ∨ m = .quoteInQuoted) :
    csvPlain lim b ⟨m, v, fs⟩ (0x0a :: rest) =
      ((fs ++ [v]) :: (csvPlain lim true CsvR.init rest).1, (csvPlain lim true CsvR.init rest).2) := by
  unfold csvPlain
  rw [csvTextD_newline (r' := ⟨.eatCrnl, [], fs ++ [v]⟩) (r'' := ⟨.startRecord, [], fs ++ [v]⟩) ?_ rfl]
  · rfl
  · rcases hm with rfl | rfl | rfl <;> simp [CsvR.char, CsvR.startChar, CsvR.fieldChar, CsvDialect.excel, CsvR.save]

theorem plain_blank (b : Bool) (rest : Str) :
    csvPlain lim b CsvR.init (0x0a :: rest) = ([] :: (csvPlain lim true CsvR.init rest).1, (csvPlain lim true CsvR.init rest).2) := by
  unfold csvPlain
  rw [csvTextD_newline (r' := ⟨.eatCrnl, [], []⟩) (r'' := ⟨.startRecord, [], []⟩) ?_ rfl]
  · rfl
  · simp [CsvR.char, CsvR.init]

theorem plain_end (m : CsvMode) (v : Str) (fs : List Str) (hm : m = .startField ∨ m = .inField ∨ m = .quoteInQuoted) :
    csvPlain lim false ⟨m, v, fs⟩ [] = ([fs ++ [v]], none) := by
  unfold csvPlain
  rw [csvTextD]
  rcases hm with rfl | rfl | rfl <;> simp [CsvR.endLine, CsvR.save]

theorem plain_open (b : Bool) (v : Str) (fs : List Str) : csvPlain lim b ⟨.inQuoted, v, fs⟩ [] = ([fs ++ [v]], none) := by
  unfold csvPlain
  rw [csvTextD]
  cases b <;> simp [CsvR.endLine, CsvR.save, csvRowsD, CsvDialect.excel]

/-- At the beginning of a record, or behind a tab. -/
def AtField (start : CsvMode) (b : Bool) (fs : List Str) : Prop :=
  start = .startRecord ∧ b = true ∧ fs = [] ∨ start = .startField ∧ b = false

theorem AtField.mode {start : CsvMode} {b : Bool} {fs : List Str} (h : AtField start b fs) : start = .startRecord ∨ start = .startField := by
  rcases h with h | h
  · exact Or.inl h.1
  · exact Or.inr h.1

/-- Fields, each with a tab behind it. -/
def tabbed (fields : List RawField) : Str := fields.flatMap (fun f => f.text ++ [0x09])

theorem plain_tabbed (rest : Str) : ∀ (fields : List RawField) (start : CsvMode) (b : Bool) (fs : List Str), AtField start b fs →
    (∀ f ∈ fields, f.Ok ∧ 0x0d ∉ f.text) →
    ((∀ f ∈ fields, FitsIn lim f.value) → ∃ start' b', AtField start' b' (fs ++ fields.map RawField.value) ∧
      (start' = .startRecord ↔ fields = [] ∧ start = .startRecord) ∧
      csvPlain lim b ⟨start, [], fs⟩ (tabbed fields ++ rest) = csvPlain lim b' ⟨start', [], fs ++ fields.map RawField.value⟩ rest) ∧
    ((∃ f ∈ fields, ¬ FitsIn lim f.value) → csvPlain lim b ⟨start, [], fs⟩ (tabbed fields ++ rest) = csvFail)
  | [], start, b, fs, h, _ => by
    refine ⟨fun _ => ⟨start, b, by simpa using h, by simp, by simp [tabbed]⟩, ?_⟩
    rintro ⟨f, hf, _⟩
    cases hf
  | f :: fields, start, b, fs, h, hok => by
    obtain ⟨a1, a2⟩ := plain_field (lim := lim) fs (0x09 :: (tabbed fields ++ rest)) start h.mode b f (hok f (by simp)).1 (hok f (by simp)).2
    have e : tabbed (f :: fields) ++ rest = f.text ++ (0x09 :: (tabbed fields ++ rest)) := by
      simp [tabbed]
    rw [e]
    obtain ⟨i1, i2⟩ := plain_tabbed rest fields .startField false (fs ++ [f.value]) (Or.inr ⟨rfl, rfl⟩) (fun g hg => hok g (by simp [hg]))
    by_cases hv : FitsIn lim f.value
    · obtain ⟨m, b', hb, e2⟩ := a1 hv
      have hm : m = .startRecord ∨ m = .startField ∨ m = .inField ∨ m = .quoteInQuoted := by
        rcases hb with ⟨_, rfl, _⟩ | ⟨_, hm, _⟩
        · rcases h.mode with h | h
          · exact Or.inl h
          · exact Or.inr (Or.inl h)
        · exact Or.inr (Or.inr hm)
      rw [e2, plain_tab b' m f.value fs _ hm]
      refine ⟨fun hall => ?_, ?_⟩
      · obtain ⟨start', b'', h1, h2, h3⟩ := i1 (fun g hg => hall g (by simp [hg]))
        refine ⟨start', b'', by simpa using h1, by rw [h2]; simp, by simpa using h3⟩
      · rintro ⟨g, hg, hn⟩
        rcases List.mem_cons.1 hg with rfl | hg
        · exact absurd hv hn
        · exact i2 ⟨g, hg, hn⟩
    · exact ⟨fun hall => absurd (hall f (by simp)) hv, fun _ => a2 hv⟩

theorem join_last (sep : Str) (x : Str) : ∀ xs : List Str, join sep (xs ++ [x]) = xs.flatMap (fun y => y ++ sep) ++ x
  | [] => by simp [join]
  | [y] => by simp [join]
  | y :: z :: ys => by
    have := join_last sep x (z :: ys)
    rw [List.cons_append, List.cons_append, join_cons_cons, ← List.cons_append, this]
    simp

theorem closed_text (init : List RawField) (f : RawField) : (RawRecord.mk (init ++ [f]) none).text = tabbed init ++ f.text := by
  simp only [RawRecord.text, Option.toList, List.map_nil, List.append_nil, List.map_append, List.map_cons]
  rw [join_last]
  simp [tabbed, List.flatMap_map]

theorem open_text (fields : List RawField) (i : Str) : (RawRecord.mk fields (some i)).text = tabbed fields ++ (0x22 :: doubledQuotes i) := by
  simp only [RawRecord.text, Option.toList, List.map_cons, List.map_nil]
  rw [join_last]
  simp [tabbed, List.flatMap_map]

theorem closed_good {init : List RawField} {f : RawField} : (RawRecord.mk (init ++ [f]) none).Good lim ↔
    (∀ g ∈ init, FitsIn lim g.value) ∧ FitsIn lim f.value := by
  unfold RawRecord.Good RawRecord.row
  by_cases ht : (RawRecord.mk (init ++ [f]) none).text = []
  · rw [if_pos ht]
    rw [closed_text] at ht
    simp only [List.append_eq_nil_iff] at ht
    obtain ⟨h1, h2⟩ := ht
    have hinit : init = [] := by
      cases init with
      | nil => rfl
      | cons g gs => simp [tabbed] at h1
    have hf : f = .plain [] := by
      cases f with
      | plain s => simp only [RawField.text] at h2; rw [h2]
      | quoted i t => simp [RawField.text] at h2
    subst hinit hf
    simp [FitsIn, RawField.value]
  · rw [if_neg ht]
    simp only [FitsIn, Option.toList, List.append_nil, List.map_append, List.mem_append, List.mem_map, List.map_cons, List.map_nil,
      List.mem_singleton]
    constructor
    · intro h
      exact ⟨fun g hg => h _ (Or.inl ⟨g, hg, rfl⟩), h _ (Or.inr rfl)⟩
    · rintro ⟨h1, h2⟩ v (⟨g, hg, rfl⟩ | rfl)
      · exact h1 g hg
      · exact h2

theorem open_good {fields : List RawField} {i : Str} : (RawRecord.mk fields (some i)).Good lim ↔
    (∀ g ∈ fields, FitsIn lim g.value) ∧ FitsIn lim i := by
  unfold RawRecord.Good RawRecord.row
  rw [if_neg (by rw [open_text]; simp)]
  simp only [FitsIn, Option.toList, List.mem_append, List.mem_map, List.mem_singleton]
  constructor
  · intro h
    exact ⟨fun g hg => h _ (Or.inl ⟨g, hg, rfl⟩), h _ (Or.inr rfl)⟩
  · rintro ⟨h1, h2⟩ v (⟨g, hg, rfl⟩ | rfl)
    · exact h1 g hg
    · exact h2

/-- A record that is closed, with the mode behind its last field. -/
theorem plain_closed (init : List RawField) (f : RawField) (hok : ∀ g ∈ init ++ [f], g.Ok) (hcr : 0x0d ∉ (RawRecord.mk (init ++ [f]) none).text)
    (rest : Str) :
    ((RawRecord.mk (init ++ [f]) none).Good lim →
      ((RawRecord.mk (init ++ [f]) none).text = [] ∧
        csvPlain lim true CsvR.init ((RawRecord.mk (init ++ [f]) none).text ++ rest) = csvPlain lim true CsvR.init rest) ∨
      ((RawRecord.mk (init ++ [f]) none).text ≠ [] ∧ ∃ m, (m = .startField ∨ m = .inField ∨ m = .quoteInQuoted) ∧
        csvPlain lim true CsvR.init ((RawRecord.mk (init ++ [f]) none).text ++ rest) =
          csvPlain lim false ⟨m, f.value, init.map RawField.value⟩ rest)) ∧
    (¬ (RawRecord.mk (init ++ [f]) none).Good lim →
      csvPlain lim true CsvR.init ((RawRecord.mk (init ++ [f]) none).text ++ rest) = csvFail) := by
  rw [closed_good]
  have hcr1 : ∀ g ∈ init ++ [f], 0x0d ∉ g.text := by
    intro g hg h
    apply hcr
    rw [closed_text]
    rcases List.mem_append.1 hg with hg | hg
    · exact List.mem_append_left _ (List.mem_flatMap.2 ⟨g, hg, List.mem_append_left _ h⟩)
    · rw [List.mem_singleton.1 hg] at h
      exact List.mem_append_right _ h
  obtain ⟨a1, a2⟩ := plain_tabbed (lim := lim) (f.text ++ rest) init .startRecord true [] (Or.inl ⟨rfl, rfl, rfl⟩)
    (fun g hg => ⟨hok g (by simp [hg]), hcr1 g (by simp [hg])⟩)
  rw [closed_text, List.append_assoc]
  by_cases hi : ∀ g ∈ init, FitsIn lim g.value
  · obtain ⟨start', b', h1, h2, h3⟩ := a1 hi
    obtain ⟨c1, c2⟩ := plain_field (lim := lim) (init.map RawField.value) rest start' h1.mode b' f (hok f (by simp)) (hcr1 f (by simp))
    rw [show CsvR.init = ⟨.startRecord, [], []⟩ from rfl, h3, List.nil_append]
    refine ⟨fun h => ?_, fun h => c2 (fun hf => h ⟨hi, hf⟩)⟩
    obtain ⟨m, b'', hb, e⟩ := c1 h.2
    rcases hb with ⟨t1, rfl, rfl⟩ | ⟨t1, hm, rfl⟩
    · rcases h1 with ⟨rfl, rfl, hnil⟩ | ⟨rfl, rfl⟩
      · obtain ⟨rfl, _⟩ := h2.1 rfl
        refine Or.inl ⟨by simp [tabbed, t1], ?_⟩
        rw [e]
        have : f.value = [] := by
          cases f with
          | plain s => exact t1
          | quoted i t => simp [RawField.text] at t1
        rw [this]
        rfl
      · refine Or.inr ⟨?_, .startField, Or.inl rfl, e⟩
        intro ht
        simp only [List.append_eq_nil_iff] at ht
        have hinit : init = [] := by
          cases init with
          | nil => rfl
          | cons g gs => exact absurd ht.1 (by simp [tabbed])
        subst hinit
        exact absurd (h2.2 ⟨rfl, rfl⟩) (by simp)
    · exact Or.inr ⟨by simp [t1], m, Or.inr hm, e⟩
  · refine ⟨fun h => absurd h.1 hi, fun _ => ?_⟩
    refine a2 ?_
    exact Classical.byContradiction fun hne => hi fun g hg => Classical.byContradiction fun hn => hne ⟨g, hg, hn⟩

/-- A record whose last quote is not closed. -/
theorem plain_unclosed (fields : List RawField) (i : Str) (hok : ∀ g ∈ fields, g.Ok) (hcr : 0x0d ∉ (RawRecord.mk fields (some i)).text) :
    ((RawRecord.mk fields (some i)).Good lim →
      csvPlain lim true CsvR.init (RawRecord.mk fields (some i)).text = ([fields.map RawField.value ++ [i]], none)) ∧
    (¬ (RawRecord.mk fields (some i)).Good lim → csvPlain lim true CsvR.init (RawRecord.mk fields (some i)).text = csvFail) := by
  rw [open_good]
  rw [open_text] at hcr ⊢
  obtain ⟨a1, a2⟩ := plain_tabbed (lim := lim) (0x22 :: doubledQuotes i) fields .startRecord true [] (Or.inl ⟨rfl, rfl, rfl⟩)
    (fun g hg => ⟨hok g hg, fun h => hcr (List.mem_append_left _ (List.mem_flatMap.2 ⟨g, hg, List.mem_append_left _ h⟩))⟩)
  by_cases hi : ∀ g ∈ fields, FitsIn lim g.value
  · obtain ⟨start', b', h1, h2, h3⟩ := a1 hi
    have e : csvPlain lim b' ⟨start', [], fields.map RawField.value⟩ (0x22 :: doubledQuotes i) =
        csvPlain lim false ⟨.inQuoted, [], fields.map RawField.value⟩ (doubledQuotes i ++ []) := by
      rw [List.append_nil]
      refine csvTextD_step (by decide) (by decide) ?_
      rcases h1.mode with rfl | rfl <;> simp [CsvR.char, CsvR.startChar, CsvDialect.excel]
    rw [show CsvR.init = ⟨.startRecord, [], []⟩ from rfl, h3, List.nil_append, e]
    obtain ⟨c1, c2⟩ := plain_inQuoted (lim := lim) (fields.map RawField.value) [] i [] false (Nat.zero_le _)
    simp only [List.length_nil, Nat.zero_add, List.nil_append] at c1 c2
    refine ⟨fun h => ?_, fun h => c2 (fun hf => h ⟨hi, hf⟩)⟩
    obtain ⟨b'', e2⟩ := c1 h.2
    rw [e2, plain_open]
  · refine ⟨fun h => absurd h.1 hi, fun _ => ?_⟩
    refine a2 ?_
    exact Classical.byContradiction fun hne => hi fun g hg => Classical.byContradiction fun hn => hne ⟨g, hg, hn⟩

theorem closed_split {r : RawRecord} (hr : r.Ok) (hc : r.unclosed = none) : ∃ init f, r = ⟨init ++ [f], none⟩ := by
  obtain ⟨fields, u⟩ := r
  simp only at hc
  subst hc
  have hne : fields ≠ [] := by
    rcases hr.1 with h | h
    · exact h
    · exact absurd rfl h
  exact ⟨fields.dropLast, fields.getLast hne, by rw [List.dropLast_concat_getLast]⟩

theorem plain_file {rs : List RawRecord} {text : Str} (h : FileOf rs text) (hcr : 0x0d ∉ text) :
    csvPlain lim true CsvR.init text = ((rs.takeWhile (fun r => decide (r.Good lim))).map RawRecord.row,
      if ∀ r ∈ rs, r.Good lim then none else some .genericException) := by
  induction h with
  | nil => simp [csvPlain, csvTextD, csvRowsD_init_nil]
  | @last r ok ne =>
    obtain ⟨fields, u⟩ := r
    cases u with
    | some i =>
      obtain ⟨a1, a2⟩ := plain_unclosed (lim := lim) fields i ok.2 hcr
      by_cases hg : (RawRecord.mk fields (some i)).Good lim
      · rw [a1 hg]
        simp only [List.takeWhile, hg, decide_true, List.map_cons, List.map_nil, List.mem_singleton, forall_eq, if_true, RawRecord.row, if_neg ne,
          Option.toList]
      · rw [a2 hg]
        simp [List.takeWhile, hg, csvFail]
    | none =>
      obtain ⟨init, f, e⟩ := closed_split ok rfl
      simp only [RawRecord.mk.injEq, and_true] at e
      subst e
      obtain ⟨a1, a2⟩ := plain_closed (lim := lim) init f ok.2 hcr []
      rw [List.append_nil] at a1 a2
      by_cases hg : (RawRecord.mk (init ++ [f]) none).Good lim
      · rcases a1 hg with ⟨h1, _⟩ | ⟨_, m, hm, e⟩
        · exact absurd h1 ne
        · rw [e, plain_end _ _ _ hm]
          simp only [List.takeWhile, hg, decide_true, List.map_cons, List.map_nil, List.mem_singleton, forall_eq, if_true, RawRecord.row, if_neg ne,
            Option.toList, List.append_nil, List.map_append]
      · rw [a2 hg]
        simp [List.takeWhile, hg, csvFail]
  | @cons r rs text ok closed h ih =>
    have ih := ih (fun hx => hcr (List.mem_append_right _ hx))
    obtain ⟨init, f, rfl⟩ := closed_split ok closed
    have hcr1 : 0x0d ∉ (RawRecord.mk (init ++ [f]) none).text := fun hx => hcr (by simp [hx])
    obtain ⟨a1, a2⟩ := plain_closed (lim := lim) init f ok.2 hcr1 (0x0a :: text)
    rw [List.append_assoc, List.singleton_append]
    by_cases hg : (RawRecord.mk (init ++ [f]) none).Good lim
    · have key : csvPlain lim true CsvR.init ((RawRecord.mk (init ++ [f]) none).text ++ 0x0a :: text) =
          ((RawRecord.mk (init ++ [f]) none).row :: (csvPlain lim true CsvR.init text).1, (csvPlain lim true CsvR.init text).2) := by
        rcases a1 hg with ⟨h1, e⟩ | ⟨h1, m, hm, e⟩
        · rw [e, plain_blank, RawRecord.row, if_pos h1]
        · rw [e, plain_newline _ _ _ _ _ hm, RawRecord.row, if_neg h1]
          simp
      rw [key, ih]
      simp only [List.takeWhile, hg, decide_true, List.map_cons, List.forall_mem_cons, true_and]
    · rw [a2 hg]
      simp only [List.takeWhile, hg, decide_false, List.map_nil, List.forall_mem_cons, false_and, if_false]
      rfl
end

/-! ### Every text can be taken apart -/

theorem take_inside : ∀ s : Str, (∃ i rest, s = doubledQuotes i ++ 0x22 :: rest ∧ rest.head? ≠ some 0x22) ∨ ∃ i, s = doubledQuotes i
  | [] => Or.inr ⟨[], rfl⟩
  | [c] => by
    by_cases h : c = 0x22
    · subst h; exact Or.inl ⟨[], [], rfl, by simp⟩
    · exact Or.inr ⟨[c], by simp [doubledQuotes, h]⟩
  | c :: d :: s => by
    by_cases h : c = 0x22
    · subst h
      by_cases h' : d = 0x22
      · subst h'
        rcases take_inside s with ⟨i, rest, e, hr⟩ | ⟨i, e⟩
        · exact Or.inl ⟨0x22 :: i, rest, by rw [e]; simp [doubledQuotes], hr⟩
        · exact Or.inr ⟨0x22 :: i, by rw [e]; simp [doubledQuotes]⟩
      · exact Or.inl ⟨[], d :: s, rfl, by simp [h']⟩
    · rcases take_inside (d :: s) with ⟨i, rest, e, hr⟩ | ⟨i, e⟩
      · exact Or.inl ⟨c :: i, rest, by rw [e]; simp [doubledQuotes, h], hr⟩
      · exact Or.inr ⟨c :: i, by rw [e]; simp [doubledQuotes, h]⟩

/-- A tab, a line feed or the end. -/
def AtBreak (rest : Str) : Prop := rest = [] ∨ ∃ r, rest = 0x09 :: r ∨ rest = 0x0a :: r

theorem take_outside : ∀ s : Str, ∃ a rest, s = a ++ rest ∧ (∀ c ∈ a, c ≠ 0x09 ∧ c ≠ 0x0a) ∧ AtBreak rest
  | [] => ⟨[], [], rfl, by simp, Or.inl rfl⟩
  | c :: s => by
    by_cases h1 : c = 0x09
    · subst h1; exact ⟨[], _, rfl, by simp, Or.inr ⟨s, Or.inl rfl⟩⟩
    by_cases h2 : c = 0x0a
    · subst h2; exact ⟨[], _, rfl, by simp, Or.inr ⟨s, Or.inr rfl⟩⟩
    obtain ⟨a, rest, e, ha, hr⟩ := take_outside s
    refine ⟨c :: a, rest, by rw [e]; rfl, ?_, hr⟩
    intro x hx
    rcases List.mem_cons.1 hx with rfl | hx
    · exact ⟨h1, h2⟩
    · exact ha x hx

theorem take_field (s : Str) : (∃ (f : RawField) (rest : Str), f.Ok ∧ s = f.text ++ rest ∧ AtBreak rest) ∨ ∃ i, s = 0x22 :: doubledQuotes i := by
  by_cases h : s.head? = some 0x22
  · obtain ⟨s', rfl⟩ : ∃ s', s = 0x22 :: s' := by
      cases s with
      | nil => simp at h
      | cons c s => simp at h; exact ⟨s, by rw [h]⟩
    rcases take_inside s' with ⟨i, rest, rfl, hr⟩ | ⟨i, rfl⟩
    · obtain ⟨a, rest', rfl, ha, hb⟩ := take_outside rest
      refine Or.inl ⟨.quoted i a, rest', ⟨ha, ?_⟩, by simp [RawField.text], hb⟩
      cases a with
      | nil => simp
      | cons c a => simpa using hr
    · exact Or.inr ⟨i, rfl⟩
  · obtain ⟨a, rest, rfl, ha, hb⟩ := take_outside s
    refine Or.inl ⟨.plain a, rest, ⟨ha, ?_⟩, rfl, hb⟩
    cases a with
    | nil => simp
    | cons c a => simpa using h

theorem record_cons_text (f : RawField) (r : RawRecord) (hr : r.Ok) : (RawRecord.mk (f :: r.fields) r.unclosed).text = f.text ++ 0x09 :: r.text := by
  obtain ⟨fields, u⟩ := r
  change join u!"\t" (f.text :: (fields.map RawField.text ++ u.toList.map (fun s => u!"\"" ++ doubledQuotes s))) =
    f.text ++ 0x09 :: join u!"\t" (fields.map RawField.text ++ u.toList.map (fun s => u!"\"" ++ doubledQuotes s))
  generalize he : fields.map RawField.text ++ u.toList.map (fun s => u!"\"" ++ doubledQuotes s) = l
  cases l with
  | nil =>
    rcases hr.1 with h | h
    · simp at he h; exact absurd he.1 h
    · cases u with
      | none => exact absurd rfl h
      | some i => simp at he
  | cons x xs => rw [join_cons_cons]; simp

theorem take_record : ∀ (n : Nat) (s : Str), s.length ≤ n →
    (∃ (r : RawRecord) (rest : Str), r.Ok ∧ r.unclosed = none ∧ s = r.text ++ 0x0a :: rest) ∨ ∃ r : RawRecord, r.Ok ∧ s = r.text
  | n, s, hn => by
    rcases take_field s with ⟨f, rest, hf, e, hb⟩ | ⟨i, e⟩
    · rcases hb with rfl | ⟨r, rfl | rfl⟩
      · exact Or.inr ⟨⟨[f], none⟩, ⟨Or.inl (by simp), by simpa using hf⟩, by rw [e]; simp [RawRecord.text, join]⟩
      · have hlen := congrArg List.length e
        simp only [List.length_append, List.length_cons] at hlen
        cases n with
        | zero => omega
        | succ n =>
          rcases take_record n r (by omega) with ⟨q, rest, hq, hc, e2⟩ | ⟨q, hq, e2⟩
          · refine Or.inl ⟨⟨f :: q.fields, q.unclosed⟩, rest, ⟨Or.inl (by simp), ?_⟩, hc, ?_⟩
            · intro g hg
              rcases List.mem_cons.1 hg with rfl | hg
              · exact hf
              · exact hq.2 g hg
            · rw [record_cons_text f q hq, e, e2]; simp
          · refine Or.inr ⟨⟨f :: q.fields, q.unclosed⟩, ⟨Or.inl (by simp), ?_⟩, ?_⟩
            · intro g hg
              rcases List.mem_cons.1 hg with rfl | hg
              · exact hf
              · exact hq.2 g hg
            · rw [record_cons_text f q hq, e, e2]
      · exact Or.inl ⟨⟨[f], none⟩, r, ⟨Or.inl (by simp), by simpa using hf⟩, rfl, by rw [e]; simp [RawRecord.text, join]⟩
    · exact Or.inr ⟨⟨[], some i⟩, ⟨Or.inr (by simp), by simp⟩, by rw [e]; simp [RawRecord.text, join]⟩

theorem take_file : ∀ (n : Nat) (s : Str), s.length ≤ n → ∃ rs, FileOf rs s
  | n, s, hn => by
    by_cases h0 : s = []
    · subst h0; exact ⟨[], .nil⟩
    rcases take_record n s hn with ⟨r, rest, hr, hc, e⟩ | ⟨r, hr, e⟩
    · have hlen := congrArg List.length e
      simp only [List.length_append, List.length_cons] at hlen
      cases n with
      | zero => omega
      | succ n =>
        obtain ⟨rs, h⟩ := take_file n rest (by omega)
        refine ⟨r :: rs, ?_⟩
        rw [e, show r.text ++ 0x0a :: rest = r.text ++ u!"\n" ++ rest by simp]
        exact .cons hr hc h
    · subst e
      exact ⟨[r], .last hr h0⟩

/-! ### C135 -/

theorem loadFile_plain (lim : Nat) (text : Str) (hcr : 0x0d ∉ text) : loadFile lim (fileLines text) = csvPlain lim true CsvR.init text := by
  rw [← C125_default]
  change csvRowsD (.excel 0x09) lim CsvR.init (fileLinesAux [] text) = _
  rw [csvRowsD_text text [] CsvR.init hcr]
  rfl

/-- C135: every file consists of records. -/
theorem C135_every_file (text : Str) : ∃ rs, FileOf rs (Spec.oneBreak text) := take_file _ _ (Nat.le_refl _)

/-- C135: `load_file` delivers the records of the file up to the first one with a NUL or a field that is too long, where it raises. -/
theorem C135_rows (lim : Nat) (text : Str) (rs : List RawRecord) (h : FileOf rs (Spec.oneBreak text)) :
    loadFile lim (fileLines text) = ((rs.takeWhile (fun r => decide (r.Good lim))).map RawRecord.row,
      if ∀ r ∈ rs, r.Good lim then none else some .genericException) := by
  rw [← fileLines_oneBreak, loadFile_plain _ _ (oneBreak_noReturn text), plain_file h (oneBreak_noReturn text)]

/-! ### Which files raise -/

theorem mem_doubledQuotes (c : Nat) (s : Str) : c ∈ doubledQuotes s ↔ c ∈ s := by
  unfold doubledQuotes
  rw [List.mem_flatMap]
  constructor
  · rintro ⟨x, hx, hc⟩
    by_cases e : x = 0x22
    · rw [if_pos e] at hc
      simp at hc
      rw [hc, ← e]; exact hx
    · rw [if_neg e] at hc
      rw [List.mem_singleton.1 hc]; exact hx
  · intro h
    refine ⟨c, h, ?_⟩
    by_cases e : c = 0x22
    · rw [if_pos e, e]; simp
    · rw [if_neg e]; simp

theorem mem_joined (sep : Str) (c : Nat) (hc : c ∉ sep) : ∀ l : List Str, c ∈ join sep l ↔ ∃ x ∈ l, c ∈ x
  | [] => by simp [join]
  | [x] => by simp [join]
  | x :: y :: l => by
    rw [join_cons_cons, List.mem_append, List.mem_append, mem_joined sep c hc (y :: l)]
    simp [hc]

theorem nul_in_record (r : RawRecord) : 0 ∈ r.text ↔ ∃ v ∈ r.row, 0 ∈ v := by
  by_cases ht : r.text = []
  · unfold RawRecord.row
    rw [if_pos ht, ht]; simp
  · unfold RawRecord.row
    rw [if_neg ht]
    unfold RawRecord.text
    rw [mem_joined _ _ (by decide)]
    have hf : ∀ f : RawField, 0 ∈ f.text ↔ 0 ∈ f.value := by
      intro f
      cases f with
      | plain s => rfl
      | quoted i t => simp [RawField.text, RawField.value, mem_doubledQuotes]
    constructor
    · rintro ⟨x, hx, h0⟩
      rcases List.mem_append.1 hx with hx | hx
      · obtain ⟨f, hf', rfl⟩ := List.mem_map.1 hx
        exact ⟨f.value, List.mem_append_left _ (List.mem_map.2 ⟨f, hf', rfl⟩), (hf f).1 h0⟩
      · obtain ⟨i, hi, rfl⟩ := List.mem_map.1 hx
        exact ⟨i, List.mem_append_right _ hi, by simpa [mem_doubledQuotes] using h0⟩
    · rintro ⟨v, hv, h0⟩
      rcases List.mem_append.1 hv with hv | hv
      · obtain ⟨f, hf', rfl⟩ := List.mem_map.1 hv
        exact ⟨f.text, List.mem_append_left _ (List.mem_map.2 ⟨f, hf', rfl⟩), (hf f).2 h0⟩
      · exact ⟨_, List.mem_append_right _ (List.mem_map.2 ⟨v, hv, rfl⟩), by simpa [mem_doubledQuotes] using h0⟩

theorem nul_in_file {rs : List RawRecord} {text : Str} (h : FileOf rs text) : 0 ∈ text ↔ ∃ r ∈ rs, ∃ v ∈ r.row, 0 ∈ v := by
  induction h with
  | nil => simp
  | last ok ne => simp [nul_in_record]
  | cons ok closed h ih => simp [ih, nul_in_record]

theorem nul_oneBreak (s : Str) : 0 ∈ Spec.oneBreak s ↔ 0 ∈ s := by
  fun_induction Spec.oneBreak s with
  | case1 s ih => simp [ih]
  | case2 c s hne ih =>
    simp only [List.mem_cons, ih]
    by_cases e : c = 0x0d
    · subst e; simp
    · rw [if_neg e]
  | case3 => simp

/-- C135: without options `load_file` raises exactly if the file contains a NUL or a field is longer than the limit. -/
theorem C135_raises_iff (lim : Nat) (text : Str) (rs : List RawRecord) (h : FileOf rs (Spec.oneBreak text)) :
    (loadFile lim (fileLines text)).2 ≠ none ↔ 0 ∈ text ∨ ∃ r ∈ rs, ∃ v ∈ r.row, lim < v.length := by
  rw [C135_rows lim text rs h, ← nul_oneBreak, nul_in_file h]
  constructor
  · intro hne
    by_cases hall : ∀ r ∈ rs, r.Good lim
    · exact absurd (if_pos hall) hne
    · refine Classical.byContradiction fun hno => hall fun r hr v hv => ⟨fun h0 => hno (Or.inl ⟨r, hr, v, hv, h0⟩), ?_⟩
      exact Nat.le_of_not_lt fun hlt => hno (Or.inr ⟨r, hr, v, hv, hlt⟩)
  · intro hor
    rw [if_neg]
    · simp
    · intro hall
      rcases hor with ⟨r, hr, v, hv, h0⟩ | ⟨r, hr, v, hv, hlt⟩
      · exact (hall r hr v hv).1 h0
      · exact absurd (hall r hr v hv).2 (Nat.not_le.2 hlt)

/-! ### One file behind the other -/

/-- The file ends behind a record: it is empty or ends with a line feed that is not inside quotes. -/
def Spec.Complete (text : Str) : Prop := ∃ rs, FileOf rs text ∧ (∀ r ∈ rs, r.unclosed = none) ∧ (text = [] ∨ text.getLast? = some c!"\n")

theorem getLast?_append_ne (a : Str) {b : Str} (h : b ≠ []) : (a ++ b).getLast? = b.getLast? := by
  rw [List.getLast?_append]
  cases hb : b.getLast? with
  | none => exact absurd (List.getLast?_eq_none_iff.1 hb) h
  | some c => rfl

theorem fileOf_append {rs qs : List RawRecord} {a b : Str} (ha : FileOf rs a) (hb : FileOf qs b) (hc : ∀ r ∈ rs, r.unclosed = none)
    (he : a = [] ∨ a.getLast? = some 0x0a) : FileOf (rs ++ qs) (a ++ b) := by
  induction ha with
  | nil => exact hb
  | @last r ok ne =>
    exfalso
    rcases he with he | he
    · exact ne he
    · have hcl : r.unclosed = none := hc r (by simp)
      obtain ⟨init, f, rfl⟩ := closed_split ok hcl
      rw [closed_text] at he ne
      have hfok := ok.2 f (by simp)
      by_cases hf : f.text = []
      · rw [hf, List.append_nil] at he ne
        cases hi : init.reverse with
        | nil =>
          have : init = [] := by simpa using hi
          subst this
          exact ne rfl
        | cons g gs =>
          have : init = gs.reverse ++ [g] := by rw [← List.reverse_reverse init, hi]; simp
          subst this
          have e : tabbed (gs.reverse ++ [g]) = (tabbed gs.reverse ++ g.text) ++ [0x09] := by simp [tabbed]
          rw [e, getLast?_append_ne _ (by simp)] at he
          simp at he
      · rw [getLast?_append_ne _ hf] at he
        cases f with
        | plain s =>
          exact (hfok.1 0x0a (List.mem_of_getLast? he)).2 rfl
        | quoted i t =>
          simp only [RawField.text] at he
          cases t with
          | nil => rw [List.append_nil, getLast?_append_ne _ (by simp)] at he; simp at he
          | cons c t =>
            rw [getLast?_append_ne _ (by simp)] at he
            exact (hfok.1 0x0a (List.mem_of_getLast? he)).2 rfl
  | @cons r rs text ok closed h ih =>
    have : FileOf (rs ++ qs) (text ++ b) := by
      refine ih (fun q hq => hc q (by simp [hq])) ?_
      by_cases ht : text = []
      · exact Or.inl ht
      · right
        rcases he with he | he
        · simp at he
        · rwa [getLast?_append_ne _ ht] at he
    rw [List.append_assoc, List.cons_append]
    exact .cons ok closed this

theorem takeWhile_all_append {α : Type} (p : α → Bool) (l m : List α) (h : ∀ x ∈ l, p x = true) : (l ++ m).takeWhile p = l ++ m.takeWhile p := by
  induction l with
  | nil => rfl
  | cons x l ih =>
    rw [List.cons_append, List.takeWhile_cons_of_pos (h x (by simp)), ih (fun y hy => h y (by simp [hy]))]
    rfl

/-- The row count of a file whose last record goes on: the next character belongs to it. -/
theorem incomplete_row (a : Str) (hn : ¬ Spec.Complete a) : ∃ init r s, FileOf (init ++ [r]) a ∧ FileOf (init ++ [s]) (a ++ u!"x") := by
  obtain ⟨rs, h⟩ := take_file _ a (Nat.le_refl _)
  have key : ∀ {rs : List RawRecord} {a : Str}, FileOf rs a →
      ((∀ r ∈ rs, r.unclosed = none) ∧ (a = [] ∨ a.getLast? = some 0x0a)) ∨
      ∃ init r s, rs = init ++ [r] ∧ FileOf (init ++ [s]) (a ++ u!"x") := by
    intro rs a h
    induction h with
    | nil => exact Or.inl ⟨by simp, Or.inl rfl⟩
    | @last r ok ne =>
      right
      obtain ⟨fields, u⟩ := r
      cases u with
      | some i =>
        have e : (RawRecord.mk fields (some i)).text ++ u!"x" = (RawRecord.mk fields (some (i ++ u!"x"))).text := by
          rw [open_text, open_text]; simp [doubledQuotes]
        refine ⟨[], _, ⟨fields, some (i ++ u!"x")⟩, rfl, ?_⟩
        rw [e]
        exact .last ⟨Or.inr (by simp), ok.2⟩ (by rw [← e]; simp)
      | none =>
        obtain ⟨init, f, e⟩ := closed_split ok rfl
        simp only [RawRecord.mk.injEq, and_true] at e
        subst e
        obtain ⟨g, hg, eg⟩ : ∃ g : RawField, g.Ok ∧ g.text = f.text ++ u!"x" := by
          have hfok := ok.2 f (by simp)
          cases f with
          | plain s =>
            refine ⟨.plain (s ++ u!"x"), ⟨?_, ?_⟩, rfl⟩
            · intro c hc
              rcases List.mem_append.1 hc with hc | hc
              · exact hfok.1 c hc
              · rw [List.mem_singleton.1 hc]; decide
            · cases s with
              | nil => simp
              | cons c s => simpa using hfok.2
          | quoted i t =>
            refine ⟨.quoted i (t ++ u!"x"), ⟨?_, ?_⟩, by simp [RawField.text]⟩
            · intro c hc
              rcases List.mem_append.1 hc with hc | hc
              · exact hfok.1 c hc
              · rw [List.mem_singleton.1 hc]; decide
            · cases t with
              | nil => simp
              | cons c s => simpa using hfok.2
        have e : (RawRecord.mk (init ++ [f]) none).text ++ u!"x" = (RawRecord.mk (init ++ [g]) none).text := by
          rw [closed_text, closed_text, eg]; simp
        refine ⟨[], _, ⟨init ++ [g], none⟩, rfl, ?_⟩
        rw [e]
        refine .last ⟨Or.inl (by simp), ?_⟩ (by rw [← e]; simp)
        intro q hq
        rcases List.mem_append.1 hq with hq | hq
        · exact ok.2 q (by simp [hq])
        · rw [List.mem_singleton.1 hq]; exact hg
    | @cons r rs text ok closed h ih =>
      rcases ih with ⟨h1, h2⟩ | ⟨init, q, s, rfl, h2⟩
      · left
        refine ⟨?_, Or.inr ?_⟩
        · intro q hq
          rcases List.mem_cons.1 hq with rfl | hq
          · exact closed
          · exact h1 q hq
        · rcases h2 with rfl | h2
          · simp
          · rw [getLast?_append_ne _ (by intro e; rw [e] at h2; simp at h2)]; exact h2
      · right
        refine ⟨r :: init, q, s, rfl, ?_⟩
        rw [List.append_assoc]
        exact .cons ok closed h2
  rcases key h with ⟨h1, h2⟩ | ⟨init, r, s, rfl, h2⟩
  · exact absurd ⟨rs, h, h1, h2⟩ hn
  · exact ⟨init, r, s, h, h2⟩

/-- C135: two files one behind the other are read like the first and then the second, whatever the second is, exactly if the first is complete
(provided that the first alone can be read). -/
theorem C135_append_iff (lim : Nat) (hlim : 0 < lim) (a : Str) (hcr : c!"\r" ∉ a) (hok : (loadFile lim (fileLines a)).2 = none) :
    (∀ b, c!"\r" ∉ b → loadFile lim (fileLines (a ++ b)) =
      ((loadFile lim (fileLines a)).1 ++ (loadFile lim (fileLines b)).1, (loadFile lim (fileLines b)).2)) ↔ Spec.Complete a := by
  have read : ∀ {rs : List RawRecord} {t : Str}, FileOf rs t → c!"\r" ∉ t →
      loadFile lim (fileLines t) = ((rs.takeWhile (fun r => decide (r.Good lim))).map RawRecord.row,
        if ∀ r ∈ rs, r.Good lim then none else some .genericException) := by
    intro rs t h ht
    exact C135_rows lim t rs (by rw [(oneBreak_eq_iff t).2 ht]; exact h)
  have good : ∀ {rs : List RawRecord}, FileOf rs a → ∀ r ∈ rs, r.Good lim := by
    intro rs h
    rw [read h hcr] at hok
    exact Classical.byContradiction fun hn => absurd hok (by rw [if_neg hn]; simp)
  constructor
  · intro hall
    refine Classical.byContradiction fun hn => ?_
    obtain ⟨init, r, s, h1, h2⟩ := incomplete_row a hn
    have hx : FileOf [⟨[.plain u!"x"], none⟩] u!"x" :=
      .last (r := ⟨[.plain u!"x"], none⟩) ⟨Or.inl (by simp), by simp [RawField.Ok]⟩ (by simp [RawRecord.text, join, RawField.text])
    have e := hall u!"x" (by decide)
    rw [read h2 (by simp; simpa using hcr), read h1 hcr, read hx (by decide)] at e
    have hg := good h1
    have hlen := congrArg (fun x => x.1.length) e
    simp only [List.length_map, List.length_append] at hlen
    have l1 : ((init ++ [r]).takeWhile (fun r => decide (r.Good lim))).length = init.length + 1 := by
      have := takeWhile_all_append (fun r => decide (r.Good lim)) (init ++ [r]) [] (fun x hx => by simpa using hg x hx)
      rw [List.append_nil] at this
      rw [this]; simp
    have l2 : ((init ++ [s]).takeWhile (fun r => decide (r.Good lim))).length ≤ init.length + 1 := by
      refine Nat.le_trans (List.takeWhile_sublist _).length_le ?_
      simp
    have l3 : ([(⟨[.plain u!"x"], none⟩ : RawRecord)].takeWhile (fun r => decide (r.Good lim))).length = 1 := by
      have hgx : (⟨[.plain u!"x"], none⟩ : RawRecord).Good lim := by
        intro v hv
        simp [RawRecord.row, RawRecord.text, join, RawField.text, RawField.value] at hv
        subst hv
        exact ⟨by decide, hlim⟩
      simp [List.takeWhile, hgx]
    omega
  · rintro ⟨rs, h1, h2, h3⟩ b hb
    obtain ⟨qs, h4⟩ := take_file _ b (Nat.le_refl _)
    have hg := good h1
    rw [read (fileOf_append h1 h4 h2 h3) (fun hx => (List.mem_append.1 hx).elim hcr hb), read h1 hcr, read h4 hb,
      takeWhile_all_append _ _ _ (fun x hx => by simpa using hg x hx)]
    have := takeWhile_all_append (fun r => decide (r.Good lim)) rs [] (fun x hx => by simpa using hg x hx)
    rw [List.append_nil] at this
    rw [this]
    simp only [List.map_append, List.takeWhile_nil, List.append_nil, Prod.mk.injEq, true_and]
    have : (∀ r ∈ rs ++ qs, r.Good lim) ↔ ∀ r ∈ qs, r.Good lim := by
      constructor
      · intro h r hr; exact h r (by simp [hr])
      · intro h r hr
        rcases List.mem_append.1 hr with hr | hr
        · exact hg r hr
        · exact h r hr
    by_cases hq : ∀ r ∈ qs, r.Good lim
    · rw [if_pos hq, if_pos (this.2 hq)]
    · rw [if_neg hq, if_neg (fun h => hq (this.1 h))]

/-- A file with a quoted field over two lines, text behind a quote, an empty line and a quote that is not closed. -/
example : FileOf [⟨[.plain u!"1", .quoted u!"a\t\"b\nc" u!"d\""], none⟩, ⟨[.plain []], none⟩, ⟨[.plain u!"x"], some u!"y\nz"⟩]
      u!"1\t\"a\t\"\"b\nc\"d\"\n\nx\t\"y\nz" ∧
    loadFile 10 (fileLines u!"1\t\"a\t\"\"b\nc\"d\"\n\nx\t\"y\nz") = ([[u!"1", u!"a\t\"b\ncd\""], [], [u!"x", u!"y\nz"]], none) := by
  refine ⟨?_, by decide +kernel⟩
  refine .cons (r := ⟨[.plain u!"1", .quoted u!"a\t\"b\nc" u!"d\""], none⟩) (text := u!"\nx\t\"y\nz") ?_ rfl
    (.cons (r := ⟨[.plain []], none⟩) (text := u!"x\t\"y\nz") ?_ rfl (.last (r := ⟨[.plain u!"x"], some u!"y\nz"⟩) ?_ (by decide +kernel)))
  · refine ⟨Or.inl (by simp), ?_⟩
    intro f hf
    simp only [List.mem_cons, List.not_mem_nil, or_false] at hf
    rcases hf with rfl | rfl
    · exact ⟨by decide, by decide⟩
    · exact ⟨by decide, by decide⟩
  · exact ⟨Or.inl (by simp), by simp [RawField.Ok]⟩
  · refine ⟨Or.inl (by simp), ?_⟩
    intro f hf
    rw [List.mem_singleton.1 hf]
    exact ⟨by decide, by decide⟩

end Cjk
