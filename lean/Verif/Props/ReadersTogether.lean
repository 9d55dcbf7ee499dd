import Verif.Props.TatoebaLinks
import Verif.Props.TatoebaSentences
import Verif.Props.Readers
/-!
# Tatoeba readers built on one another (C158)

A program reads the sentences of the languages it wants, and gives the ids of this reader to the readers of links and of indices
(`TatoebaLinksReader(links, sentence_ids=sentences)`, `TatoebaIndexReader(indices, sentence_ids=sentences)`; `set(value)` in
tatoeba.py:397 and 663 iterates over the reader).  Then it looks up the members of the groups in the reader of sentences.  When does that always
succeed?
-/

namespace Cjk
open Py

/-- The reader of sentences can answer for an id. -/
def Spec.Known {D : Type} (a : SentData D) (i : Int) : Prop := (∃ t, a.sentence i = .ok t) ∧ ∃ l, a.language i = .ok l

/-- The links that pass a filter on one side have both ends among the ids. -/
def Spec.BothEnds (ids : List Int) (fn : Spec.FilterName) (rows : List (List Str)) : Prop :=
  ∀ r ∈ rows, ∀ x y, Spec.pairOf r = some (x, y) →
    match fn with
    | .sentId => x ∈ ids → y ∈ ids
    | .transId => y ∈ ids → x ∈ ids
    | .both => True

section
variable {D : Type} {strptime : Str → Except PyErr D} {languages : Option (List Str)} {srows : Rows} {a : SentData D}

theorem known_iff (h : sentLoad strptime languages srows = .ok a) (i : Int) : Spec.Known a i ↔ i ∈ a.ids := by
  constructor
  · rintro ⟨⟨t, ht⟩, _⟩
    unfold SentData.sentence at ht
    cases hg : Dict.get? a.sent i with
    | none => rw [hg] at ht; cases ht
    | some t' => exact (Dict.get?_isSome_iff _ _).1 (by rw [hg]; rfl)
  · intro hi
    refine ⟨?_, ?_⟩
    · have : (Dict.get? a.sent i).isSome := (Dict.get?_isSome_iff _ _).2 hi
      obtain ⟨t, ht⟩ := Option.isSome_iff_exists.1 this
      exact ⟨t, by simp [SentData.sentence, ht]⟩
    · obtain ⟨r, hr, hid⟩ := ((C54_ids h).2 i).1 hi
      rw [C55_language_exact h i]
      split
      · exact ⟨_, rfl⟩
      · rename_i hf
        exfalso
        refine List.find?_eq_none.1 hf (Spec.rowLang r) (by rw [mem_dedup]; exact List.mem_map_of_mem hr) ?_
        rw [List.any_eq_true]
        exact ⟨r, hr, by simp [hid]⟩

theorem groups_occurs {src : Str} {rows : Rows} {subset : Option (List Int)} {name : Str} {fn : Spec.FilterName} {r : LinkReader}
    (hn : asciiLower name = fn.text) (h : LinkReader.new src rows subset name = .ok r) (j : Int) :
    (∃ g ∈ r.data.groups, j ∈ g) ↔ Spec.Occurs (Spec.links subset fn rows.1) j := by
  have inv := linkInv_all (Spec.links subset fn rows.1)
  rw [linkReader_new hn h]
  constructor
  · rintro ⟨g, hg, hj⟩
    simp only [LinkData.groups, Dict.values, List.mem_map] at hg
    obtain ⟨kv, hkv, rfl⟩ := hg
    exact (inv.members kv.1 kv.2 ((Dict.get?_eq_some_iff inv.wfg _ _).2 hkv)).2.2.2.1 j hj
  · intro hi
    obtain ⟨n, hn⟩ := Option.isSome_iff_exists.1 ((inv.occurs j).1 hi)
    obtain ⟨g, hg, p, hp, hip, h1, h2⟩ := inv.home j n hn
    refine ⟨g, ?_, by rcases hip with rfl | rfl <;> assumption⟩
    simp only [LinkData.groups, Dict.values, List.mem_map]
    exact ⟨(n, g), (Dict.get?_eq_some_iff inv.wfg _ _).1 hg, rfl⟩

/-- **C158** (links).  Every member of every group of a links reader that was given the ids of a reader of sentences can be looked up there,
sentence and language, exactly if every link of the file that passes the filter has both ends among the ids. -/
theorem C158_groups_iff (h : sentLoad strptime languages srows = .ok a) {src : Str} {rows : Rows} {name : Str} {fn : Spec.FilterName}
    {r : LinkReader} (hn : asciiLower name = fn.text) (hl : LinkReader.new src rows (some a.ids) name = .ok r) :
    (∀ g ∈ r.data.groups, ∀ j ∈ g, Spec.Known a j) ↔ Spec.BothEnds a.ids fn rows.1 := by
  have key : (∀ g ∈ r.data.groups, ∀ j ∈ g, Spec.Known a j) ↔
      ∀ j, Spec.Occurs (Spec.links (some a.ids) fn rows.1) j → j ∈ a.ids := by
    constructor
    · intro hg j hj
      obtain ⟨g, h1, h2⟩ := (groups_occurs hn hl j).2 hj
      exact (known_iff h j).1 (hg g h1 j h2)
    · intro ho g hg j hj
      exact (known_iff h j).2 (ho j ((groups_occurs hn hl j).1 ⟨g, hg, hj⟩))
  rw [key]
  constructor
  · intro ho row hrow x y hp
    have mem : Spec.linkAccepted (some a.ids) fn (x, y) = true → (x, y) ∈ Spec.links (some a.ids) fn rows.1 := fun hacc =>
      List.mem_filter.2 ⟨List.mem_filterMap.2 ⟨row, hrow, hp⟩, hacc⟩
    cases fn with
    | sentId => exact fun hx => ho y ⟨_, mem (by simpa [Spec.linkAccepted] using hx), Or.inr rfl⟩
    | transId => exact fun hy => ho x ⟨_, mem (by simpa [Spec.linkAccepted] using hy), Or.inl rfl⟩
    | both => trivial
  · rintro hb j ⟨⟨x, y⟩, hp, hj⟩
    obtain ⟨hp, hacc⟩ := List.mem_filter.1 hp
    obtain ⟨row, hrow, hp⟩ := List.mem_filterMap.1 hp
    have hb := hb row hrow x y hp
    cases fn with
    | sentId =>
      have hx : x ∈ a.ids := by simpa [Spec.linkAccepted] using hacc
      rcases hj with rfl | rfl
      · exact hx
      · exact hb hx
    | transId =>
      have hy : y ∈ a.ids := by simpa [Spec.linkAccepted] using hacc
      rcases hj with rfl | rfl
      · exact hb hy
      · exact hy
    | both =>
      have hxy : x ∈ a.ids ∧ y ∈ a.ids := by simpa [Spec.linkAccepted] using hacc
      rcases hj with rfl | rfl
      · exact hxy.1
      · exact hxy.2

/-- **C158** (the default filter).  With `'both'`, the group of an id consists of ids that the reader of sentences knows; so a program that looks up
the sentences of a group never meets InvalidIDError. -/
theorem C158_group_both (h : sentLoad strptime languages srows = .ok a) {src : Str} {rows : Rows} {name : Str} {r : LinkReader}
    (hn : asciiLower name = u!"both") (hl : LinkReader.new src rows (some a.ids) name = .ok r) (i : Int) (g : List Int)
    (hg : r.data.groupOf i = .ok g) : Spec.Known a i ∧ ∀ j ∈ g, Spec.Known a j := by
  have hn' : asciiLower name = Spec.FilterName.both.text := hn
  have hi : Spec.Occurs (Spec.links (some a.ids) .both rows.1) i := by
    apply Classical.byContradiction
    intro hno
    rw [C57_invalid_id hn' hl i hno] at hg
    cases hg
  obtain ⟨g', hg', hig, _, hocc, _⟩ := C57_own_group hn' hl i hi
  rw [hg] at hg'
  cases hg'
  have hall : ∀ j ∈ g, Spec.Known a j := fun j hj => by
    obtain ⟨g2, h1, h2⟩ := (groups_occurs hn' hl j).2 (hocc j hj)
    exact (C158_groups_iff h hn' hl).2 (fun _ _ _ _ _ => trivial) g2 h1 j h2
  exact ⟨hall i hig, hall⟩

/-- **C158** (each filter).  A linked id has a group, and in the group an id that the reader of sentences knows, whichever the filter. -/
theorem C158_group_some (h : sentLoad strptime languages srows = .ok a) {src : Str} {rows : Rows} {name : Str} {fn : Spec.FilterName}
    {r : LinkReader} (hn : asciiLower name = fn.text) (hl : LinkReader.new src rows (some a.ids) name = .ok r) (i : Int) (g : List Int)
    (hg : r.data.groupOf i = .ok g) : ∃ j ∈ g, Spec.Known a j := by
  have hi : Spec.Occurs (Spec.links (some a.ids) fn rows.1) i := by
    apply Classical.byContradiction
    intro hno
    rw [C57_invalid_id hn hl i hno] at hg
    cases hg
  obtain ⟨g', hg', _, _, _, p, hp, _, h1, h2⟩ := C57_own_group hn hl i hi
  rw [hg] at hg'
  cases hg'
  have hacc := (List.mem_filter.1 hp).2
  cases fn with
  | sentId => exact ⟨p.1, h1, (known_iff h _).2 (by simpa [Spec.linkAccepted] using hacc)⟩
  | transId => exact ⟨p.2, h2, (known_iff h _).2 (by simpa [Spec.linkAccepted] using hacc)⟩
  | both =>
    have hxy : p.1 ∈ a.ids ∧ p.2 ∈ a.ids := by simpa [Spec.linkAccepted] using hacc
    exact ⟨p.1, h1, (known_iff h _).2 hxy.1⟩

/-- **C158** (two readers).  With the ids of two readers of sentences and `'both'`, each member of a group is known to one of the two. -/
theorem C158_two_readers {languages' : Option (List Str)} {srows' : Rows} {b : SentData D}
    (h : sentLoad strptime languages srows = .ok a) (h' : sentLoad strptime languages' srows' = .ok b) {src : Str} {rows : Rows} {name : Str}
    {r : LinkReader} (hn : asciiLower name = u!"both") (hl : LinkReader.new src rows (some (a.ids ++ b.ids)) name = .ok r) (g : List Int)
    (hg : g ∈ r.data.groups) (j : Int) (hj : j ∈ g) : Spec.Known a j ∨ Spec.Known b j := by
  have hn' : asciiLower name = Spec.FilterName.both.text := hn
  obtain ⟨⟨x, y⟩, hp, hj⟩ := (groups_occurs hn' hl j).1 ⟨g, hg, hj⟩
  have hacc := (List.mem_filter.1 hp).2
  have hxy : (x ∈ a.ids ∨ x ∈ b.ids) ∧ (y ∈ a.ids ∨ y ∈ b.ids) := by simpa [Spec.linkAccepted] using hacc
  rw [known_iff h, known_iff h']
  rcases hj with rfl | rfl
  · exact hxy.1
  · exact hxy.2

/-- **C158** (indices).  An index reader that was given the ids of a reader of sentences has exactly the ids that have a row in its file and are known
to the reader of sentences; the translation `link(i)` of an id is not restricted: all the translations are known exactly if the second numbers of
the last rows of these ids are. -/
theorem C158_indices (h : sentLoad strptime languages srows = .ok a) {edict : Option (Dict Str (List Str))} {rows : Rows} {d : IndexData}
    (hd : indexLoad edict (some a.ids) rows = .ok d) :
    (∀ i, (∃ ws, d.getItem i = .ok ws) ↔ Spec.Known a i ∧ ∃ row ∈ rows.1, Spec.rowId row = .ok i) ∧
    ((∀ i m, d.linkOf i = .ok m → Spec.Known a m) ↔
      ∀ i row, Spec.lastRow rows.1 i = some row → i ∈ a.ids → ∃ m, pyInt 10 (row.getD 1 []) = .ok m ∧ m ∈ a.ids) := by
  have last : ∀ i, Spec.lastRow (Spec.indexAccepted (some a.ids) rows.1) i = if i ∈ a.ids then Spec.lastRow rows.1 i else none := by
    intro i
    unfold Spec.lastRow Spec.indexAccepted
    rw [← List.filter_reverse, List.find?_filter]
    by_cases hi : i ∈ a.ids
    · rw [if_pos hi]
      congr 1
      funext r
      by_cases hr : Spec.rowId r = .ok i
      · simp [hr, hi]
      · simp [hr]
    · rw [if_neg hi, List.find?_eq_none]
      intro r _
      by_cases hr : Spec.rowId r = .ok i
      · simp [hr, hi]
      · simp [hr]
  obtain ⟨hmap, hlink⟩ := C106_indices hd
  have hid : ∀ i, Spec.IndexId (some a.ids) rows.1 i ↔ i ∈ a.ids ∧ ∃ row ∈ rows.1, Spec.rowId row = .ok i := by
    intro i
    constructor
    · rintro ⟨row, hrow, hri⟩
      obtain ⟨h1, h2⟩ := List.mem_filter.1 hrow
      simp only [hri, decide_eq_true_eq] at h2
      exact ⟨h2, row, h1, hri⟩
    · rintro ⟨hi, row, h1, hri⟩
      exact ⟨row, List.mem_filter.2 ⟨h1, by simpa [hri] using hi⟩, hri⟩
  refine ⟨fun i => ?_, ?_, ?_⟩
  · rw [known_iff h, ← hid]
    constructor
    · rintro ⟨ws, hws⟩
      apply Classical.byContradiction
      intro hno
      have := (hmap.getItem i).2 hno
      rw [show d.mapping.getItem i = d.getItem i from rfl, hws] at this
      cases this
    · exact (hmap.getItem i).1
  · intro hall i row hl hi
    have hl' := (C64_lookups edict (some a.ids) rows d hd i).1
    rw [last i, if_pos hi, hl] at hl'
    simp only at hl'
    have hrow := List.mem_of_find?_eq_some hl
    have hri : Spec.rowId row = .ok i := by simpa using List.find?_some hl
    obtain ⟨m, hm⟩ := (hlink i).1 ((hid i).2 ⟨hi, row, List.mem_reverse.1 hrow, hri⟩)
    exact ⟨m, by rw [← hl', hm], (known_iff h m).1 (hall i m hm)⟩
  · intro hall i m hm
    have hl' := (C64_lookups edict (some a.ids) rows d hd i).1
    rw [last i, hm] at hl'
    by_cases hi : i ∈ a.ids
    · rw [if_pos hi] at hl'
      cases hl : Spec.lastRow rows.1 i with
      | none => rw [hl] at hl'; cases hl'
      | some row =>
        rw [hl] at hl'
        simp only at hl'
        obtain ⟨m', h1, h2⟩ := hall i row hl hi
        rw [h1] at hl'
        cases hl'
        exact (known_iff h m).2 h2
    · rw [if_neg hi] at hl'
      cases hl'

end

/-! ### Cases that meet the hypotheses -/

/-- Three sentences, two of them in the wanted languages. -/
def togetherSents : Rows := ([[u!"1", u!"jpn", u!"行け。"], [u!"2", u!"eng", u!"Go."], [u!"3", u!"fra", u!"Va !"]], none)

/-- With `'both'` the link to the French sentence is dropped; with `'sent_id'` it is read, and `sentence(3)` raises InvalidIDError. -/
example : ∃ a : SentData Unit, sentLoad (fun _ => .ok ()) (some [u!"jpn", u!"eng"]) togetherSents = .ok a ∧ a.ids = [1, 2] ∧
    (∃ r, LinkReader.new u!"links.csv" ([[u!"1", u!"2"], [u!"1", u!"3"]], none) (some a.ids) u!"Both" = .ok r ∧
      r.data.groupOf 1 = .ok [2, 1]) ∧
    (∃ r, LinkReader.new u!"links.csv" ([[u!"1", u!"2"], [u!"1", u!"3"]], none) (some a.ids) u!"sent_id" = .ok r ∧
      r.data.groupOf 1 = .ok [2, 1, 3]) ∧ a.sentence 3 = .error .invalidIDError :=
  ⟨_, rfl, by decide +kernel, ⟨_, rfl, by decide +kernel⟩, ⟨_, rfl, by decide +kernel⟩, by decide +kernel⟩

/-- The condition of `C158_groups_iff` holds of one file and fails for another. -/
example : Spec.BothEnds [1, 2] .sentId [[u!"1", u!"2"], [u!"3", u!"1"]] ∧ ¬ Spec.BothEnds [1, 2] .transId [[u!"1", u!"2"], [u!"3", u!"1"]] := by
  have e1 : Spec.pairOf [u!"1", u!"2"] = some (1, 2) := by decide +kernel
  have e2 : Spec.pairOf [u!"3", u!"1"] = some (3, 1) := by decide +kernel
  constructor
  · intro r hr x y hp
    simp only [List.mem_cons, List.not_mem_nil, or_false] at hr
    rcases hr with rfl | rfl
    · rw [e1] at hp; cases hp; simp
    · rw [e2] at hp; cases hp; simp
  · intro h
    have := h [u!"3", u!"1"] (by simp) 3 1 e2
    simp at this

end Cjk
