import Verif.Spec.FileOrder
import Verif.Props.Kanjidic
import Verif.Props.Radkdict
import Verif.Props.TatoebaSentences
import Verif.Props.Tanaka
import Verif.Props.TatoebaErrors
import Verif.Props.Zhuyin
import Verif.Props.PinyinTones
import Verif.Props.DictLoad
/-!
# C122: the order of the records of a file
-/

namespace Cjk
open Py

/-! ### The last record of a key -/

theorem getLast?_of_all_eq {α : Type} {l l' : List α} (hp : l.Perm l') (h : ∀ x ∈ l, ∀ y ∈ l, x = y) : l'.getLast? = l.getLast? := by
  cases hl : l.getLast? with
  | none =>
    have : l = [] := List.getLast?_eq_none_iff.1 hl
    subst this
    rw [List.nil_perm.1 hp]; rfl
  | some a =>
    have ha := List.mem_of_getLast? hl
    cases hl' : l'.getLast? with
    | none =>
      have : l' = [] := List.getLast?_eq_none_iff.1 hl'
      subst this
      rw [List.perm_nil.1 hp] at ha; cases ha
    | some b =>
      have hb := hp.mem_iff.2 (List.mem_of_getLast? hl')
      rw [h a ha b hb]

/-- The last record of every key is the same in every order exactly if no key has two different records. -/
theorem last_any_order {α κ : Type} [DecidableEq α] [DecidableEq κ] (key : α → κ) (l : List α) :
    (∀ l', l.Perm l' → ∀ k, (l'.filter (fun x => key x = k)).getLast? = (l.filter (fun x => key x = k)).getLast?) ↔
      Spec.OneRecord key l := by
  constructor
  · intro h x hx y hy hk
    have last : ∀ z ∈ l, key z = key x → (l.filter (fun w => key w = key x)).getLast? = some z := by
      intro z hz hzx
      have hp : l.Perm (l.erase z ++ [z]) := (List.perm_cons_erase hz).trans (List.perm_append_comm (l₁ := [z]))
      rw [← h _ hp (key x), List.filter_append]
      simp [hzx]
    have h1 := last x hx rfl
    have h2 := last y hy hk.symm
    rw [h1] at h2
    exact Option.some.inj h2
  · intro h l' hp k
    apply getLast?_of_all_eq (hp.filter _)
    intro x hx y hy
    simp only [List.mem_filter, decide_eq_true_eq] at hx hy
    exact h x hx.1 y hy.1 (hx.2.trans hy.2.symm)

theorem find_reverse {α : Type} (p : α → Bool) (l : List α) : l.reverse.find? p = (l.filter p).getLast? := by
  rw [← List.head?_filter, List.filter_reverse, List.head?_reverse]

theorem lastRow_order {l l' : List (List Str)} (hp : l.Perm l') (h : Spec.OneRecord Spec.rowId l) (i : Int) :
    Spec.lastRow l' i = Spec.lastRow l i := by
  unfold Spec.lastRow
  rw [find_reverse, find_reverse]
  apply getLast?_of_all_eq (hp.filter _)
  intro x hx y hy
  simp only [List.mem_filter, decide_eq_true_eq] at hx hy
  exact h x hx.1 y hy.1 (hx.2.trans hy.2.symm)

theorem lastValue_order {β : Type} {l l' : List (Str × β)} (hp : l.Perm l') (h : Spec.OneRecord Prod.fst l) (k : Str) :
    Spec.lastValue k l' = Spec.lastValue k l := by
  unfold Spec.lastValue
  rw [find_reverse, find_reverse]
  congr 1
  apply getLast?_of_all_eq (hp.filter _)
  intro x hx y hy
  simp only [List.mem_filter, decide_eq_true_eq] at hx hy
  exact h x hx.1 y hy.1 (hx.2.trans hy.2.symm)

/-! ### Kanjidic -/

theorem map_ok_iff {α β : Type} {f : α → Except PyErr β} {l : List α} :
    (∃ es : List β, l.map f = es.map .ok) ↔ ∀ x ∈ l, ∃ e, f x = .ok e := by
  induction l with
  | nil => exact ⟨fun _ x hx => (by cases hx), fun _ => ⟨[], rfl⟩⟩
  | cons a l ih =>
    constructor
    · rintro ⟨es, he⟩ x hx
      cases es with
      | nil => cases he
      | cons e es =>
        simp only [List.map_cons, List.cons.injEq] at he
        rcases List.mem_cons.1 hx with rfl | hx
        · exact ⟨e, he.1⟩
        · exact ih.1 ⟨es, he.2⟩ x hx
    · intro h
      obtain ⟨e, he⟩ := h a (List.mem_cons_self ..)
      obtain ⟨es, hes⟩ := ih.2 (fun x hx => h x (List.mem_cons_of_mem _ hx))
      exact ⟨e :: es, by rw [List.map_cons, he, hes]; rfl⟩

theorem kanjidic_ok_iff (files : List (List Str)) :
    (∃ d, kanjidic files = .ok d) ↔ files ≠ [] ∧ ∀ l ∈ Spec.kanjidicLines files, ∃ e, kanjidicLine l = .ok e := by
  constructor
  · rintro ⟨d, h⟩
    obtain ⟨es, he, _⟩ := C77_last_wins files d h
    refine ⟨?_, map_ok_iff.1 ⟨es, he⟩⟩
    rintro rfl
    have := (C77_raises [] .typeError).2 (Or.inl ⟨rfl, rfl⟩)
    rw [h] at this; cases this
  · rintro ⟨hne, h⟩
    cases hk : kanjidic files with
    | ok d => exact ⟨d, rfl⟩
    | error e =>
      rcases (C77_raises files e).1 hk with ⟨h1, _⟩ | ⟨pre, l, post, h1, h2, _⟩
      · exact absurd h1 hne
      · obtain ⟨x, hx⟩ := h l (by rw [h1]; simp)
        rw [h2] at hx; cases hx

/-- The entries of the lines in another order. -/
theorem entries_perm {α β : Type} {f : α → Except PyErr β} {l l' : List α} {es es' : List β} (hp : l.Perm l')
    (h : l.map f = es.map .ok) (h' : l'.map f = es'.map .ok) : es.Perm es' := by
  have h1 : (es.map (Except.ok : β → Except PyErr β)).Perm (es'.map .ok) := by rw [← h, ← h']; exact hp.map f
  have key : ∀ x : List β, (x.map (Except.ok : β → Except PyErr β)).filterMap Except.toOption = x := by
    intro x
    induction x with
    | nil => rfl
    | cons a x ih => simp only [List.map_cons, List.filterMap_cons, Except.toOption, ih]
  have h2 := h1.filterMap Except.toOption
  rwa [key, key] at h2

/-- C122: a kanjidic, in one file or several, says the same in every order of its lines and however they are divided over files,
exactly if no kanji has two lines with different contents. -/
theorem C122_kanjidic (files : List (List Str)) (d : Dict Str KEntry) (h : kanjidic files = .ok d) :
    (∀ files', files' ≠ [] → (Spec.kanjidicLines files).Perm (Spec.kanjidicLines files') →
      ∃ d', kanjidic files' = .ok d' ∧ ∀ k, Dict.get? d' k = Dict.get? d k) ↔
    ∀ l ∈ Spec.kanjidicLines files, ∀ l' ∈ Spec.kanjidicLines files, ∀ e e', kanjidicLine l = .ok e → kanjidicLine l' = .ok e' →
      e.kanji = e'.kanji → e = e' := by
  obtain ⟨es, he, hg⟩ := C77_last_wins files d h
  have hmem : ∀ e, e ∈ es ↔ ∃ l ∈ Spec.kanjidicLines files, kanjidicLine l = .ok e := by
    intro e
    have : e ∈ es ↔ Except.ok e ∈ es.map (Except.ok : KEntry → Except PyErr KEntry) := by simp
    rw [this, ← he, List.mem_map]
  have hone : (∀ l ∈ Spec.kanjidicLines files, ∀ l' ∈ Spec.kanjidicLines files, ∀ e e', kanjidicLine l = .ok e →
      kanjidicLine l' = .ok e' → e.kanji = e'.kanji → e = e') ↔ Spec.OneRecord KEntry.kanji es := by
    constructor
    · intro hu x hx y hy
      obtain ⟨l, hl, hlx⟩ := (hmem x).1 hx
      obtain ⟨l', hl', hly⟩ := (hmem y).1 hy
      exact hu l hl l' hl' x y hlx hly
    · intro hu l hl l' hl' e e' h1 h2
      exact hu e ((hmem e).2 ⟨l, hl, h1⟩) e' ((hmem e').2 ⟨l', hl', h2⟩)
  rw [hone]
  constructor
  · intro hall x hx y hy hk
    obtain ⟨l, hl, hlx⟩ := (hmem x).1 hx
    obtain ⟨l', hl', hly⟩ := (hmem y).1 hy
    have last : ∀ z, z.kanji = x.kanji → (∃ l ∈ Spec.kanjidicLines files, kanjidicLine l = .ok z) → Dict.get? d x.kanji = some z := by
      rintro z hz ⟨m, hm, hmz⟩
      have hp : (Spec.kanjidicLines files).Perm ((Spec.kanjidicLines files).erase m ++ [m]) :=
        (List.perm_cons_erase hm).trans (List.perm_append_comm (l₁ := [m]))
      have hnc : Spec.kanjidicLines [(Spec.kanjidicLines files).erase m ++ [m]] = (Spec.kanjidicLines files).erase m ++ [m] := by
        unfold Spec.kanjidicLines
        rw [List.flatten_singleton, List.filter_eq_self]
        intro a ha
        have := hp.mem_iff.2 ha
        exact (List.mem_filter.1 this).2
      obtain ⟨d', hd', hsame⟩ := hall [(Spec.kanjidicLines files).erase m ++ [m]] (by simp) (by rw [hnc]; exact hp)
      obtain ⟨es', he', hg'⟩ := C77_last_wins _ d' hd'
      rw [hnc] at he'
      have hsplit : ∃ es0, es' = es0 ++ [z] := by
        rw [List.map_append] at he'
        obtain ⟨a, b, hab, ha, hb⟩ := List.map_eq_append_iff.1 he'.symm
        simp only [List.map_cons, List.map_nil, hmz] at hb
        cases b with
        | nil => cases hb
        | cons z' b =>
          simp only [List.map_cons, List.cons.injEq, Except.ok.injEq, List.map_eq_nil_iff] at hb
          exact ⟨a, by rw [hab, hb.1, hb.2]⟩
      obtain ⟨es0, rfl⟩ := hsplit
      rw [← hsame, hg', List.filter_append]
      simp [hz]
    have h1 := last x rfl ((hmem x).1 hx)
    have h2 := last y hk.symm ((hmem y).1 hy)
    rw [h1] at h2
    exact Option.some.inj h2
  · intro hu files' hne hp
    have hok : ∃ d', kanjidic files' = .ok d' := (kanjidic_ok_iff files').2 ⟨hne, fun l hl =>
      map_ok_iff.1 ⟨es, he⟩ l (hp.mem_iff.2 hl)⟩
    obtain ⟨d', hd'⟩ := hok
    obtain ⟨es', he', hg'⟩ := C77_last_wins files' d' hd'
    refine ⟨d', hd', fun k => ?_⟩
    rw [hg', hg]
    apply getLast?_of_all_eq ((entries_perm hp he he').filter _)
    intro x hx y hy
    simp only [List.mem_filter, decide_eq_true_eq] at hx hy
    exact hu x hx.1 y hy.1 (hx.2.trans hy.2.symm)

/-! ### Tables of Chinese readings -/

theorem tableRows_perm {ls ls' : List Str} (hp : ls.Perm ls') : (Spec.tableRows ls).Perm (Spec.tableRows ls') := (hp.filter _).map _

/-- C122: the tables of zhuyin and pinyin do not depend on the order of the lines if every zhuyin has one pinyin and every pinyin
one zhuyin. -/
theorem C122_zhuyin (ls ls' : List Str) (hp : ls.Perm ls') (h1 : Spec.OneRecord Prod.fst (Spec.tablePairs ls))
    (h2 : Spec.OneRecord Prod.snd (Spec.tablePairs ls)) :
    (zhuyinToPinyinTable ls = .error .valueError ∧ zhuyinToPinyinTable ls' = .error .valueError ∧
      pinyinToZhuyinTable ls = .error .valueError ∧ pinyinToZhuyinTable ls' = .error .valueError) ∨
    ∃ zp zp' pz pz', zhuyinToPinyinTable ls = .ok zp ∧ zhuyinToPinyinTable ls' = .ok zp' ∧
      pinyinToZhuyinTable ls = .ok pz ∧ pinyinToZhuyinTable ls' = .ok pz' ∧
      (∀ z, Dict.get? zp' z = Dict.get? zp z) ∧ ∀ p, Dict.get? pz' p = Dict.get? pz p := by
  have hr : Spec.RowsOk ls ↔ Spec.RowsOk ls' := by
    unfold Spec.RowsOk
    exact ⟨fun h r hr => h r ((tableRows_perm hp).mem_iff.2 hr), fun h r hr => h r ((tableRows_perm hp).mem_iff.1 hr)⟩
  have hpp : (Spec.tablePairs ls).Perm (Spec.tablePairs ls') := (tableRows_perm hp).map _
  by_cases hk : Spec.RowsOk ls
  · right
    obtain ⟨zp, pz, a1, a2, a3, a4⟩ := (C70_tables ls).1 hk
    obtain ⟨zp', pz', b1, b2, b3, b4⟩ := (C70_tables ls').1 (hr.1 hk)
    refine ⟨zp, zp', pz, pz', a1, b1, a2, b2, fun z => ?_, fun p => ?_⟩
    · rw [a3, b3, lastValue_order hpp h1]
    · rw [a4, b4, lastValue_order (hpp.map _)]
      intro x hx y hy hxy
      obtain ⟨x0, hx0, rfl⟩ := List.mem_map.1 hx
      obtain ⟨y0, hy0, rfl⟩ := List.mem_map.1 hy
      rw [h2 x0 hx0 y0 hy0 hxy]
  · left
    exact ⟨((C70_tables ls).2 hk).1, ((C70_tables ls').2 (fun h => hk (hr.2 h))).1, ((C70_tables ls).2 hk).2,
      ((C70_tables ls').2 (fun h => hk (hr.2 h))).2⟩

/-- C122: likewise the table of hanzi. -/
theorem C122_hanzi (ls ls' : List Str) (hp : ls.Perm ls') (h1 : Spec.OneRecord Prod.fst (Spec.hanziRows ls)) :
    (newPinyinTable ls = .error .indexError ∧ newPinyinTable ls' = .error .indexError) ∨
    ∃ t t', newPinyinTable ls = .ok t ∧ newPinyinTable ls' = .ok t' ∧ ∀ k, Dict.get? t' k = Dict.get? t k := by
  have hpr := tableRows_perm hp
  by_cases hk : ∃ r ∈ Spec.tableRows ls, r = []
  · left
    obtain ⟨r, hr, hr0⟩ := hk
    exact ⟨(C79_table ls).2 ⟨r, hr, hr0⟩, (C79_table ls').2 ⟨r, hpr.mem_iff.1 hr, hr0⟩⟩
  · right
    have hk1 : ∀ r ∈ Spec.tableRows ls, r ≠ [] := fun r hr h0 => hk ⟨r, hr, h0⟩
    obtain ⟨t, a1, a2⟩ := (C79_table ls).1 hk1
    obtain ⟨t', b1, b2⟩ := (C79_table ls').1 (fun r hr => hk1 r (hpr.mem_iff.2 hr))
    refine ⟨t, t', a1, b1, fun k => ?_⟩
    rw [a2, b2]
    refine lastValue_order ?_ h1 k
    unfold Spec.hanziRows
    exact hpr.map _

/-! ### Bilingual dictionaries -/

/-- C122: a bilingual dictionary has the same words in every order of its lines, and each word has the same senses under each
reading; only their order depends on that of the lines. -/
theorem C122_dictionary (name h : Str) (hh : Spec.isHeader name h) (ls ls' : List Str) (hp : ls.Perm ls') (es : List Entry)
    (hes : ls.map (Spec.lineReader name) = es.map .ok) :
    ∃ d d', loadDictionary (h :: ls) = .ok d ∧ loadDictionary (h :: ls') = .ok d' ∧
      ∀ w, match Dict.get? d w, Dict.get? d' w with
        | none, none => True
        | some e, some e' => e.senses.Perm e'.senses ∧ ∃ s s', e.sensesByReading = .ok s ∧ e'.sensesByReading = .ok s' ∧
            ∀ r, ((Dict.get? s r).getD []).Perm ((Dict.get? s' r).getD [])
        | _, _ => False := by
  obtain ⟨es', hes'⟩ := map_ok_iff.2 (fun x hx => map_ok_iff.1 ⟨es, hes⟩ x (hp.mem_iff.2 hx))
  have hpe := entries_perm hp hes hes'
  obtain ⟨d, a1, _, a2⟩ := C93_lookup name h hh ls es hes
  obtain ⟨d', b1, _, b2⟩ := C93_lookup name h hh ls' es' hes'
  refine ⟨d, d', a1, b1, fun w => ?_⟩
  have ha := a2 w
  have hb := b2 w
  have hda : Dict.get? d w = none ↔ ∀ e ∈ es, e.word ≠ w := by
    constructor
    · intro hn; rw [hn] at ha; exact ha
    · intro hn
      have hk : Dict.keys d = dedup (es.map Entry.word) := by
        obtain ⟨d1, c1, c2, _⟩ := C93_lookup name h hh ls es hes
        rw [a1] at c1; cases c1; exact c2
      rw [Dict.get?_eq_none_iff, hk, mem_dedup, List.mem_map]
      rintro ⟨e, he, hw⟩; exact hn e he hw
  have hdb : Dict.get? d' w = none ↔ ∀ e ∈ es', e.word ≠ w := by
    constructor
    · intro hn; rw [hn] at hb; exact hb
    · intro hn
      have hk : Dict.keys d' = dedup (es'.map Entry.word) := by
        obtain ⟨d1, c1, c2, _⟩ := C93_lookup name h hh ls' es' hes'
        rw [b1] at c1; cases c1; exact c2
      rw [Dict.get?_eq_none_iff, hk, mem_dedup, List.mem_map]
      rintro ⟨e, he, hw⟩; exact hn e he hw
  have hab : Dict.get? d w = none ↔ Dict.get? d' w = none := by
    rw [hda, hdb]
    exact ⟨fun hn e he => hn e (hpe.mem_iff.2 he), fun hn e he => hn e (hpe.mem_iff.1 he)⟩
  cases hd : Dict.get? d w with
  | none => rw [hab.1 hd]; trivial
  | some e =>
    cases hd' : Dict.get? d' w with
    | none => rw [hab.2 hd'] at hd; cases hd
    | some e' =>
      rw [hd] at ha
      rw [hd'] at hb
      obtain ⟨_, a3, s, a4, a5⟩ := ha
      obtain ⟨_, b3, s', b4, b5⟩ := hb
      refine ⟨?_, s, s', a4, b4, fun r => ?_⟩
      · rw [a3, b3]; exact (hpe.filter _).flatMap_right _
      · rw [a5, b5]; exact (hpe.filter _).flatMap_right _

/-! ### Tatoeba exports -/

/-- C122: the sentence reader answers the same in every order of the rows if all rows have the same number of columns and no id
has two different rows. -/
theorem C122_sentences {D : Type} (strptime : Str → Except PyErr D) (languages : Option (List Str)) (rows rows' : List (List Str))
    (hp : rows.Perm rows') (n : Nat) (hn : ∀ r ∈ rows, r.length = n) (h1 : Spec.OneRecord Spec.rowId (Spec.accepted languages rows))
    (a : SentData D) (h : sentLoad strptime languages (rows, none) = .ok a) :
    ∃ a', sentLoad strptime languages (rows', none) = .ok a' ∧
      ∀ i, a'.sentence i = a.sentence i ∧ a'.details i = a.details i ∧ a'.language i = a.language i := by
  obtain ⟨_, first, rest, hf, hlen, hok⟩ := (C54_load_iff (strptime := strptime) (languages := languages) (rows, none)).1 ⟨a, h⟩
  simp only at hf hok
  have hfn : first.length = n := hn first (by rw [hf]; simp)
  have hex : ∃ a', sentLoad strptime languages (rows', none) = .ok a' := by
    refine (C54_load_iff (rows', none)).2 ⟨rfl, ?_⟩
    cases hr : rows' with
    | nil => rw [hr] at hp; rw [List.perm_nil.1 hp] at hf; cases hf
    | cons f' rest' =>
      have hfn' : f'.length = n := hn f' (hp.mem_iff.2 (by rw [hr]; simp))
      refine ⟨f', rest', rfl, by rw [hfn', ← hfn]; exact hlen, fun r hr' => ?_⟩
      rw [hfn', ← hfn]
      exact hok r (hp.mem_iff.2 (by rw [hr]; exact hr'))
  obtain ⟨a', ha'⟩ := hex
  have hpa : (Spec.accepted languages rows).Perm (Spec.accepted languages rows') := hp.filter _
  have h1' : Spec.OneRecord Spec.rowId (Spec.accepted languages rows') := fun x hx y hy =>
    h1 x (hpa.mem_iff.2 hx) y (hpa.mem_iff.2 hy)
  refine ⟨a', ha', fun i => ⟨?_, ?_, ?_⟩⟩
  · rw [C54_sentence ha', C54_sentence h]
    simp only [lastRow_order hpa h1]
  · rw [C54_details ha', C54_details h]
    simp only [lastRow_order hpa h1]
    have hd : (rows'.headD []).length = (rows.headD []).length := by
      rw [hf, List.headD_cons]
      cases hr : rows' with
      | nil => rw [hr] at hp; rw [List.perm_nil.1 hp] at hf; cases hf
      | cons f' rest' => rw [List.headD_cons, hfn]; exact hn f' (hp.mem_iff.2 (by rw [hr]; simp))
    rw [hd]
  · rw [C55_language_partial ha' i (fun r hr r' hr' e e' => by rw [h1' r hr r' hr' (e.trans e'.symm)]),
      C55_language_partial h i (fun r hr r' hr' e e' => by rw [h1 r hr r' hr' (e.trans e'.symm)])]
    simp only [lastRow_order hpa h1]

theorem indexRow_ok {edict : Option (Dict Str (List Str))} {subset : Option (List Int)} (d d' : IndexData) (r : List Str) :
    (∃ x, indexRow edict subset d r = .ok x) → ∃ x, indexRow edict subset d' r = .ok x := by
  rintro ⟨x, h⟩
  match r with
  | [] => cases h
  | [_] => cases h
  | [_, _] => cases h
  | _ :: _ :: _ :: _ :: _ => cases h
  | [a, b, text] =>
    unfold indexRow at h ⊢
    simp only at h ⊢
    cases ha : pyInt 10 a with
    | error e => rw [ha] at h; cases h
    | ok i =>
      rw [ha] at h
      cases hb : pyInt 10 b with
      | error e => rw [hb] at h; cases h
      | ok m =>
        rw [hb] at h
        have henter : (∃ x, indexEnter edict d i m text = .ok x) → ∃ x, indexEnter edict d' i m text = .ok x := by
          rintro ⟨y, hy⟩
          unfold indexEnter at hy ⊢
          cases hs : parseSentence text with
          | error e => rw [hs] at hy; cases hy
          | ok ws =>
            rw [hs] at hy
            simp only at hy ⊢
            cases hw : adjustDetails edict ws with
            | error e => rw [hw] at hy; cases hy
            | ok ws' => exact ⟨_, rfl⟩
        cases subset with
        | none => exact henter ⟨x, h⟩
        | some ids =>
          simp only at h ⊢
          by_cases hi : i ∈ ids
          · rw [if_pos hi] at h ⊢; exact henter ⟨x, h⟩
          · rw [if_neg hi]; exact ⟨_, rfl⟩

theorem indexRows_ok_iff {edict : Option (Dict Str (List Str))} {subset : Option (List Int)} (rows : List (List Str)) (d : IndexData) :
    (∃ x, indexRows edict subset d rows = .ok x) ↔ ∀ r ∈ rows, ∃ x, indexRow edict subset ⟨[], []⟩ r = .ok x := by
  induction rows generalizing d with
  | nil => exact ⟨fun _ r hr => (by cases hr), fun _ => ⟨d, rfl⟩⟩
  | cons r rows ih =>
    constructor
    · rintro ⟨x, h⟩ r' hr'
      simp only [indexRows] at h
      cases hr : indexRow edict subset d r with
      | error e => rw [hr] at h; cases h
      | ok d1 =>
        rw [hr] at h
        rcases List.mem_cons.1 hr' with rfl | hr'
        · exact indexRow_ok d _ _ ⟨d1, hr⟩
        · exact (ih d1).1 ⟨x, h⟩ r' hr'
    · intro h
      obtain ⟨d1, h1⟩ := indexRow_ok _ d r (h r (List.mem_cons_self ..))
      obtain ⟨x, hx⟩ := (ih d1).2 (fun r' hr' => h r' (List.mem_cons_of_mem _ hr'))
      exact ⟨x, by simp only [indexRows, h1, hx]⟩

theorem indexLoad_ok_iff {edict : Option (Dict Str (List Str))} {subset : Option (List Int)} (rows : List (List Str)) :
    (∃ x, indexLoad edict subset (rows, none) = .ok x) ↔ ∀ r ∈ rows, ∃ x, indexRow edict subset ⟨[], []⟩ r = .ok x := by
  rw [← indexRows_ok_iff rows ⟨[], []⟩]
  unfold indexLoad
  cases h : indexRows edict subset ⟨[], []⟩ rows with
  | error e => simp
  | ok d => simp

/-- C122: likewise the reader of Japanese indices. -/
theorem C122_indices (edict : Option (Dict Str (List Str))) (subset : Option (List Int)) (rows rows' : List (List Str))
    (hp : rows.Perm rows') (h1 : Spec.OneRecord Spec.rowId (Spec.indexAccepted subset rows)) (d : IndexData)
    (h : indexLoad edict subset (rows, none) = .ok d) :
    ∃ d', indexLoad edict subset (rows', none) = .ok d' ∧ ∀ i, d'.linkOf i = d.linkOf i ∧ d'.getItem i = d.getItem i := by
  obtain ⟨d', hd'⟩ := (indexLoad_ok_iff rows').2 (fun r hr => (indexLoad_ok_iff rows).1 ⟨d, h⟩ r (hp.mem_iff.2 hr))
  have hpa : (Spec.indexAccepted subset rows).Perm (Spec.indexAccepted subset rows') := hp.filter _
  refine ⟨d', hd', fun i => ⟨?_, ?_⟩⟩
  · rw [(C64_lookups edict subset _ d' hd' i).1, (C64_lookups edict subset _ d h i).1]
    simp only [lastRow_order hpa h1]
  · rw [(C64_lookups edict subset _ d' hd' i).2.1, (C64_lookups edict subset _ d h i).2.1]
    simp only [lastRow_order hpa h1]

/-! ### RadkDict -/

theorem radicalAfter_append (before : List Str) (l : Str) :
    Spec.radicalAfter (before ++ [l]) = if Spec.radkHeader l then (splitWs l)[1]? else Spec.radicalAfter before := by
  unfold Spec.radicalAfter
  by_cases h : Spec.radkHeader l <;> simp [List.filter_append, h]

theorem radkBody_congr {b b' : List Str} (h : Spec.radicalAfter b = Spec.radicalAfter b') (ls : List Str) :
    Spec.radkBody b ls = Spec.radkBody b' ls := by
  induction ls generalizing b b' with
  | nil => rfl
  | cons l ls ih =>
    have h2 : Spec.radicalAfter (b ++ [l]) = Spec.radicalAfter (b' ++ [l]) := by rw [radicalAfter_append, radicalAfter_append, h]
    simp only [Spec.radkBody, ih h2, h]

theorem radkBody_append (b ls ms : List Str) : Spec.radkBody b (ls ++ ms) = Spec.radkBody b ls ++ Spec.radkBody (b ++ ls) ms := by
  induction ls generalizing b with
  | nil => simp [Spec.radkBody]
  | cons l ls ih =>
    simp only [List.cons_append, Spec.radkBody, ih, List.append_assoc, List.cons_append, List.nil_append]
    split <;> simp

/-- A part of the file that begins with a header line says the same wherever it stands. -/
theorem radkBody_block (b : List Str) (l : Str) (ls : List Str) (h : Spec.radkHeader l) :
    Spec.radkBody b (l :: ls) = Spec.radkBody [] (l :: ls) := by
  simp only [Spec.radkBody, if_pos (Or.inr h)]
  apply radkBody_congr
  rw [radicalAfter_append, radicalAfter_append, if_pos h, if_pos h]

theorem radkBody_blocks (blocks : List (List Str)) (hb : ∀ x ∈ blocks, ∃ l ls, x = l :: ls ∧ Spec.radkHeader l) (b : List Str) :
    Spec.radkBody b blocks.flatten = blocks.flatMap (Spec.radkBody []) := by
  induction blocks generalizing b with
  | nil => rfl
  | cons x blocks ih =>
    obtain ⟨l, ls, rfl, hl⟩ := hb x (List.mem_cons_self ..)
    rw [List.flatten_cons, radkBody_append, radkBody_block b l ls hl, ih (fun y hy => hb y (List.mem_cons_of_mem _ hy)), List.flatMap_cons]

theorem radkDict_no_bad {ls : List Str} {d : RadkDict} (h : radkDict ls = .ok d) (l : Str) (hl : l ∈ ls) (e : PyErr) :
    ¬ Spec.radkBad l e := by
  intro hb
  have key : ∀ ms : List Str, l ∈ ms → ∃ pre l' post e', ms = pre ++ l' :: post ∧ Spec.radkBad l' e' ∧
      ∀ x ∈ pre, ∀ e', ¬ Spec.radkBad x e' := by
    intro ms
    induction ms with
    | nil => intro hm; cases hm
    | cons m ms ih =>
      intro hm
      by_cases hbad : ∃ e', Spec.radkBad m e'
      · obtain ⟨e', he'⟩ := hbad
        exact ⟨[], m, ms, e', rfl, he', fun x hx => (by cases hx)⟩
      · rcases List.mem_cons.1 hm with rfl | hm
        · exact absurd ⟨e, hb⟩ hbad
        · obtain ⟨pre, l', post, e', h1, h2, h3⟩ := ih hm
          refine ⟨m :: pre, l', post, e', by rw [h1]; rfl, h2, fun x hx e' hx' => ?_⟩
          rcases List.mem_cons.1 hx with rfl | hx
          · exact hbad ⟨e', hx'⟩
          · exact h3 x hx e' hx'
  obtain ⟨pre, l', post, e', h1, h2, h3⟩ := key ls hl
  rw [(C40_raises ls e').2 ⟨pre, l', post, h1, h2, h3⟩] at h
  cases h

/-- C122: the blocks of a radical file (a `$` line with the lines behind it) can come in any order: every kanji has the same radicals
the same number of times, and every radical the same kanji; the stroke counts are the same if no radical has two different `$`
lines. -/
theorem C122_radicals (blocks blocks' : List (List Str)) (hp : blocks.Perm blocks')
    (hb : ∀ x ∈ blocks, ∃ l ls, x = l :: ls ∧ Spec.radkHeader l) (d : RadkDict) (h : radkDict blocks.flatten = .ok d) :
    ∃ d', radkDict blocks'.flatten = .ok d' ∧
      (∀ k, ((Dict.get? d'.dict k).getD []).Perm ((Dict.get? d.dict k).getD [])) ∧
      (∀ k, (Dict.get? d'.dict k).isSome = (Dict.get? d.dict k).isSome) ∧
      (∀ r, ((Dict.get? d'.radicalToKanji r).getD []).Perm ((Dict.get? d.radicalToKanji r).getD [])) ∧
      (Spec.OneRecord (fun l => (splitWs l)[1]?) (blocks.flatten.filter (fun l => Spec.radkHeader l)) →
        ∀ r, Dict.get? d'.radicalToStrokeCount r = Dict.get? d.radicalToStrokeCount r) := by
  have hpf : blocks.flatten.Perm blocks'.flatten := hp.flatten
  have hb' : ∀ x ∈ blocks', ∃ l ls, x = l :: ls ∧ Spec.radkHeader l := fun x hx => hb x (hp.mem_iff.2 hx)
  have hbody : (Spec.radkBody [] blocks.flatten).Perm (Spec.radkBody [] blocks'.flatten) := by
    rw [radkBody_blocks blocks hb, radkBody_blocks blocks' hb']
    exact hp.flatMap_right _
  have hok : ∃ d', radkDict blocks'.flatten = .ok d' := by
    cases hr : radkDict blocks'.flatten with
    | ok d' => exact ⟨d', rfl⟩
    | error e =>
      obtain ⟨pre, l, post, h1, h2, _⟩ := (C40_raises _ e).1 hr
      exfalso
      have hl : l ∈ blocks.flatten := hpf.mem_iff.2 (by rw [h1]; simp)
      exact (radkDict_no_bad h l hl e) h2
  obtain ⟨d', hd'⟩ := hok
  refine ⟨d', hd', fun k => ?_, fun k => ?_, fun r => ?_, fun h1 r => ?_⟩
  · rw [List.perm_iff_count]
    intro r
    rw [C39_counts _ _ hd', C39_counts _ _ h]
    unfold Spec.radkCount
    exact ((hbody.symm.filter _).map _).sum_nat
  · rw [C39_radicals _ _ hd', C39_radicals _ _ h]
    have : (∃ p ∈ Spec.radkBody [] blocks'.flatten, k ∈ p.2) ↔ ∃ p ∈ Spec.radkBody [] blocks.flatten, k ∈ p.2 :=
      ⟨fun ⟨p, hp1, hp2⟩ => ⟨p, hbody.mem_iff.2 hp1, hp2⟩, fun ⟨p, hp1, hp2⟩ => ⟨p, hbody.mem_iff.1 hp1, hp2⟩⟩
    by_cases hx : ∃ p ∈ Spec.radkBody [] blocks.flatten, k ∈ p.2
    · rw [if_pos hx, if_pos (this.2 hx)]; rfl
    · rw [if_neg hx, if_neg (fun h => hx (this.1 h))]
  · rw [C39_kanji _ _ hd', C39_kanji _ _ h]
    have hm : r ∈ (Spec.radkBody [] blocks'.flatten).map Prod.fst ↔ r ∈ (Spec.radkBody [] blocks.flatten).map Prod.fst :=
      (hbody.map _).mem_iff.symm
    by_cases hx : r ∈ (Spec.radkBody [] blocks.flatten).map Prod.fst
    · rw [if_pos hx, if_pos (hm.2 hx)]
      exact (hbody.symm.filter _).flatMap_right _
    · rw [if_neg hx, if_neg (fun h => hx (hm.1 h))]
  · rw [C39_strokes _ _ hd', C39_strokes _ _ h]
    unfold Spec.radkStrokes
    rw [getLast?_of_all_eq (hpf.filter _)]
    intro x hx y hy
    simp only [List.mem_filter, decide_eq_true_eq] at hx hy
    exact h1 x (List.mem_filter.2 ⟨hx.1, by simpa using hx.2.1⟩) y (List.mem_filter.2 ⟨hy.1, by simpa using hy.2.1⟩) (hx.2.2.trans hy.2.2.symm)

/-! ### Cases that meet the hypotheses -/

theorem oneRecord_of_decide {α κ : Type} [DecidableEq α] [DecidableEq κ] (key : α → κ) (l : List α)
    (h : l.all (fun x => l.all (fun y => !decide (key x = key y) || decide (x = y))) = true) : Spec.OneRecord key l := by
  intro x hx y hy hk
  have := List.all_eq_true.1 (List.all_eq_true.1 h x hx) y hy
  simpa [hk] using this

/-- Two kanji in two files, one of them twice with the same line. -/
example : (match kanjidic [[u!"# KANJIDIC", u!"亜 3021 U4e9c S7 P4-7-1 ア つ.ぐ {Asia}"],
      [u!"唖 3022 U5516 S10 P1-3-7 ア おし {mute}", u!"亜 3021 U4e9c S7 P4-7-1 ア つ.ぐ {Asia}"]] with
    | .ok d => decide (Dict.keys d = [u!"亜", u!"唖"]) | .error _ => false) = true := by decide +kernel

example : Spec.OneRecord Prod.fst (Spec.tablePairs [u!"# zhuyin", u!"ㄅㄚ ba", u!"ㄆㄚ pa"]) ∧
    Spec.OneRecord Prod.snd (Spec.tablePairs [u!"# zhuyin", u!"ㄅㄚ ba", u!"ㄆㄚ pa"]) :=
  ⟨oneRecord_of_decide _ _ (by decide +kernel), oneRecord_of_decide _ _ (by decide +kernel)⟩

example : Spec.OneRecord Spec.rowId (Spec.accepted none [[u!"1", u!"eng", u!"Go."], [u!"2", u!"jpn", u!"行け。"], [u!"1", u!"eng", u!"Go."]]) ∧
    ∃ a, sentLoad (D := Unit) (fun _ => .error .valueError) none
      ([[u!"1", u!"eng", u!"Go."], [u!"2", u!"jpn", u!"行け。"], [u!"1", u!"eng", u!"Go."]], none) = .ok a :=
  ⟨oneRecord_of_decide _ _ (by decide +kernel), _, by rfl⟩

example : Spec.OneRecord Spec.rowId (Spec.indexAccepted none [[u!"2", u!"1", u!"行く{行け}"], [u!"4", u!"3", u!"は"]]) ∧
    ∃ d, indexLoad none none ([[u!"2", u!"1", u!"行く{行け}"], [u!"4", u!"3", u!"は"]], none) = .ok d :=
  ⟨oneRecord_of_decide _ _ (by decide +kernel), _, by rfl⟩

example : (∀ x ∈ [[u!"$ 一 1", u!"亜唖"], [u!"$ ｜ 1", u!"亜", u!"中"]], ∃ l ls, x = l :: ls ∧ Spec.radkHeader l) ∧
    (∃ d, radkDict [[u!"$ 一 1", u!"亜唖"], [u!"$ ｜ 1", u!"亜", u!"中"]].flatten = .ok d) := by
  refine ⟨fun x hx => ?_, _, by rfl⟩
  simp only [List.mem_cons, List.not_mem_nil, or_false] at hx
  rcases hx with rfl | rfl
  · exact ⟨_, _, rfl, by decide +kernel⟩
  · exact ⟨_, _, rfl, by decide +kernel⟩

example : Spec.OneRecord (fun l => (splitWs l)[1]?)
    ([[u!"$ 一 1", u!"亜唖"], [u!"$ ｜ 1", u!"亜", u!"中"]].flatten.filter (fun l => Spec.radkHeader l)) :=
  oneRecord_of_decide _ _ (by decide +kernel)

end Cjk
