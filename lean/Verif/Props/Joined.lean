import Verif.Props.FileOrder
import Verif.Props.BilingualUpdate
/-!
# C157: data files that are joined

A data file that is cut in two, or two files that are joined, against loading the pieces.
-/

namespace Cjk
open Py

/-! ### Python's `dict.update` -/

section
variable {K V : Type} [DecidableEq K]

theorem set_set_same (d : Dict K V) (k : K) (v v' : V) : Dict.set (Dict.set d k v) k v' = Dict.set d k v' := by
  induction d with
  | nil => simp [Dict.set]
  | cons a d ih =>
    obtain ⟨k', w⟩ := a
    by_cases h : k' = k
    · simp [Dict.set, h]
    · simp [Dict.set, h, ih]

theorem set_comm_old (d : Dict K V) {k k' : K} (v v' : V) (hne : k ≠ k') (hk : k ∈ Dict.keys d) :
    Dict.set (Dict.set d k' v') k v = Dict.set (Dict.set d k v) k' v' := by
  induction d with
  | nil => simp [Dict.keys] at hk
  | cons a d ih =>
    obtain ⟨k0, w⟩ := a
    by_cases h : k0 = k
    · subst h; simp [Dict.set, hne]
    · have hk' : k ∈ Dict.keys d := by
        simp only [Dict.keys, List.map_cons, List.mem_cons] at hk ⊢
        exact hk.resolve_left (fun e => h e.symm)
      by_cases h' : k0 = k'
      · subst h'; simp [Dict.set, h]
      · simp [Dict.set, h, h', ih hk']

theorem set_update_old (e : Dict K V) (d : Dict K V) (k : K) (v : V) (hk : k ∈ Dict.keys d) (he : k ∉ Dict.keys e) :
    Dict.set (Dict.update d e) k v = Dict.update (Dict.set d k v) e := by
  induction e generalizing d with
  | nil => rfl
  | cons a e ih =>
    obtain ⟨k', w⟩ := a
    simp only [Dict.keys, List.map_cons, List.mem_cons, not_or] at he
    rw [Dict.update_cons, Dict.update_cons, ih _ ((Dict.mem_keys_set ..).2 (Or.inr hk)) he.2, set_comm_old d v w he.1 hk]

/-- Updating with a dictionary that was given one more item. -/
theorem update_set (d e : Dict K V) (he : Dict.WF e) (k : K) (v : V) :
    Dict.update d (Dict.set e k v) = Dict.set (Dict.update d e) k v := by
  induction e generalizing d with
  | nil => rfl
  | cons a e ih =>
    obtain ⟨k', w⟩ := a
    obtain ⟨h1, h2⟩ := Dict.WF_cons.1 he
    by_cases h : k' = k
    · subst h
      simp only [Dict.set, if_true, Dict.update_cons]
      rw [set_update_old e _ _ _ ((Dict.mem_keys_set ..).2 (Or.inl rfl)) h1, set_set_same]
    · simp only [Dict.set, h, if_false, Dict.update_cons]
      exact ih _ h2

/-- Updating with the dictionary of a list of items is updating with the items. -/
theorem update_ofList (d : Dict K V) (l : List (K × V)) : Dict.update d (Dict.update [] l) = Dict.update d l := by
  have key : ∀ l : List (K × V), ∀ e, Dict.WF e → Dict.update d (Dict.update e l) = Dict.update (Dict.update d e) l := by
    intro l
    induction l with
    | nil => intro e _; rfl
    | cons a l ih =>
      intro e he
      rw [Dict.update_cons, ih _ (Dict.WF_set he _ _), Dict.update_cons, update_set d e he]
  exact key l [] Dict.WF_nil

end

theorem mapE_append {α β : Type} (f : α → Except PyErr β) (l l' : List α) :
    mapE f (l ++ l') = (do let a ← mapE f l; let b ← mapE f l'; .ok (a ++ b)) := by
  induction l with
  | nil => simp only [List.nil_append, mapE, bind_ok]; cases mapE f l' <;> rfl
  | cons x l ih =>
    simp only [List.cons_append, mapE, ih]
    cases f x with
    | error e => rfl
    | ok y =>
      simp only [bind_ok]
      cases mapE f l with
      | error e => rfl
      | ok a =>
        simp only [bind_ok]
        cases mapE f l' <;> rfl

theorem mapE_result {α β : Type} {f : α → Except PyErr β} {l : List α} {r : List β} (h : mapE f l = .ok r) :
    ∀ b ∈ r, ∃ a ∈ l, f a = .ok b := by
  induction l generalizing r with
  | nil => simp only [mapE, Except.ok.injEq] at h; subst h; intro b hb; cases hb
  | cons x l ih =>
    simp only [mapE] at h
    cases hx : f x with
    | error e => rw [hx] at h; cases h
    | ok y =>
      rw [hx, bind_ok] at h
      cases hm : mapE f l with
      | error e => rw [hm] at h; cases h
      | ok ys =>
        rw [hm, bind_ok] at h
        cases h
        intro b hb
        rcases List.mem_cons.1 hb with rfl | hb
        · exact ⟨x, by simp, hx⟩
        · obtain ⟨a, ha, hfa⟩ := ih hm b hb
          exact ⟨a, by simp [ha], hfa⟩

/-! ### Tables in which the last record counts -/

/-- C157: a Kanjidic of two groups of files is the Kanjidic of the first, updated with that of the second: the entries, their order
and the exception if some line cannot be read. -/
theorem C157_kanjidic (fs gs : List (List Str)) (hf : fs ≠ []) (hg : gs ≠ []) :
    kanjidic (fs ++ gs) = (do let a ← kanjidic fs; let b ← kanjidic gs; .ok (Dict.update a b)) := by
  unfold kanjidic
  rw [if_neg hf, if_neg hg, if_neg (by simp [hf]), kanjidicLoop_eq, kanjidicLoop_eq, kanjidicLoop_eq, List.flatten_append,
    List.filter_append, mapE_append]
  cases mapE kanjidicLine (fs.flatten.filter _) with
  | error e => rfl
  | ok a =>
    simp only [bind_ok]
    cases mapE kanjidicLine (gs.flatten.filter _) with
    | error e => rfl
    | ok b =>
      simp only [bind_ok, List.map_append, Dict.update_append]
      rw [update_ofList]

/-- C157: so does a file that is cut in two: it does not matter how the lines are divided into files. -/
theorem C157_cut (f g : List Str) : kanjidic [f ++ g] = kanjidic [f, g] := by
  unfold kanjidic
  simp

theorem pinyinTableLoop_append (a b : List Str) (t : Dict Str (List Str)) :
    pinyinTableLoop t (a ++ b) = (pinyinTableLoop t a >>= fun t' => pinyinTableLoop t' b) := by
  induction a generalizing t with
  | nil => rfl
  | cons l a ih =>
    simp only [List.cons_append, pinyinTableLoop]
    split
    · exact ih t
    · split
      · rfl
      · exact ih _

theorem pinyinTableLoop_update (b : List Str) (t e : Dict Str (List Str)) (he : Dict.WF e) :
    pinyinTableLoop (Dict.update t e) b = (pinyinTableLoop e b).map (Dict.update t) := by
  induction b generalizing e with
  | nil => rfl
  | cons l b ih =>
    simp only [pinyinTableLoop]
    split
    · exact ih e he
    · split
      · rfl
      · rw [← update_set t e he]; exact ih _ (Dict.WF_set he _ _)

/-- C157: likewise the table of the readings of hanzi. -/
theorem C157_hanzi (a b : List Str) :
    newPinyinTable (a ++ b) = (do let s ← newPinyinTable a; let t ← newPinyinTable b; .ok (Dict.update s t)) := by
  unfold newPinyinTable
  rw [pinyinTableLoop_append]
  cases pinyinTableLoop [] a with
  | error e => rfl
  | ok s =>
    have := pinyinTableLoop_update b s [] Dict.WF_nil
    rw [Dict.update_nil] at this
    simp only [bind_ok, this]
    cases pinyinTableLoop [] b <;> rfl

theorem zhuyinLines_append (a b : List Str) : zhuyinLines (a ++ b) = zhuyinLines a ++ zhuyinLines b := by
  induction a with
  | nil => rfl
  | cons l a ih => simp only [List.cons_append, zhuyinLines, ih]; split <;> rfl

theorem zhuyinToPinyinLoop_append (a b : List (List Str)) (t : Dict Str Str) :
    zhuyinToPinyinLoop t (a ++ b) = (zhuyinToPinyinLoop t a >>= fun t' => zhuyinToPinyinLoop t' b) := by
  induction a generalizing t with
  | nil => rfl
  | cons l a ih =>
    simp only [List.cons_append, zhuyinToPinyinLoop]
    split
    · rfl
    · exact ih _

theorem zhuyinToPinyinLoop_update (b : List (List Str)) (t e : Dict Str Str) (he : Dict.WF e) :
    zhuyinToPinyinLoop (Dict.update t e) b = (zhuyinToPinyinLoop e b).map (Dict.update t) := by
  induction b generalizing e with
  | nil => rfl
  | cons l b ih =>
    simp only [zhuyinToPinyinLoop]
    split
    · rfl
    · rw [← update_set t e he]; exact ih _ (Dict.WF_set he _ _)

theorem pinyinToZhuyinLoop_append (a b : List (List Str)) (t : Dict Str Str) :
    pinyinToZhuyinLoop t (a ++ b) = (pinyinToZhuyinLoop t a >>= fun t' => pinyinToZhuyinLoop t' b) := by
  induction a generalizing t with
  | nil => rfl
  | cons l a ih =>
    simp only [List.cons_append, pinyinToZhuyinLoop]
    split
    · rfl
    · exact ih _

theorem pinyinToZhuyinLoop_update (b : List (List Str)) (t e : Dict Str Str) (he : Dict.WF e) :
    pinyinToZhuyinLoop (Dict.update t e) b = (pinyinToZhuyinLoop e b).map (Dict.update t) := by
  induction b generalizing e with
  | nil => rfl
  | cons l b ih =>
    simp only [pinyinToZhuyinLoop]
    split
    · rfl
    · rw [← update_set t e he]; exact ih _ (Dict.WF_set he _ _)

theorem collectPinyin_append (a b : List (List Str)) (t : List Str) :
    collectPinyin t (a ++ b) = (collectPinyin t a >>= fun t' => collectPinyin t' b) := by
  induction a generalizing t with
  | nil => rfl
  | cons l a ih =>
    simp only [List.cons_append, collectPinyin]
    split
    · rfl
    · exact ih _

theorem collectPinyin_front (b : List (List Str)) (s t : List Str) :
    collectPinyin (s ++ t) b = (collectPinyin t b).map (fun x => s ++ x) := by
  induction b generalizing t with
  | nil => rfl
  | cons l b ih =>
    simp only [collectPinyin]
    split
    · rfl
    · rw [List.append_assoc]; exact ih _

/-- C157: likewise the two tables of zhuyin and pinyin; the list of all pinyin is the two lists one after the other, with the syllable
"r" that every list begins with only once. -/
theorem C157_zhuyin (a b : List Str) :
    zhuyinToPinyinTable (a ++ b) = (do let s ← zhuyinToPinyinTable a; let t ← zhuyinToPinyinTable b; .ok (Dict.update s t)) ∧
    pinyinToZhuyinTable (a ++ b) = (do let s ← pinyinToZhuyinTable a; let t ← pinyinToZhuyinTable b; .ok (Dict.update s t)) ∧
    getAllPinyin (a ++ b) = (do let s ← getAllPinyin a; let t ← getAllPinyin b; .ok (s ++ t.drop 1)) := by
  refine ⟨?_, ?_, ?_⟩
  · unfold zhuyinToPinyinTable
    rw [zhuyinLines_append, zhuyinToPinyinLoop_append]
    cases zhuyinToPinyinLoop [] (zhuyinLines a) with
    | error e => rfl
    | ok s =>
      have := zhuyinToPinyinLoop_update (zhuyinLines b) s [] Dict.WF_nil
      rw [Dict.update_nil] at this
      simp only [bind_ok, this]
      cases zhuyinToPinyinLoop [] (zhuyinLines b) <;> rfl
  · unfold pinyinToZhuyinTable
    rw [zhuyinLines_append, pinyinToZhuyinLoop_append]
    cases pinyinToZhuyinLoop [] (zhuyinLines a) with
    | error e => rfl
    | ok s =>
      have := pinyinToZhuyinLoop_update (zhuyinLines b) s [] Dict.WF_nil
      rw [Dict.update_nil] at this
      simp only [bind_ok, this]
      cases pinyinToZhuyinLoop [] (zhuyinLines b) <;> rfl
  · unfold getAllPinyin
    rw [zhuyinLines_append, collectPinyin_append]
    cases collectPinyin [u!"r"] (zhuyinLines a) with
    | error e => rfl
    | ok s =>
      have h1 := collectPinyin_front (zhuyinLines b) s []
      have h2 := collectPinyin_front (zhuyinLines b) [u!"r"] []
      rw [List.append_nil] at h1 h2
      simp only [bind_ok, h1, h2]
      cases collectPinyin [] (zhuyinLines b) <;> rfl

/-! ### Bilingual dictionaries -/

/-- What joining the files of two dictionaries should give: a word of one file has the entry of that file, a word of both has the entry
of the first after its method `update` was given that of the second; the words of the first come first. -/
def Spec.JoinedWords (d1 d2 d : Dict Str Entry) : Prop :=
  Dict.keys d = Dict.keys d1 ++ (Dict.keys d2).filter (fun w => decide (w ∉ Dict.keys d1)) ∧
  ∀ w, match Dict.get? d1 w, Dict.get? d2 w with
    | none, x => Dict.get? d w = x
    | some e, none => Dict.get? d w = some e
    | some e, some e' => ∃ both rest, e.update e' = .ok (both, rest) ∧ Dict.get? d w = some both

theorem dedup_append_filter {α : Type} [DecidableEq α] (l l' : List α) :
    dedup (l ++ l') = dedup l ++ (dedup l').filter (fun x => decide (x ∉ dedup l)) := by
  rw [← List.reverse_reverse l']
  induction l'.reverse with
  | nil => simp [dedup]
  | cons x m ih =>
    rw [List.reverse_cons]
    generalize m.reverse = l' at ih ⊢
    rw [← List.append_assoc, dedup_append_singleton, dedup_append_singleton, ih]
    by_cases h1 : x ∈ l
    · by_cases h2 : x ∈ l' <;> simp [h1, h2, mem_dedup, List.filter_append]
    · by_cases h2 : x ∈ l' <;> simp [h1, h2, mem_dedup, List.filter_append]

theorem merged_join {es es' : List Entry} (hal : ∀ x ∈ es, Spec.Aligned x) (hal' : ∀ x ∈ es', Spec.Aligned x) (w : Str) :
    match Spec.merged es w, Spec.merged es' w with
    | none, x => Spec.merged (es ++ es') w = x
    | some e, none => Spec.merged (es ++ es') w = some e
    | some e, some e' => ∃ both rest, e.update e' = .ok (both, rest) ∧ Spec.merged (es ++ es') w = some both := by
  cases h1 : Spec.merged es w with
  | none =>
    have : es.filter (fun e => e.word = w) = [] := by
      rw [List.filter_eq_nil_iff]; intro x hx; simpa using Spec.merged_eq_none.1 h1 x hx
    simp only
    unfold Spec.merged
    rw [List.filter_append, this, List.nil_append]
  | some e =>
    cases h2 : Spec.merged es' w with
    | none =>
      have : es'.filter (fun e => e.word = w) = [] := by
        rw [List.filter_eq_nil_iff]; intro x hx; simpa using Spec.merged_eq_none.1 h2 x hx
      simp only
      rw [← h1]
      unfold Spec.merged
      rw [List.filter_append, this, List.append_nil]
    | some e' =>
      simp only
      have hw := Spec.merged_word h1
      have hw' := Spec.merged_word h2
      refine ⟨⟨e.word, e.padded ++ e'.padded, e.senses ++ e'.senses⟩, ⟨e'.word, e'.padded, e'.senses⟩, ?_, ?_⟩
      · unfold Entry.update; rw [if_pos (hw.trans hw'.symm)]
      · rw [Spec.merged_padded hal h1, Spec.merged_padded hal' h2, Spec.merged_senses h1, Spec.merged_senses h2, hw]
        have n1 : es.filter (fun e => e.word = w) ≠ [] := by
          intro h0; unfold Spec.merged at h1; rw [h0] at h1; cases h1
        have n2 : es'.filter (fun e => e.word = w) ≠ [] := by
          intro h0; unfold Spec.merged at h2; rw [h0] at h2; cases h2
        unfold Spec.merged
        rw [List.filter_append]
        have hfun : (Spec.readingsPerSense) = Entry.padded := funext Spec.readingsPerSense_eq
        cases hx : es.filter (fun e => e.word = w) with
        | nil => exact absurd hx n1
        | cons x xs =>
          cases hy : es'.filter (fun e => e.word = w) with
          | nil => exact absurd hy n2
          | cons y ys =>
            cases xs with
            | nil => simp [hfun]
            | cons z zs => simp [hfun]

theorem loadDictionary_cons (h : Str) (ls : List Str) :
    loadDictionary (h :: ls) = (detectFormat h >>= fun f => parseDictionary f.parseLine ls) := rfl

/-- C157: the lines of two bilingual dictionaries of one format, joined under one header line. They load exactly if both files do, and
the dictionary is that of the first file in which every word of the second was merged with the method `update` of entries. -/
theorem C157_dictionary (h : Str) (a b : List Str) :
    match loadDictionary (h :: a), loadDictionary (h :: b) with
    | .error x, _ => loadDictionary (h :: (a ++ b)) = .error x
    | .ok _, .error y => loadDictionary (h :: (a ++ b)) = .error y
    | .ok d1, .ok d2 => ∃ d, loadDictionary (h :: (a ++ b)) = .ok d ∧ Spec.JoinedWords d1 d2 d := by
  simp only [loadDictionary_cons]
  cases hf : detectFormat h with
  | error x => rfl
  | ok f =>
    simp only [bind_ok]
    have hparse := parseLine_aligned f
    have al : ∀ {ls es}, mapE f.parseLine ls = .ok es → ∀ x ∈ es, Spec.Aligned x := by
      intro ls es hm x hx
      obtain ⟨l, _, hl⟩ := mapE_result hm x hx
      exact hparse l x hl
    have key : ∀ ls, match mapE f.parseLine ls with
        | .ok es => ∃ d, parseDictionary f.parseLine ls = .ok d ∧ LoopInv d es
        | .error x => parseDictionary f.parseLine ls = .error x := by
      intro ls
      have := parseLoop_inv f.parseLine hparse ls [] [] (by simp) loopInv_nil
      cases hm : mapE f.parseLine ls with
      | error x => rw [hm] at this; exact this
      | ok es => rw [hm] at this; simpa [parseDictionary] using this
    have ka := key a
    have kb := key b
    have kc := key (a ++ b)
    rw [mapE_append] at kc
    cases ha : mapE f.parseLine a with
    | error x =>
      rw [ha] at ka kc
      simp only at ka
      rw [ka]; exact kc
    | ok es =>
      rw [ha] at ka kc
      obtain ⟨d1, e1, i1⟩ := ka
      rw [e1]
      cases hb : mapE f.parseLine b with
      | error y =>
        rw [hb] at kb kc
        simp only at kb
        rw [kb]; exact kc
      | ok es' =>
        rw [hb] at kb kc
        obtain ⟨d2, e2, i2⟩ := kb
        rw [e2]
        simp only [bind_ok] at kc
        obtain ⟨d, e3, i3⟩ := kc
        refine ⟨d, e3, ?_, fun w => ?_⟩
        · rw [i3.1, i1.1, i2.1, List.map_append, dedup_append_filter]; congr 2; funext x; congr
        · rw [i1.2 w, i2.2 w, i3.2 w]
          exact merged_join (al ha) (al hb) w

/-- C157: a dictionary that is updated with the other one instead (the method `update` of dictionaries, which replaces entries) gives
other entries exactly if some word is in both files. -/
theorem C157_overwrite (h : Str) (a b : List Str) (d1 d2 d u : Dict Str Entry) (h1 : loadDictionary (h :: a) = .ok d1)
    (h2 : loadDictionary (h :: b) = .ok d2) (hd : loadDictionary (h :: (a ++ b)) = .ok d)
    (hu : bilingualUpdate d1 d2 .overwrite = .ok u) :
    (∀ w, Dict.get? u w = Dict.get? d w) ↔ ∀ w, w ∈ Dict.keys d1 → w ∉ Dict.keys d2 := by
  have hj := C157_dictionary h a b
  rw [h1, h2] at hj
  simp only at hj
  obtain ⟨d', hd', hk, hg⟩ := hj
  rw [hd] at hd'; cases hd'
  have good : ∀ {ls : List Str} {t : Dict Str Entry}, loadDictionary (h :: ls) = .ok t → Dict.WF t ∧
      ∀ w e, Dict.get? t w = some e → e.senses ≠ [] := by
    intro ls t ht
    rw [loadDictionary_cons] at ht
    cases hf : detectFormat h with
    | error x => rw [hf] at ht; cases ht
    | ok f =>
      rw [hf] at ht
      simp only [bind_ok] at ht
      have := parseLoop_inv f.parseLine (parseLine_aligned f) ls [] [] (by simp) loopInv_nil
      unfold parseDictionary at ht
      cases hm : mapE f.parseLine ls with
      | error x => rw [hm] at this; simp only at this; rw [this] at ht; cases ht
      | ok es =>
        rw [hm] at this
        obtain ⟨t', e', i⟩ := this
        rw [ht] at e'; cases e'
        rw [List.nil_append] at i
        refine ⟨by unfold Dict.WF; rw [i.1]; exact nodup_dedup _, fun w e he => ?_⟩
        rw [i.2 w] at he
        rw [Spec.merged_senses he]
        intro h0
        have hne : es.filter (fun e => e.word = w) ≠ [] := by
          intro hn; unfold Spec.merged at he; rw [hn] at he; cases he
        obtain ⟨x, xs, hx⟩ := List.exists_cons_of_ne_nil hne
        rw [hx, List.flatMap_cons, List.append_eq_nil_iff] at h0
        have hxm : x ∈ es := (List.mem_filter.1 (by rw [hx]; simp : x ∈ es.filter (fun e => e.word = w))).1
        obtain ⟨l, _, hl⟩ := mapE_result hm x hxm
        exact (C31_never_empty f l x hl).1 h0.1
  obtain ⟨w1, s1⟩ := good h1
  obtain ⟨w2, _⟩ := good h2
  have hu' : u = Dict.update d1 d2 := by simp only [bilingualUpdate, Except.ok.injEq] at hu; exact hu.symm
  constructor
  · intro hall w hw1 hw2
    obtain ⟨e, he⟩ := Option.isSome_iff_exists.1 ((Dict.get?_isSome_iff _ _).2 hw1)
    obtain ⟨e', he'⟩ := Option.isSome_iff_exists.1 ((Dict.get?_isSome_iff _ _).2 hw2)
    have hw := hg w
    rw [he, he'] at hw
    obtain ⟨both, rest, hup, hgw⟩ := hw
    have := hall w
    rw [hu', get?_update_nodup _ _ w2, he', hgw] at this
    simp only [Option.some_or, Option.some.injEq] at this
    unfold Entry.update at hup
    split at hup
    · simp only [Except.ok.injEq, Prod.mk.injEq] at hup
      have hs : e'.senses = e.senses ++ e'.senses := by
        have := congrArg Entry.senses this
        rw [← hup.1] at this; exact this
      exact s1 w e he (by simpa using hs)
    · cases hup
  · intro hdis w
    rw [hu', get?_update_nodup _ _ w2]
    have hw := hg w
    cases he : Dict.get? d1 w with
    | none => rw [he] at hw; simp only at hw; rw [hw]; cases Dict.get? d2 w <;> rfl
    | some e =>
      cases he' : Dict.get? d2 w with
      | none => rw [he, he'] at hw; simp only at hw; rw [hw]; rfl
      | some e' =>
        exact absurd ((Dict.get?_isSome_iff _ _).1 (by rw [he']; rfl)) (hdis w ((Dict.get?_isSome_iff _ _).1 (by rw [he]; rfl)))

/-! ### Radicals -/

/-- The kanji lines of a radical file that come before its first header line. -/
def Spec.leadLines : List Str → List Str
  | [] => []
  | l :: ls => if Spec.radkHeader l then [] else if Spec.radkComment l then Spec.leadLines ls else l :: Spec.leadLines ls

/-- The rest of the file. -/
def Spec.fromHeader : List Str → List Str
  | [] => []
  | l :: ls => if Spec.radkHeader l then l :: ls else Spec.fromHeader ls

theorem radkBody_lead (b ls : List Str) :
    Spec.radkBody b ls = (Spec.leadLines ls).map (fun l => (Spec.radicalAfter b, strip l)) ++ Spec.radkBody [] (Spec.fromHeader ls) := by
  induction ls generalizing b with
  | nil => rfl
  | cons l ls ih =>
    by_cases hh : Spec.radkHeader l
    · simp only [Spec.leadLines, Spec.fromHeader, if_pos hh, List.map_nil, List.nil_append]
      exact radkBody_block b l ls hh
    · have hr : Spec.radicalAfter (b ++ [l]) = Spec.radicalAfter b := by rw [radicalAfter_append, if_neg hh]
      by_cases hc : Spec.radkComment l
      · simp only [Spec.leadLines, Spec.fromHeader, if_neg hh, if_pos hc, Spec.radkBody, hc, true_or, if_true]
        rw [ih, hr]
      · simp only [Spec.leadLines, Spec.fromHeader, if_neg hh, if_neg hc, Spec.radkBody, hc, hh, or_self, if_false, List.map_cons,
          List.cons_append]
        rw [ih, hr]

theorem radkCount_append (a b : List Str) (r : Option Str) (k : Chr) :
    Spec.radkCount (a ++ b) r k = Spec.radkCount a r k +
      (((Spec.radkBody a b).filter (fun p => p.1 = r)).map (fun p => p.2.count k)).sum := by
  unfold Spec.radkCount
  rw [radkBody_append, List.filter_append, List.map_append, List.sum_append, List.nil_append]

theorem radkDict_ok_iff (ls : List Str) : (∃ d, radkDict ls = .ok d) ↔ ∀ l ∈ ls, ∀ e, ¬ Spec.radkBad l e := by
  constructor
  · rintro ⟨d, hd⟩ l hl e; exact radkDict_no_bad hd l hl e
  · intro h
    cases hr : radkDict ls with
    | ok d => exact ⟨d, rfl⟩
    | error e =>
      obtain ⟨pre, l, post, h1, h2, _⟩ := (C40_raises _ e).1 hr
      exact absurd h2 (h l (by rw [h1]; simp) e)

/-- C157: two radical files that are joined load exactly if both load. -/
theorem C157_radicals_load (a b : List Str) :
    (∃ d, radkDict (a ++ b) = .ok d) ↔ (∃ d, radkDict a = .ok d) ∧ ∃ d, radkDict b = .ok d := by
  rw [radkDict_ok_iff, radkDict_ok_iff, radkDict_ok_iff]
  simp only [List.mem_append]
  exact ⟨fun h => ⟨fun l hl => h l (Or.inl hl), fun l hl => h l (Or.inr hl)⟩, fun h l hl => hl.elim (h.1 l) (h.2 l)⟩

/-- C157: every kanji then has the radicals of both files together, exactly if the second file has no kanji before its first header
line or the first file has no header line at all. (Kanji before the first header line would go to the last radical of the first
file.) -/
theorem C157_radicals (a b : List Str) (d1 d2 d : RadkDict) (h1 : radkDict a = .ok d1) (h2 : radkDict b = .ok d2)
    (h : radkDict (a ++ b) = .ok d) :
    (∀ k, ((Dict.get? d.dict k).getD []).Perm ((Dict.get? d1.dict k).getD [] ++ (Dict.get? d2.dict k).getD [])) ↔
      ((∀ l ∈ a, ¬ Spec.radkHeader l) ∨ ∀ l ∈ Spec.leadLines b, strip l = []) := by
  have hcount : (∀ k, ((Dict.get? d.dict k).getD []).Perm ((Dict.get? d1.dict k).getD [] ++ (Dict.get? d2.dict k).getD [])) ↔
      ∀ (k : Chr) (r : Option Str),
        ((((Spec.leadLines b).map (fun l => (Spec.radicalAfter a, strip l))).filter (fun p => p.1 = r)).map (fun p => p.2.count k)).sum =
        ((((Spec.leadLines b).map (fun l => ((none : Option Str), strip l))).filter (fun p => p.1 = r)).map (fun p => p.2.count k)).sum := by
    refine forall_congr' fun k => ?_
    rw [List.perm_iff_count]
    refine forall_congr' fun r => ?_
    rw [List.count_append, C39_counts _ _ h, C39_counts _ _ h1, C39_counts _ _ h2, radkCount_append, radkBody_lead a b]
    unfold Spec.radkCount
    rw [radkBody_lead [] b]
    simp only [List.filter_append, List.map_append, List.sum_append]
    have : Spec.radicalAfter [] = none := rfl
    rw [this]
    omega
  rw [hcount]
  have hafter : Spec.radicalAfter a = none ↔ ∀ l ∈ a, ¬ Spec.radkHeader l := by
    constructor
    · intro hn l hl hh
      unfold Spec.radicalAfter at hn
      have hne : a.filter (fun l => Spec.radkHeader l) ≠ [] := by
        intro h0
        have := List.filter_eq_nil_iff.1 h0 l hl
        simp [hh] at this
      obtain ⟨m, hm⟩ : ∃ m, (a.filter (fun l => Spec.radkHeader l)).getLast? = some m := ⟨_, List.getLast?_eq_some_getLast hne⟩
      rw [hm] at hn
      have hmem := List.mem_of_getLast? hm
      rw [List.mem_filter] at hmem
      have hmh : Spec.radkHeader m := by simpa using hmem.2
      have hnb := radkDict_no_bad h1 m hmem.1 .genericException
      have hlen : (splitWs m).length = 3 ∨ (splitWs m).length = 4 := by
        by_cases hx : (splitWs m).length = 3 ∨ (splitWs m).length = 4
        · exact hx
        · exact absurd ⟨hmh, Or.inl ⟨hx, rfl⟩⟩ hnb
      simp only [Option.bind_some] at hn
      rw [List.getElem?_eq_none_iff] at hn
      omega
    · intro hn
      unfold Spec.radicalAfter
      have : a.filter (fun l => Spec.radkHeader l) = [] := by
        rw [List.filter_eq_nil_iff]; intro l hl; simpa using hn l hl
      rw [this]; rfl
  constructor
  · intro hall
    cases hr : Spec.radicalAfter a with
    | none => exact Or.inl (hafter.1 hr)
    | some r0 =>
      right
      intro l hl
      cases hs : strip l with
      | nil => rfl
      | cons c cs =>
        exfalso
        have := hall c none
        rw [hr] at this
        have e1 : ((Spec.leadLines b).map (fun l => ((some r0 : Option Str), strip l))).filter (fun p => p.1 = none) = [] := by
          rw [List.filter_eq_nil_iff]
          intro p hp
          obtain ⟨x, _, rfl⟩ := List.mem_map.1 hp
          simp
        rw [e1] at this
        simp only [List.map_nil, List.sum_nil] at this
        have hz := List.sum_eq_zero_iff_forall_eq_nat.1 this.symm ((strip l).count c) (by
          refine List.mem_map.2 ⟨(none, strip l), List.mem_filter.2 ⟨List.mem_map.2 ⟨l, hl, rfl⟩, by simp⟩, rfl⟩)
        rw [hs, List.count_cons_self] at hz
        omega
  · intro hor k r
    rcases hor with hn | hn
    · rw [hafter.2 hn]
    · have key : ∀ q : Option Str, ((((Spec.leadLines b).map (fun l => (q, strip l))).filter (fun p => p.1 = r)).map (fun p => p.2.count k)).sum = 0 := by
        intro q
        rw [List.sum_eq_zero_iff_forall_eq_nat]
        intro n hn'
        obtain ⟨p, hp, rfl⟩ := List.mem_map.1 hn'
        obtain ⟨l, hl, rfl⟩ := List.mem_map.1 (List.mem_filter.1 hp).1
        simp [hn l hl]
      rw [key, key]

/-- C157: the stroke counts are those of the second file for its radicals and those of the first for the others. -/
theorem C157_strokes (a b : List Str) (d1 d2 d : RadkDict) (h1 : radkDict a = .ok d1) (h2 : radkDict b = .ok d2)
    (h : radkDict (a ++ b) = .ok d) (r : Str) :
    Dict.get? d.radicalToStrokeCount r = (Dict.get? d2.radicalToStrokeCount r).or (Dict.get? d1.radicalToStrokeCount r) := by
  rw [C39_strokes _ _ h, C39_strokes _ _ h1, C39_strokes _ _ h2]
  unfold Spec.radkStrokes
  rw [List.filter_append, List.getLast?_append]
  cases hb : (b.filter (fun l => Spec.radkHeader l ∧ (splitWs l)[1]? = some r)).getLast? with
  | none => simp
  | some m =>
    have hmem := List.mem_of_getLast? hb
    rw [List.mem_filter] at hmem
    have hmh : Spec.radkHeader m := by have := hmem.2; simp only [decide_eq_true_eq] at this; exact this.1
    have hlen : (splitWs m).length = 3 ∨ (splitWs m).length = 4 := by
      by_cases hx : (splitWs m).length = 3 ∨ (splitWs m).length = 4
      · exact hx
      · exact absurd ⟨hmh, Or.inl ⟨hx, rfl⟩⟩ (radkDict_no_bad h2 m hmem.1 .genericException)
    obtain ⟨s, hs⟩ : ∃ s, (splitWs m)[2]? = some s := ⟨_, List.getElem?_eq_getElem (by omega)⟩
    cases hp : pyInt 10 s with
    | error e => exact absurd ⟨hmh, Or.inr ⟨hlen, s, hs, hp⟩⟩ (radkDict_no_bad h2 m hmem.1 e)
    | ok n => simp [hs, hp, Except.toOption]

/-! ### Tatoeba exports -/

theorem lastRow_append (l l' : List (List Str)) (i : Int) :
    Spec.lastRow (l ++ l') i = (Spec.lastRow l' i).or (Spec.lastRow l i) := by
  unfold Spec.lastRow
  rw [List.reverse_append, List.find?_append]

/-- The answer of the second file, or else that of the first. -/
def Spec.orElse {α : Type} (second first : Except PyErr α) : Except PyErr α :=
  match second with
  | .ok x => .ok x
  | .error _ => first

/-- C157: the rows of two sentence files with the same number of columns, joined: the reader loads them exactly if it loads both, and
then answers like the reader of the second file, or like that of the first where the second has no such id. -/
theorem C157_sentences {D : Type} (strptime : Str → Except PyErr D) (languages : Option (List Str)) (r1 r2 : List (List Str))
    (hw : ∀ f ∈ r1.head?, ∀ g ∈ r2.head?, f.length = g.length) (n1 : r1 ≠ []) (n2 : r2 ≠ []) :
    ((∃ a, sentLoad strptime languages (r1 ++ r2, none) = .ok a) ↔
      (∃ a, sentLoad strptime languages (r1, none) = .ok a) ∧ ∃ a, sentLoad strptime languages (r2, none) = .ok a) ∧
    ∀ a1 a2 a, sentLoad strptime languages (r1, none) = .ok a1 → sentLoad strptime languages (r2, none) = .ok a2 →
      sentLoad strptime languages (r1 ++ r2, none) = .ok a →
      ∀ i, a.sentence i = Spec.orElse (a2.sentence i) (a1.sentence i) ∧ a.details i = Spec.orElse (a2.details i) (a1.details i) := by
  obtain ⟨f, s, rfl⟩ := List.exists_cons_of_ne_nil n1
  obtain ⟨g, t, rfl⟩ := List.exists_cons_of_ne_nil n2
  have hfg : f.length = g.length := hw f rfl g rfl
  constructor
  · rw [C54_load_iff, C54_load_iff, C54_load_iff]
    constructor
    · rintro ⟨_, x, y, hx, hl, hok⟩
      simp only [List.cons_append, List.cons.injEq] at hx
      obtain ⟨rfl, rfl⟩ := hx
      exact ⟨⟨rfl, f, s, rfl, hl, fun r hr => hok r (List.mem_append.2 (Or.inl hr))⟩,
        ⟨rfl, g, t, rfl, hfg ▸ hl, fun r hr => hfg ▸ hok r (List.mem_append.2 (Or.inr hr))⟩⟩
    · rintro ⟨⟨_, x, y, hx, hl, hok⟩, _, x', y', hx', hl', hok'⟩
      cases hx; cases hx'
      refine ⟨rfl, f, s ++ g :: t, rfl, hl, fun r hr => ?_⟩
      rcases List.mem_append.1 hr with hr | hr
      · exact hok r hr
      · have := hok' r hr
        rw [← hfg] at this; exact this
  · intro a1 a2 a h1 h2 h i
    have hacc : Spec.accepted languages ((f :: s) ++ (g :: t)) = Spec.accepted languages (f :: s) ++ Spec.accepted languages (g :: t) :=
      List.filter_append ..
    constructor
    · rw [C54_sentence h, C54_sentence h1, C54_sentence h2, hacc, lastRow_append]
      cases Spec.lastRow (Spec.accepted languages (g :: t)) i <;> rfl
    · rw [C54_details h, C54_details h1, C54_details h2, hacc, lastRow_append]
      have e0 : ((f :: s) ++ (g :: t)).headD [] = f := rfl
      rw [e0, List.headD_cons, List.headD_cons, ← hfg]
      by_cases h6 : f.length = 6
      · rw [if_pos h6, if_pos h6, if_pos h6]
        cases Spec.lastRow (Spec.accepted languages (g :: t)) i <;> rfl
      · rw [if_neg h6, if_neg h6, if_neg h6]; rfl

/-- C157: likewise the reader of Japanese indices. -/
theorem C157_indices (edict : Option (Dict Str (List Str))) (subset : Option (List Int)) (r1 r2 : List (List Str)) :
    ((∃ d, indexLoad edict subset (r1 ++ r2, none) = .ok d) ↔
      (∃ d, indexLoad edict subset (r1, none) = .ok d) ∧ ∃ d, indexLoad edict subset (r2, none) = .ok d) ∧
    ∀ d1 d2 d, indexLoad edict subset (r1, none) = .ok d1 → indexLoad edict subset (r2, none) = .ok d2 →
      indexLoad edict subset (r1 ++ r2, none) = .ok d →
      ∀ i, d.linkOf i = Spec.orElse (d2.linkOf i) (d1.linkOf i) ∧ d.getItem i = Spec.orElse (d2.getItem i) (d1.getItem i) := by
  constructor
  · rw [indexLoad_ok_iff, indexLoad_ok_iff, indexLoad_ok_iff]
    simp only [List.mem_append]
    exact ⟨fun h => ⟨fun l hl => h l (Or.inl hl), fun l hl => h l (Or.inr hl)⟩, fun h l hl => hl.elim (h.1 l) (h.2 l)⟩
  · intro d1 d2 d h1 h2 h i
    have hacc : Spec.indexAccepted subset (r1 ++ r2) = Spec.indexAccepted subset r1 ++ Spec.indexAccepted subset r2 :=
      List.filter_append ..
    have found : ∀ r, Spec.lastRow (Spec.indexAccepted subset r2) i = some r →
        (∃ m, pyInt 10 (r.getD 1 []) = .ok m) ∧ ∃ ws, Spec.indexWords edict r = .ok ws := by
      intro r hr
      have hm : r ∈ Spec.indexAccepted subset r2 := List.mem_reverse.1 (List.mem_of_find?_eq_some hr)
      have hm2 := List.mem_filter.1 hm
      obtain ⟨x, hx⟩ := (indexLoad_ok_iff r2).1 ⟨d2, h2⟩ r hm2.1
      obtain ⟨_, _, _, hc⟩ := indexRow_eq_ok hx
      rcases hc with ⟨h0, _⟩ | ⟨_, _, m, ws, _, e2, e3, _⟩
      · have := List.filter_eq_nil_iff.1 h0 r (by simp)
        exact absurd hm2.2 this
      · exact ⟨⟨m, e2⟩, ws, e3⟩
    constructor
    · rw [(C64_lookups _ _ _ _ h i).1, (C64_lookups _ _ _ _ h1 i).1, (C64_lookups _ _ _ _ h2 i).1]
      simp only
      rw [hacc, lastRow_append]
      cases hr : Spec.lastRow (Spec.indexAccepted subset r2) i with
      | none => rfl
      | some r =>
        obtain ⟨⟨m, hm⟩, _⟩ := found r hr
        simp only [Option.some_or, hm, Spec.orElse]
    · rw [(C64_lookups _ _ _ _ h i).2.1, (C64_lookups _ _ _ _ h1 i).2.1, (C64_lookups _ _ _ _ h2 i).2.1]
      simp only
      rw [hacc, lastRow_append]
      cases hr : Spec.lastRow (Spec.indexAccepted subset r2) i with
      | none => rfl
      | some r =>
        obtain ⟨_, ws, hws⟩ := found r hr
        simp only [Option.some_or, hws, Spec.orElse]

/-! ### Cases that meet the hypotheses -/

/-- Two dictionaries with a common word: joined, it has the senses of both. -/
example : (match loadDictionary [u!"　？？？", u!"行く [いく] /to go/"], loadDictionary [u!"　？？？", u!"中 [なか] /inside/", u!"行く [ゆく] /to go/"],
      loadDictionary ([u!"　？？？", u!"行く [いく] /to go/"] ++ [u!"中 [なか] /inside/", u!"行く [ゆく] /to go/"]) with
    | .ok a, .ok b, .ok d => decide (Dict.keys a = [u!"行く"] ∧ Dict.keys b = [u!"中", u!"行く"] ∧ Dict.keys d = [u!"行く", u!"中"] ∧
        (Dict.get? d u!"行く").map Entry.readings = some [u!"いく", u!"ゆく"])
    | _, _, _ => false) = true := by decide +kernel

/-- A second radical file whose first kanji have no header line of their own. -/
example : Spec.leadLines [u!"# comment", u!"亜", u!"$ 一 1", u!"唖"] = [u!"亜"] ∧
    (∃ d, radkDict [u!"$ ｜ 1", u!"中"] = .ok d) ∧ ∃ d, radkDict [u!"# comment", u!"亜", u!"$ 一 1", u!"唖"] = .ok d :=
  ⟨by decide +kernel, ⟨_, by rfl⟩, _, by rfl⟩

/-- A sentence in both files, which the second one replaces. -/
example : (match sentLoad (D := Unit) (fun _ => .error .valueError) none ([[u!"1", u!"eng", u!"Go."], [u!"2", u!"eng", u!"Stop."]], none),
      sentLoad (D := Unit) (fun _ => .error .valueError) none ([[u!"1", u!"eng", u!"Go!"]], none) with
    | .ok a, .ok b => decide (a.sentence 1 = .ok u!"Go." ∧ b.sentence 1 = .ok u!"Go!" ∧ b.sentence 2 = .error .invalidIDError)
    | _, _ => false) = true := by decide +kernel

end Cjk
