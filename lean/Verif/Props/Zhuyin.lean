import Verif.Spec.Pinyin
import Verif.Model.Zhuyin
import Verif.Py.Strip
/-!
# The zhuyin table (C70) and the pinyin pattern (C69)
-/

namespace Cjk
open Py

theorem startsWith_hash (l : Str) : startsWith l u!"#" = decide (l.head? = some 0x23) := by
  unfold startsWith
  cases l with
  | nil => rfl
  | cons c l =>
    by_cases h : c = 0x23
    · subst h; rfl
    · have h2 : ((0x23 : Nat) == c) = false := by simpa using fun e : 0x23 = c => h e.symm
      simp [List.isPrefixOf, h2, h]

theorem zhuyinLines_eq (lines : List Str) : zhuyinLines lines = Spec.tableRows lines := by
  induction lines with
  | nil => rfl
  | cons l lines ih =>
    rw [zhuyinLines, startsWith_hash, splitWs_rstrip, ih]
    unfold Spec.tableRows
    by_cases h : l.head? = some 0x23 <;> simp [h]

theorem unpack2_ok {r : List Str} (h : r.length = 2) : unpack2 r = .ok (r.getD 0 [], r.getD 1 []) := by
  match r, h with
  | [a, b], _ => rfl

theorem unpack2_error {r : List Str} (h : r.length ≠ 2) : unpack2 r = .error .valueError := by
  match r, h with
  | [], _ => rfl
  | [_], _ => rfl
  | [_, _], h => exact absurd rfl h
  | _ :: _ :: _ :: _, _ => rfl

/-- All three loops go through the rows in the same way. -/
theorem rows_loop {σ : Type} (step : σ → Str × Str → σ) (loop : σ → List (List Str) → Except PyErr σ)
    (h0 : ∀ s, loop s [] = .ok s)
    (h1 : ∀ s r rs, loop s (r :: rs) = match unpack2 r with | .error e => .error e | .ok p => loop (step s p) rs)
    (rows : List (List Str)) (s : σ) :
    loop s rows = if ∀ r ∈ rows, r.length = 2 then .ok ((rows.map (fun r => (r.getD 0 [], r.getD 1 []))).foldl step s)
      else .error .valueError := by
  induction rows generalizing s with
  | nil => simp [h0]
  | cons r rows ih =>
    rw [h1]
    by_cases hr : r.length = 2
    · rw [unpack2_ok hr]
      simp only
      rw [ih]
      simp [hr]
    · rw [unpack2_error hr, if_neg]
      intro h
      exact hr (h r (by simp))

theorem zhuyinToPinyin_eq (lines : List Str) [Decidable (Spec.RowsOk lines)] : zhuyinToPinyinTable lines =
    if Spec.RowsOk lines then .ok ((Spec.tablePairs lines).foldl (fun t p => Dict.set t p.1 p.2) []) else .error .valueError := by
  unfold zhuyinToPinyinTable
  rw [zhuyinLines_eq, rows_loop (fun t p => Dict.set t p.1 p.2) zhuyinToPinyinLoop (fun _ => rfl)
    (fun s r rs => by rw [zhuyinToPinyinLoop]; cases unpack2 r <;> rfl)]
  unfold Spec.RowsOk Spec.tablePairs
  congr

theorem pinyinToZhuyin_eq (lines : List Str) [Decidable (Spec.RowsOk lines)] : pinyinToZhuyinTable lines =
    if Spec.RowsOk lines then .ok ((Spec.tablePairs lines).foldl (fun t p => Dict.set t p.2 p.1) []) else .error .valueError := by
  unfold pinyinToZhuyinTable
  rw [zhuyinLines_eq, rows_loop (fun t p => Dict.set t p.2 p.1) pinyinToZhuyinLoop (fun _ => rfl)
    (fun s r rs => by rw [pinyinToZhuyinLoop]; cases unpack2 r <;> rfl)]
  unfold Spec.RowsOk Spec.tablePairs
  congr

theorem foldl_snoc (l : List (Str × Str)) (a : List Str) :
    l.foldl (fun (all : List Str) p => all ++ [p.2]) a = a ++ l.map Prod.snd := by
  induction l generalizing a with
  | nil => simp
  | cons p l ih => rw [List.foldl_cons, ih]; simp

theorem collectPinyin_eq (lines : List Str) (a : List Str) [Decidable (Spec.RowsOk lines)] : collectPinyin a (zhuyinLines lines) =
    if Spec.RowsOk lines then .ok (a ++ (Spec.tablePairs lines).map Prod.snd) else .error .valueError := by
  rw [zhuyinLines_eq, rows_loop (fun all p => all ++ [p.2]) collectPinyin (fun _ => rfl)
    (fun s r rs => by rw [collectPinyin]; cases unpack2 r <;> rfl), foldl_snoc]
  unfold Spec.RowsOk Spec.tablePairs
  congr

theorem get?_foldl_set {β : Type} (l : List (Str × β)) (t : Dict Str β) (k : Str) :
    Dict.get? (l.foldl (fun t p => Dict.set t p.1 p.2) t) k = (Spec.lastValue k l).or (Dict.get? t k) := by
  induction l generalizing t with
  | nil => rfl
  | cons p l ih =>
    rw [List.foldl_cons, ih, Dict.get?_set]
    unfold Spec.lastValue
    rw [List.reverse_cons, List.find?_append]
    by_cases h : p.1 = k
    · cases l.reverse.find? (fun p => p.1 = k) <;> simp [h]
    · simp [h]

/-- C70: each table maps a key to the value of the last line with it, and to nothing without such a line; both are read iff every
line that is no comment has two fields, and ValueError is raised otherwise. -/
theorem C70_tables (lines : List Str) :
    (Spec.RowsOk lines → ∃ zp pz, zhuyinToPinyinTable lines = .ok zp ∧ pinyinToZhuyinTable lines = .ok pz ∧
      (∀ z, Dict.get? zp z = Spec.lastValue z (Spec.tablePairs lines)) ∧
      (∀ p, Dict.get? pz p = Spec.lastValue p ((Spec.tablePairs lines).map Prod.swap))) ∧
    (¬ Spec.RowsOk lines → zhuyinToPinyinTable lines = .error .valueError ∧ pinyinToZhuyinTable lines = .error .valueError) := by
  haveI : Decidable (Spec.RowsOk lines) := inferInstanceAs (Decidable (∀ r ∈ _, _))
  constructor
  · intro h
    refine ⟨_, _, by rw [zhuyinToPinyin_eq, if_pos h], by rw [pinyinToZhuyin_eq, if_pos h], ?_, ?_⟩
    · intro z; rw [get?_foldl_set]; simp [Dict.get?]
    · intro p
      have : (Spec.tablePairs lines).foldl (fun t p => Dict.set t p.2 p.1) ([] : Dict Str Str) =
          ((Spec.tablePairs lines).map Prod.swap).foldl (fun t p => Dict.set t p.1 p.2) [] := by
        rw [List.foldl_map]; rfl
      rw [this, get?_foldl_set]; simp [Dict.get?]
  · intro h
    exact ⟨by rw [zhuyinToPinyin_eq, if_neg h], by rw [pinyinToZhuyin_eq, if_neg h]⟩

theorem lastValue_eq_some {β : Type} {l : List (Str × β)} (h : (l.map Prod.fst).Nodup) (k : Str) (v : β) :
    Spec.lastValue k l = some v ↔ (k, v) ∈ l := by
  unfold Spec.lastValue
  constructor
  · intro h'
    rw [Option.map_eq_some_iff] at h'
    obtain ⟨⟨a, b⟩, h1, rfl⟩ := h'
    have h2 := List.mem_of_find?_eq_some h1
    have h3 := List.find?_some h1
    simp only [decide_eq_true_eq] at h3
    subst h3
    simpa using h2
  · intro hm
    rw [Option.map_eq_some_iff]
    cases hf : l.reverse.find? (fun p => p.1 = k) with
    | none =>
      rw [List.find?_eq_none] at hf
      exact absurd (by simp) (hf (k, v) (by simpa using hm))
    | some x =>
      obtain ⟨a, b⟩ := x
      have h2 := List.mem_of_find?_eq_some hf
      have h3 := List.find?_some hf
      simp only [decide_eq_true_eq] at h3
      subst h3
      refine ⟨(a, b), rfl, ?_⟩
      rw [List.mem_reverse] at h2
      have key : ∀ {l : List (Str × β)}, (l.map Prod.fst).Nodup → (a, b) ∈ l → (a, v) ∈ l → b = v := by
        intro l
        induction l with
        | nil => intro _ h; cases h
        | cons p l ih =>
          intro hn h1 h2
          rw [List.map_cons, List.nodup_cons] at hn
          rcases List.mem_cons.1 h1 with e1 | h1
          · rcases List.mem_cons.1 h2 with e2 | h2
            · rw [← e1] at e2; cases e2; rfl
            · exact absurd (List.mem_map_of_mem (f := Prod.fst) h2) (by rw [← e1] at hn; exact hn.1)
          · rcases List.mem_cons.1 h2 with e2 | h2
            · exact absurd (List.mem_map_of_mem (f := Prod.fst) h1) (by rw [← e2] at hn; exact hn.1)
            · exact ih hn.2 h1 h2
      exact key h h2 hm

/-- C70: on a file without repeated zhuyin or pinyin the tables are inverse, and contain exactly the pairs of the file. -/
theorem C70_inverse (lines : List Str) (h : Spec.RowsOk lines) (hz : ((Spec.tablePairs lines).map Prod.fst).Nodup)
    (hp : ((Spec.tablePairs lines).map Prod.snd).Nodup) :
    ∃ zp pz, zhuyinToPinyinTable lines = .ok zp ∧ pinyinToZhuyinTable lines = .ok pz ∧
      ∀ z p, (Dict.get? zp z = some p ↔ (z, p) ∈ Spec.tablePairs lines) ∧ (Dict.get? pz p = some z ↔ Dict.get? zp z = some p) := by
  obtain ⟨zp, pz, h1, h2, h3, h4⟩ := (C70_tables lines).1 h
  refine ⟨zp, pz, h1, h2, fun z p => ?_⟩
  have e1 : Dict.get? zp z = some p ↔ (z, p) ∈ Spec.tablePairs lines := by rw [h3, lastValue_eq_some hz]
  refine ⟨e1, ?_⟩
  rw [e1, h4, lastValue_eq_some (by rw [List.map_map]; exact hp)]
  rw [List.mem_map]
  constructor
  · rintro ⟨⟨a, b⟩, hm, he⟩
    cases he; exact hm
  · intro hm; exact ⟨(z, p), hm, rfl⟩

theorem insertLongest_perm (a : Str) (l : List Str) : (insertLongest a l).Perm (a :: l) := by
  induction l with
  | nil => exact List.Perm.refl _
  | cons b l ih =>
    rw [insertLongest]
    split
    · exact List.Perm.refl _
    · exact (ih.cons b).trans (List.Perm.swap a b l)

theorem longestFirst_perm (l : List Str) : (longestFirst l).Perm l := by
  induction l with
  | nil => exact List.Perm.refl _
  | cons a l ih => exact (insertLongest_perm a _).trans (ih.cons a)

theorem insertLongest_sorted (a : Str) (l : List Str) (h : l.Pairwise (fun a b => b.length ≤ a.length)) :
    (insertLongest a l).Pairwise (fun a b => b.length ≤ a.length) := by
  induction l with
  | nil => simp [insertLongest]
  | cons b l ih =>
    rw [List.pairwise_cons] at h
    rw [insertLongest]
    split
    · rename_i hle
      rw [List.pairwise_cons]
      refine ⟨?_, List.pairwise_cons.2 h⟩
      intro x hx
      rcases List.mem_cons.1 hx with rfl | hx
      · exact hle
      · exact Nat.le_trans (h.1 x hx) hle
    · rename_i hle
      rw [List.pairwise_cons]
      refine ⟨?_, ih h.2⟩
      intro x hx
      rcases List.mem_cons.1 ((insertLongest_perm a l).mem_iff.1 hx) with rfl | hx
      · omega
      · exact h.1 x hx

theorem longestFirst_sorted (l : List Str) : (longestFirst l).Pairwise (fun a b => b.length ≤ a.length) := by
  induction l with
  | nil => exact List.Pairwise.nil
  | cons a l ih => exact insertLongest_sorted a _ ih

theorem insertLongest_filter (a : Str) (l : List Str) (n : Nat) :
    (insertLongest a l).filter (fun s => s.length = n) = (a :: l).filter (fun s => s.length = n) := by
  induction l with
  | nil => rfl
  | cons b l ih =>
    rw [insertLongest]
    split
    · rfl
    · rename_i hle
      simp only [List.filter_cons] at ih ⊢
      rw [ih]
      by_cases h1 : b.length = n <;> by_cases h2 : a.length = n <;> simp [h1, h2]
      omega

theorem longestFirst_filter (l : List Str) (n : Nat) :
    (longestFirst l).filter (fun s => s.length = n) = l.filter (fun s => s.length = n) := by
  induction l with
  | nil => rfl
  | cons a l ih =>
    rw [longestFirst, insertLongest_filter]
    simp only [List.filter_cons, ih]

/-- C69: `get_all_pinyin` is `r` and the pinyin of the file in order; `pinyin_regex_pattern` lists them all, longest first, and those
of the same length in the order of the file. -/
theorem C69_pattern (lines : List Str) (h : Spec.RowsOk lines) :
    getAllPinyin lines = .ok ([0x72] :: (Spec.tablePairs lines).map Prod.snd) ∧
    ∃ order : List Str, order.Perm ([0x72] :: (Spec.tablePairs lines).map Prod.snd) ∧
      order.Pairwise (fun a b => b.length ≤ a.length) ∧
      (∀ n, order.filter (fun s => s.length = n) = ([0x72] :: (Spec.tablePairs lines).map Prod.snd).filter (fun s => s.length = n)) ∧
      pinyinRegexPattern lines = .ok ([0x28] ++ join [0x7c] order ++ u!")([0-5]?)") := by
  haveI : Decidable (Spec.RowsOk lines) := inferInstanceAs (Decidable (∀ r ∈ _, _))
  have h1 : getAllPinyin lines = .ok ([0x72] :: (Spec.tablePairs lines).map Prod.snd) := by
    unfold getAllPinyin
    rw [collectPinyin_eq, if_pos h]; rfl
  exact ⟨h1, _, longestFirst_perm _, longestFirst_sorted _, longestFirst_filter _, by unfold pinyinRegexPattern; rw [h1]⟩

/-- C69: a malformed line makes `get_all_pinyin` and the patterns raise ValueError. -/
theorem C69_malformed (lines : List Str) (h : ¬ Spec.RowsOk lines) :
    getAllPinyin lines = .error .valueError ∧ pinyinRegexPattern lines = .error .valueError ∧
    zhuyinRegexPattern lines = .error .valueError := by
  haveI : Decidable (Spec.RowsOk lines) := inferInstanceAs (Decidable (∀ r ∈ _, _))
  have h1 : getAllPinyin lines = .error .valueError := by
    unfold getAllPinyin
    rw [collectPinyin_eq, if_neg h]
  refine ⟨h1, by unfold pinyinRegexPattern; rw [h1], ?_⟩
  unfold zhuyinRegexPattern
  rw [collectPinyin_eq, if_neg h]

/-- A small table file. -/
def demoZhuyin : List Str := [u!"# zhuyin pinyin\n", u!"ㄋㄧ ni\n", u!"ㄋㄧㄡ  niu\n", u!"ㄉㄜ de\n", u!"ㄦ er\n", u!"ㄉㄞ dai"]

example : Spec.RowsOk demoZhuyin := by
  unfold Spec.RowsOk; decide +kernel
example : ((Spec.tablePairs demoZhuyin).map Prod.fst).Nodup := by decide +kernel
example : ((Spec.tablePairs demoZhuyin).map Prod.snd).Nodup := by decide +kernel
example : ¬ Spec.RowsOk [u!"ㄋㄧ ni\n", u!"\n"] := by
  intro h
  exact absurd (h [] (by decide +kernel)) (by decide)
example : pinyinRegexPattern demoZhuyin = .ok u!"(niu|dai|ni|de|er|r)([0-5]?)" := by decide +kernel

end Cjk
