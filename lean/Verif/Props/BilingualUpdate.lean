import Verif.Model.BilingualDict
/-!
# C82: updating one bilingual dictionary with another
-/

namespace Cjk
open Py

theorem keys_update_nodup {K V : Type} [DecidableEq K] (d : Dict K V) (l : List (K × V)) (hl : (l.map Prod.fst).Nodup) :
    Dict.keys (Dict.update d l) = Dict.keys d ++ (l.map Prod.fst).filter (fun k => decide (k ∉ Dict.keys d)) := by
  induction l generalizing d with
  | nil => simp [Dict.update_nil]
  | cons a l ih =>
    simp only [List.map_cons, List.nodup_cons] at hl
    rw [Dict.update_cons, ih _ hl.2, Dict.keys_set]
    by_cases h : a.1 ∈ Dict.keys d
    · simp [h]
    · simp only [h, if_false, List.map_cons, List.filter_cons, not_false_eq_true, decide_true, if_true, List.append_assoc,
        List.singleton_append]
      congr 2
      apply List.filter_congr
      intro k hk
      have : k ≠ a.1 := by rintro rfl; exact hl.1 hk
      simp [this]

theorem get?_update_nodup {K V : Type} [DecidableEq K] (d rhs : Dict K V) (hr : Dict.WF rhs) (k : K) :
    Dict.get? (Dict.update d rhs) k = (Dict.get? rhs k).or (Dict.get? d k) := by
  rw [Dict.get?_update]
  cases hf : rhs.reverse.find? (fun kv => kv.1 == k) with
  | some kv =>
    have h1 := List.mem_of_find?_eq_some hf
    have h2 := List.find?_some hf
    simp only [beq_iff_eq] at h2
    have : Dict.get? rhs k = some kv.2 := (Dict.get?_eq_some_iff hr k kv.2).2 (by
      rw [← h2]; simpa using h1)
    simp [this]
  | none =>
    have : Dict.get? rhs k = none := by
      rw [Dict.get?_eq_none_iff]
      intro hk
      obtain ⟨kv, h1, h2⟩ := List.mem_map.1 hk
      have := List.find?_eq_none.1 hf kv (by simpa using h1)
      simp [h2] at this
    simp [this]

/-- C82: with the default policy every word of the argument gets the argument's entry (the old entry of the word is replaced, not
merged), every other word keeps its own; the words known before keep their places and the new ones follow in the argument's order. -/
theorem C82_overwrite (d rhs : Dict Str Entry) (hd : Dict.WF d) (hr : Dict.WF rhs) :
    ∃ d', bilingualUpdate d rhs .overwrite = .ok d' ∧ Dict.WF d' ∧
      (∀ w e, Dict.get? rhs w = some e → Dict.get? d' w = some e) ∧
      (∀ w, Dict.get? rhs w = none → Dict.get? d' w = Dict.get? d w) ∧
      Dict.keys d' = Dict.keys d ++ (Dict.keys rhs).filter (fun w => decide (w ∉ Dict.keys d)) := by
  refine ⟨_, rfl, Dict.WF_update hd rhs, ?_, ?_, by rw [keys_update_nodup d rhs hr]; congr; funext k; congr⟩
  · intro w e h; rw [get?_update_nodup d rhs hr, h]; rfl
  · intro w h; rw [get?_update_nodup d rhs hr, h]; rfl

/-- C82: the policy `Merge` is refused, whatever the two dictionaries contain (also when no word clashes). -/
theorem C82_merge (d rhs : Dict Str Entry) : bilingualUpdate d rhs .merge = .error .notYetImplementedError := rfl

/-- C82: after updating with any sequence of dictionaries, a word has the entry of the last dictionary that contains it. -/
theorem C82_sequence (d : Dict Str Entry) (rs : List (Dict Str Entry)) (hd : Dict.WF d) (hr : ∀ r ∈ rs, Dict.WF r) :
    ∃ d', rs.foldlM (fun d r => bilingualUpdate d r .overwrite) d = .ok d' ∧ Dict.WF d' ∧
      ∀ w, Dict.get? d' w = ((d :: rs).filterMap (fun r => Dict.get? r w)).getLast? := by
  induction rs generalizing d with
  | nil =>
    refine ⟨d, rfl, hd, fun w => ?_⟩
    cases h : Dict.get? d w <;> simp [h]
  | cons r rs ih =>
    obtain ⟨d', h1, h2, h3⟩ := ih (Dict.update d r) (Dict.WF_update hd r) (fun x hx => hr x (by simp [hx]))
    refine ⟨d', ?_, h2, fun w => ?_⟩
    · simp only [List.foldlM_cons, bilingualUpdate, Bind.bind, Except.bind]
      exact h1
    · rw [h3 w]
      simp only [List.filterMap_cons, get?_update_nodup d r (hr r (by simp))]
      cases hd' : Dict.get? d w <;> cases hr' : Dict.get? r w <;> simp [List.getLast?_cons_cons]

/-- The hypotheses are satisfiable with a clash and the entry is replaced, not merged. -/
example : bilingualUpdate [(u!"A", ⟨u!"A", [u!"a"], [u!"x"]⟩), (u!"B", ⟨u!"B", [u!"b"], [u!"y"]⟩)]
    [(u!"C", ⟨u!"C", [u!"c"], [u!"z"]⟩), (u!"A", ⟨u!"A", [u!"a"], [u!"w"]⟩)] .overwrite =
    .ok [(u!"A", ⟨u!"A", [u!"a"], [u!"w"]⟩), (u!"B", ⟨u!"B", [u!"b"], [u!"y"]⟩), (u!"C", ⟨u!"C", [u!"c"], [u!"z"]⟩)] := by
  decide +kernel

end Cjk
