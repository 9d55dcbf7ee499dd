import Verif.Py.Base
/-!
# Python dictionaries

A `dict` is an association list in insertion order (CPython >= 3.7).  `Dict.WF` says that the
keys are distinct; every operation preserves it.  A statement about every well-formed association
list covers every iteration order.
-/

set_option linter.unusedSectionVars false

namespace Py

/-- A Python dictionary: its `items()` in iteration order. -/
abbrev Dict (K V : Type _) := List (K × V)

namespace Dict
variable {K V W : Type _} [DecidableEq K]

/-- `d.get(k)`; `none` when the key is missing. -/
def get? : Dict K V → K → Option V
  | [], _ => none
  | (k', v) :: d, k => if k' = k then some v else get? d k

/-- `d[k]` -/
def getItem (d : Dict K V) (k : K) : Except PyErr V :=
  match get? d k with
  | some v => .ok v
  | none => .error .keyError

/-- `k in d` -/
def contains (d : Dict K V) (k : K) : Bool := (get? d k).isSome

/-- `d[k] = v`: an existing key keeps its place, a new one goes to the end. -/
def set : Dict K V → K → V → Dict K V
  | [], k, v => [(k, v)]
  | (k', v') :: d, k, v => if k' = k then (k', v) :: d else (k', v') :: set d k v

/-- `del d[k]` for a key that is present (no effect otherwise). -/
def del : Dict K V → K → Dict K V
  | [], _ => []
  | (k', v') :: d, k => if k' = k then d else (k', v') :: del d k

/-- `d.keys()` -/
def keys (d : Dict K V) : List K := d.map Prod.fst

/-- `d.values()` -/
def values (d : Dict K V) : List V := d.map Prod.snd

/-- `d.update(items)` -/
def update (d : Dict K V) (items : List (K × V)) : Dict K V :=
  items.foldl (fun d kv => set d kv.1 kv.2) d

/-- `dict(items)` -/
def ofList (items : List (K × V)) : Dict K V := update [] items

/-- The keys are distinct. -/
def WF (d : Dict K V) : Prop := (keys d).Nodup

instance (d : Dict K V) : Decidable (WF d) := inferInstanceAs (Decidable (List.Nodup _))

/-! ### Basic facts -/

@[simp] theorem get?_nil (k : K) : get? ([] : Dict K V) k = none := rfl

theorem get?_cons (k' : K) (v : V) (d : Dict K V) (k : K) :
    get? ((k', v) :: d) k = if k' = k then some v else get? d k := rfl

@[simp] theorem keys_nil : keys ([] : Dict K V) = [] := rfl
@[simp] theorem keys_cons (kv : K × V) (d : Dict K V) : keys (kv :: d) = kv.1 :: keys d := rfl
@[simp] theorem values_nil : values ([] : Dict K V) = [] := rfl
@[simp] theorem values_cons (kv : K × V) (d : Dict K V) : values (kv :: d) = kv.2 :: values d := rfl

theorem WF_nil : WF ([] : Dict K V) := by simp [WF]

theorem WF_cons {kv : K × V} {d : Dict K V} : WF (kv :: d) ↔ kv.1 ∉ keys d ∧ WF d := by
  simp [WF]

theorem get?_set (d : Dict K V) (k k' : K) (v : V) :
    get? (set d k v) k' = if k = k' then some v else get? d k' := by
  induction d with
  | nil => simp [set, get?]
  | cons a d ih =>
    obtain ⟨a, w⟩ := a
    simp only [set]
    split <;> rename_i h
    · subst h; simp only [get?]; split <;> simp_all
    · simp only [get?, ih]; split <;> split <;> simp_all

@[simp] theorem get?_set_self (d : Dict K V) (k : K) (v : V) : get? (set d k v) k = some v := by
  simp [get?_set]

theorem get?_set_ne (d : Dict K V) {k k' : K} (v : V) (h : k ≠ k') :
    get? (set d k v) k' = get? d k' := by simp [get?_set, h]

theorem get?_eq_none_iff (d : Dict K V) (k : K) : get? d k = none ↔ k ∉ keys d := by
  induction d with
  | nil => simp
  | cons a d ih =>
    obtain ⟨a, w⟩ := a
    by_cases h : a = k
    · simp [get?, h]
    · simp [get?, h, ih, Ne.symm h]

theorem get?_isSome_iff (d : Dict K V) (k : K) : (get? d k).isSome ↔ k ∈ keys d := by
  have := get?_eq_none_iff d k
  cases h : get? d k <;> simp_all

theorem contains_iff (d : Dict K V) (k : K) : contains d k = true ↔ k ∈ keys d :=
  get?_isSome_iff d k

theorem keys_set (d : Dict K V) (k : K) (v : V) :
    keys (set d k v) = if k ∈ keys d then keys d else keys d ++ [k] := by
  induction d with
  | nil => simp [set]
  | cons a d ih =>
    obtain ⟨a, w⟩ := a
    by_cases h : a = k
    · simp [set, h]
    · simp only [set, h, if_false, keys_cons, ih, List.mem_cons, Ne.symm h, false_or]
      split <;> simp

theorem mem_keys_set (d : Dict K V) (k k' : K) (v : V) :
    k' ∈ keys (set d k v) ↔ k' = k ∨ k' ∈ keys d := by
  rw [keys_set]; split
  · constructor
    · exact Or.inr
    · rintro (h | h)
      · subst h; assumption
      · exact h
  · simp [or_comm]

theorem WF_set {d : Dict K V} (h : WF d) (k : K) (v : V) : WF (set d k v) := by
  unfold WF at *
  rw [keys_set]; split
  · exact h
  · rename_i hk
    rw [List.nodup_append]
    refine ⟨h, by simp, ?_⟩
    intro a ha b hb
    simp at hb; subst hb; intro hab; subst hab; exact hk ha

theorem mem_of_get?_eq_some {d : Dict K V} {k : K} {v : V} (h : get? d k = some v) : (k, v) ∈ d := by
  induction d with
  | nil => simp at h
  | cons a d ih =>
    obtain ⟨a, w⟩ := a
    simp only [get?] at h
    split at h
    · simp_all
    · exact List.mem_cons_of_mem _ (ih h)

theorem get?_eq_some_iff {d : Dict K V} (hd : WF d) (k : K) (v : V) :
    get? d k = some v ↔ (k, v) ∈ d := by
  refine ⟨mem_of_get?_eq_some, fun h => ?_⟩
  induction d with
  | nil => simp at h
  | cons a d ih =>
    obtain ⟨a, w⟩ := a
    rw [WF_cons] at hd
    simp only [List.mem_cons, Prod.mk.injEq] at h
    simp only [get?]
    rcases h with ⟨rfl, rfl⟩ | h
    · simp
    · have hk : k ∈ keys d := List.mem_map.mpr ⟨(k, v), h, rfl⟩
      have : a ≠ k := by rintro rfl; exact hd.1 hk
      simp [this, ih hd.2 h]

theorem mem_keys_iff (d : Dict K V) (k : K) : k ∈ keys d ↔ ∃ v, (k, v) ∈ d := by
  simp [keys]

/-- Two well-formed dictionaries with the same items have the same lookups. -/
theorem get?_congr_of_mem {d d' : Dict K V} (hd : WF d) (hd' : WF d')
    (h : ∀ kv, kv ∈ d ↔ kv ∈ d') (k : K) : get? d k = get? d' k := by
  cases hg : get? d' k with
  | none =>
    rw [get?_eq_none_iff] at *
    intro hk; obtain ⟨v, hv⟩ := (mem_keys_iff _ _).1 hk
    exact hg ((mem_keys_iff _ _).2 ⟨v, (h _).1 hv⟩)
  | some v => rw [get?_eq_some_iff hd]; rw [get?_eq_some_iff hd'] at hg; exact (h _).2 hg

theorem get?_perm {d d' : Dict K V} (hd : WF d) (hp : d.Perm d') (k : K) : get? d k = get? d' k := by
  apply get?_congr_of_mem hd
  · unfold WF keys at *; exact (hp.map _).nodup_iff.1 hd
  · intro kv; exact hp.mem_iff

theorem update_nil (d : Dict K V) : update d [] = d := rfl
theorem update_cons (d : Dict K V) (kv : K × V) (l : List (K × V)) :
    update d (kv :: l) = update (set d kv.1 kv.2) l := rfl
theorem update_append (d : Dict K V) (l l' : List (K × V)) :
    update d (l ++ l') = update (update d l) l' := by simp [update, List.foldl_append]

theorem WF_update {d : Dict K V} (h : WF d) (l : List (K × V)) : WF (update d l) := by
  induction l generalizing d with
  | nil => exact h
  | cons a l ih => rw [update_cons]; exact ih (WF_set h _ _)

theorem WF_ofList (l : List (K × V)) : WF (ofList l) := WF_update WF_nil l

theorem mem_keys_update (d : Dict K V) (l : List (K × V)) (k : K) :
    k ∈ keys (update d l) ↔ k ∈ keys d ∨ k ∈ l.map Prod.fst := by
  induction l generalizing d with
  | nil => simp [update_nil]
  | cons a l ih => rw [update_cons, ih, mem_keys_set]; simp only [List.map_cons, List.mem_cons]; grind

/-- `update` gives each key the value of its last pair. -/
theorem get?_update (d : Dict K V) (l : List (K × V)) (k : K) :
    get? (update d l) k = (match (l.reverse.find? (fun kv => kv.1 == k)) with
      | some kv => some kv.2 | none => get? d k) := by
  induction l generalizing d with
  | nil => simp [update_nil]
  | cons a l ih =>
    rw [update_cons, ih]
    simp only [List.reverse_cons, List.find?_append, List.find?_cons, List.find?_nil]
    cases hf : l.reverse.find? (fun kv => kv.1 == k) with
    | some kv => simp
    | none =>
      simp only [Option.none_or, get?_set]
      by_cases h : a.1 = k
      · simp [h]
      · have : (a.1 == k) = false := by simp [h]
        simp [h, this]

/-- The same, by the last matching pair. -/
theorem get?_update_last (d : Dict K V) (l : List (K × V)) (k : K) :
    get? (update d l) k = ((l.filter (fun kv => kv.1 = k)).getLast?.map Prod.snd).or (get? d k) := by
  induction l generalizing d with
  | nil => simp [update_nil]
  | cons a l ih =>
    rw [update_cons, ih, get?_set]
    by_cases h : a.1 = k
    · rw [List.filter_cons_of_pos (by simp [h])]
      cases hl : (l.filter (fun kv => kv.1 = k)) with
      | nil => simp [h]
      | cons b bs => simp [List.getLast?_eq_some_getLast]
    · rw [List.filter_cons_of_neg (by simp [h])]
      simp [h]

theorem set_of_not_mem (d : Dict K V) (k : K) (v : V) (h : k ∉ keys d) : set d k v = d ++ [(k, v)] := by
  induction d with
  | nil => rfl
  | cons a d ih =>
    obtain ⟨a, w⟩ := a
    simp only [keys_cons, List.mem_cons, not_or] at h
    simp [set, Ne.symm h.1, ih h.2]

theorem update_eq_append (d : Dict K V) (l : List (K × V)) (hl : (l.map Prod.fst).Nodup)
    (hd : ∀ k ∈ l.map Prod.fst, k ∉ keys d) : update d l = d ++ l := by
  induction l generalizing d with
  | nil => simp [update_nil]
  | cons a l ih =>
    rw [update_cons, set_of_not_mem _ _ _ (hd a.1 (by simp)), ih _ (List.nodup_cons.1 hl).2]
    · simp
    · intro k hk
      simp only [keys, List.map_append, List.map_cons, List.map_nil, List.mem_append, List.mem_singleton, not_or]
      refine ⟨hd k (by simp [hk]), ?_⟩
      rintro rfl; exact (List.nodup_cons.1 hl).1 hk

theorem ofList_of_nodup (l : List (K × V)) (hl : (l.map Prod.fst).Nodup) : ofList l = l := by
  have := update_eq_append ([] : Dict K V) l hl (by simp)
  simpa [ofList] using this

theorem get?_del {d : Dict K V} (h : WF d) (k k' : K) :
    get? (del d k) k' = if k = k' then none else get? d k' := by
  induction d with
  | nil => simp [del]
  | cons a d ih =>
    obtain ⟨a, w⟩ := a
    rw [WF_cons] at h
    simp only [del]
    split <;> rename_i hk
    · subst hk
      split <;> rename_i hk'
      · subst hk'; rw [get?_eq_none_iff]; exact h.1
      · simp [get?, hk']
    · simp only [get?, ih h.2]; split <;> split <;> simp_all

theorem del_sublist (d : Dict K V) (k : K) : (del d k).Sublist d := by
  induction d with
  | nil => simp [del]
  | cons a d ih =>
    simp only [del]; split
    · exact List.sublist_cons_self _ _
    · exact ih.cons_cons _

theorem WF_del {d : Dict K V} (h : WF d) (k : K) : WF (del d k) :=
  List.Sublist.nodup ((del_sublist d k).map _) h

end Dict
end Py
