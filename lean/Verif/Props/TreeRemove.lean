import Verif.Props.TreePrograms
/-!
# C128: what adding and removing a child changes
-/

namespace Cjk
open Py
open Spec (nodeKids NodesOk)

/-- The children without the one under a label, in the old order. -/
def Spec.without (label : Str) (kids : List (Str × Nat)) : List (Str × Nat) := kids.filter (fun kc => decide (kc.1 ≠ label))

/-- `c` is a child of `p`. -/
def Spec.IsChild (h : Heap) (p c : Nat) : Prop := ∃ l, (l, c) ∈ nodeKids h p

open Spec (without IsChild)

theorem del_without {d : Dict Str Nat} (hw : Dict.WF d) (l : Str) : Dict.del d l = without l d := by
  induction d with
  | nil => rfl
  | cons kc d ih =>
    have hn : kc.1 ∉ Dict.keys d ∧ Dict.WF d := by
      unfold Dict.WF Dict.keys at hw
      rw [List.map_cons] at hw
      exact List.nodup_cons.1 hw
    unfold without
    by_cases e : kc.1 = l
    · rw [List.filter_cons_of_neg (by simp [e])]
      show (if kc.1 = l then d else _) = _
      rw [if_pos e, List.filter_eq_self.2]
      intro a ha
      refine decide_eq_true ?_
      rintro rfl
      exact hn.1 (e ▸ List.mem_map_of_mem ha)
    · rw [List.filter_cons_of_pos (by simp [e])]
      show (if kc.1 = l then d else kc :: Dict.del d l) = _
      rw [if_neg e, ih hn.2]
      rfl

theorem no_parent_out {h : Heap} (hok : NodesOk h) {c p : Nat} (hc : c < h.length) (e : (h.node c).parent = some p) : p < h.length := by
  have := (hok c hc).2.2
  unfold Spec.nodeUp at this
  rw [e] at this
  exact this _ List.mem_cons_self

theorem isChild_iff {h : Heap} (hok : NodesOk h) {p : Nat} (hp : p < h.length) (c : Nat) :
    IsChild h p c ↔ Dict.get? (h.node p).children (h.node c).label = some c := by
  constructor
  · rintro ⟨l, hl⟩
    have h1 := ((hok p hp).2.1 _ hl).2
    simp only at h1
    rw [h1]
    exact (Dict.get?_eq_some_iff (hok p hp).1 _ _).2 hl
  · intro h1
    exact ⟨_, Dict.mem_of_get?_eq_some h1⟩

theorem kids_updKids (h : Heap) (p : Nat) (hp : p < h.length) (d : Dict Str Nat) (x : Nat) :
    ((h.upd p (fun n => { n with children := d })).node x).children = if x = p then d else (h.node x).children := by
  rw [node_upd _ _ _ _ hp]
  by_cases e : x = p
  · rw [if_pos e, if_pos e.symm]
  · rw [if_neg e, if_neg (Ne.symm e)]

theorem rest_updKids (h : Heap) (p : Nat) (hp : p < h.length) (d : Dict Str Nat) (x : Nat) :
    ((h.upd p (fun n => { n with children := d })).node x).label = (h.node x).label ∧
    ((h.upd p (fun n => { n with children := d })).node x).attrib = (h.node x).attrib ∧
    ((h.upd p (fun n => { n with children := d })).node x).parent = (h.node x).parent := by
  rw [node_upd _ _ _ _ hp]
  split <;> exact ⟨rfl, rfl, rfl⟩

/-- C128: `p.del_child(c)` raises `KeyError` exactly if `p` has no child with the label of `c`, and then nothing has changed.  Otherwise `p` has its
other children in the old order, no other node has other children, no label and no parent changes, and of the attributes only the one of `c` named
`parent`, which is `None`. -/
theorem C128_del_child (h : Heap) (hok : NodesOk h) (p c : Nat) (hp : p < h.length) (hc : c < h.length) :
    (∀ e, delChild h p c = .error e ↔ e = .keyError ∧ ∀ kc ∈ nodeKids h p, kc.1 ≠ (h.node c).label) ∧
    ∀ h', delChild h p c = .ok h' →
      h'.length = h.length ∧ (∀ x, (h'.node x).label = (h.node x).label ∧ (h'.node x).parent = (h.node x).parent) ∧
      (∀ x, nodeKids h' x = if x = p then without (h.node c).label (nodeKids h p) else nodeKids h x) ∧
      ∀ x key, getAttr h' x key = if x = c ∧ key = .str u!"parent" then .ok .none else getAttr h x key := by
  have hnone : Dict.get? (h.node p).children (h.node c).label = none ↔ ∀ kc ∈ nodeKids h p, kc.1 ≠ (h.node c).label := by
    rw [Dict.get?_eq_none_iff]
    constructor
    · intro h1 kc hk e
      exact h1 (e ▸ List.mem_map_of_mem hk)
    · intro h1 h2
      obtain ⟨kc, hk, e⟩ := List.mem_map.1 h2
      exact h1 kc hk e
  unfold delChild delItem
  cases e : Dict.get? (h.node p).children (h.node c).label with
  | none =>
    refine ⟨fun x => ⟨fun hx => ?_, fun hx => ?_⟩, fun h' he => (by cases he)⟩
    · cases hx; exact ⟨rfl, hnone.1 e⟩
    · rw [hx.1]
  | some d =>
    refine ⟨fun x => ⟨fun hx => (by cases hx), fun hx => ?_⟩, ?_⟩
    · rw [hnone.2 hx.2] at e; cases e
    intro h' he
    cases he
    refine ⟨by simp, fun x => ?_, fun x => ?_, fun x key => ?_⟩
    · rw [node_upd _ _ _ _ (by simpa using hc)]
      obtain ⟨g1, _, g3⟩ := rest_updKids h p hp (Dict.del (h.node p).children (h.node c).label) x
      split <;> exact ⟨g1, g3⟩
    · unfold nodeKids
      have hkids := kids_updKids h p hp (Dict.del (h.node p).children (h.node c).label) x
      rw [← del_without (d := (h.node p).children) (hok p hp).1]
      rw [node_upd _ _ _ _ (by simpa using hc)]
      split <;> exact hkids
    · unfold getAttr Dict.getItem
      have hin := (rest_updKids h p hp (Dict.del (h.node p).children (h.node c).label) x).2.1
      rw [node_upd _ _ _ _ (by simpa using hc)]
      by_cases hx : x = c
      · subst hx
        by_cases hk : key = .str u!"parent"
        · subst hk
          simp only [if_true, and_self, Dict.get?_set_self]
        · simp only [if_true, hk, and_false, if_false]
          rw [Dict.get?_set_ne _ _ (Ne.symm hk), hin]
      · simp only [Ne.symm hx, hx, false_and, if_false]
        rw [hin]

/-- C128: `c.unlink()` raises `KeyError` exactly if its parent has children but none with the label of `c`.  Otherwise `c` has no parent afterwards,
its former parent has its other children in the old order, and nothing else changes: no label, no attribute, no other parent and no other children. -/
theorem C128_unlink (h : Heap) (hok : NodesOk h) (c : Nat) (hc : c < h.length) :
    (∀ e, unlink h c = .error e ↔ e = .keyError ∧ ∃ p, (h.node c).parent = some p ∧ nodeKids h p ≠ [] ∧
      ∀ kc ∈ nodeKids h p, kc.1 ≠ (h.node c).label) ∧
    ∀ h', unlink h c = .ok h' →
      h'.length = h.length ∧ (∀ x, (h'.node x).label = (h.node x).label ∧ (h'.node x).attrib = (h.node x).attrib) ∧
      (∀ x, (h'.node x).parent = if x = c then none else (h.node x).parent) ∧
      ∀ x, nodeKids h' x = if (h.node c).parent = some x then without (h.node c).label (nodeKids h x) else nodeKids h x := by
  have only : ∀ h', h' = h.upd c (fun n => { n with parent := none }) → (∀ p, (h.node c).parent = some p → nodeKids h p = []) →
      h'.length = h.length ∧ (∀ x, (h'.node x).label = (h.node x).label ∧ (h'.node x).attrib = (h.node x).attrib) ∧
      (∀ x, (h'.node x).parent = if x = c then none else (h.node x).parent) ∧
      ∀ x, nodeKids h' x = if (h.node c).parent = some x then without (h.node c).label (nodeKids h x) else nodeKids h x := by
    rintro h' rfl hp
    refine ⟨by simp, fun x => ?_, fun x => ?_, fun x => ?_⟩
    · rw [node_upd _ _ _ _ hc]; split <;> exact ⟨rfl, rfl⟩
    · rw [node_upd _ _ _ _ hc]
      by_cases hx : x = c
      · rw [if_pos hx.symm, if_pos hx]
      · rw [if_neg (Ne.symm hx), if_neg hx]
    · have h1 : nodeKids (h.upd c (fun n => { n with parent := none })) x = nodeKids h x := by
        unfold nodeKids
        rw [node_upd _ _ _ _ hc]; split <;> rfl
      rw [h1]
      split
      · rename_i he
        rw [hp x he]; rfl
      · rfl
  unfold unlink
  cases hpar : (h.node c).parent with
  | none =>
    refine ⟨fun x => ⟨fun hx => (by cases hx), fun hx => ?_⟩, fun h' he => ?_⟩
    · obtain ⟨_, p, hp, _⟩ := hx; cases hp
    · cases he
      have := only _ rfl (fun p hp => by rw [hpar] at hp; cases hp)
      rw [hpar] at this
      exact this
  | some p =>
    have hp := no_parent_out hok hc hpar
    simp only
    by_cases hemp : (h.node p).children.isEmpty = true
    · have hnil : nodeKids h p = [] := List.isEmpty_iff.1 hemp
      rw [if_pos hemp]
      refine ⟨fun x => ⟨fun hx => (by cases hx), fun hx => ?_⟩, fun h' he => ?_⟩
      · obtain ⟨_, q, hq, hne, _⟩ := hx
        cases hq
        exact absurd hnil hne
      · cases he
        have := only _ rfl (fun q hq => by rw [hpar] at hq; cases hq; exact hnil)
        rw [hpar] at this
        exact this
    · have hne : nodeKids h p ≠ [] := fun e => hemp (List.isEmpty_iff.2 e)
      rw [if_neg hemp]
      have hnone : Dict.get? (h.node p).children (h.node c).label = none ↔ ∀ kc ∈ nodeKids h p, kc.1 ≠ (h.node c).label := by
        rw [Dict.get?_eq_none_iff]
        constructor
        · intro h1 kc hk e
          exact h1 (e ▸ List.mem_map_of_mem hk)
        · intro h1 h2
          obtain ⟨kc, hk, e⟩ := List.mem_map.1 h2
          exact h1 kc hk e
      unfold delItem
      cases e : Dict.get? (h.node p).children (h.node c).label with
      | none =>
        refine ⟨fun x => ⟨fun hx => ?_, fun hx => ?_⟩, fun h' he => (by cases he)⟩
        · cases hx; exact ⟨rfl, p, rfl, hne, hnone.1 e⟩
        · rw [hx.1]
      | some d =>
        refine ⟨fun x => ⟨fun hx => (by cases hx), fun hx => ?_⟩, fun h' he => ?_⟩
        · obtain ⟨_, q, hq, _, hno⟩ := hx
          cases hq
          rw [hnone.2 hno] at e; cases e
        · cases he
          refine ⟨by simp, fun x => ?_, fun x => ?_, fun x => ?_⟩
          · rw [node_upd _ _ _ _ (by simpa using hc)]
            obtain ⟨g1, g2, _⟩ := rest_updKids h p hp (Dict.del (h.node p).children (h.node c).label) x
            split <;> exact ⟨g1, g2⟩
          · rw [node_upd _ _ _ _ (by simpa using hc)]
            by_cases hx : x = c
            · rw [if_pos hx.symm, if_pos hx]
            · rw [if_neg (Ne.symm hx), if_neg hx]
              exact (rest_updKids h p hp (Dict.del (h.node p).children (h.node c).label) x).2.2
          · have hkids := kids_updKids h p hp (Dict.del (h.node p).children (h.node c).label) x
            have hk' : nodeKids ((h.upd p (fun n => { n with children := Dict.del (h.node p).children (h.node c).label })).upd c
                (fun n => { n with parent := none })) x = if x = p then Dict.del (h.node p).children (h.node c).label else (h.node x).children := by
              unfold nodeKids
              rw [node_upd _ _ _ _ (by simpa using hc)]
              split <;> exact hkids
            rw [hk']
            by_cases hx : x = p
            · subst hx
              rw [if_pos rfl, if_pos rfl]; exact del_without (hok x hp).1 _
            · rw [if_neg hx, if_neg (fun hh => hx (Option.some.inj hh).symm)]; rfl

/-- C128: `p.add_child(c)` never raises.  Afterwards `c` is the child of `p` under its label, where an entry with that label was if there was one, and at
the end otherwise; `p` is the parent of `c`; and nothing else changes. -/
theorem C128_add_child (h : Heap) (p c : Nat) (hp : p < h.length) (hc : c < h.length) :
    (addChild h p c).length = h.length ∧
    (∀ x, ((addChild h p c).node x).label = (h.node x).label ∧ ((addChild h p c).node x).attrib = (h.node x).attrib) ∧
    (∀ x, ((addChild h p c).node x).parent = if x = c then some p else (h.node x).parent) ∧
    (∀ x ≠ p, nodeKids (addChild h p c) x = nodeKids h x) ∧
    (∀ l, Dict.get? (nodeKids (addChild h p c) p) l = if l = (h.node c).label then some c else Dict.get? (nodeKids h p) l) ∧
    (Dict.keys (nodeKids (addChild h p c) p) =
      if (h.node c).label ∈ Dict.keys (nodeKids h p) then Dict.keys (nodeKids h p) else Dict.keys (nodeKids h p) ++ [(h.node c).label]) := by
  have hk : nodeKids (addChild h p c) p = Dict.set (nodeKids h p) (h.node c).label c := by
    unfold addChild nodeKids
    rw [node_upd _ _ _ _ (by simpa using hc), node_upd _ _ _ _ hp]
    rw [if_pos rfl]
    split <;> rfl
  refine ⟨by simp [addChild], fun x => ?_, fun x => ?_, fun x hx => ?_, fun l => ?_, ?_⟩
  · unfold addChild
    rw [node_upd _ _ _ _ (by simpa using hc), node_upd _ _ _ _ hp]
    split <;> split <;> exact ⟨rfl, rfl⟩
  · unfold addChild
    rw [node_upd _ _ _ _ (by simpa using hc), node_upd _ _ _ _ hp]
    by_cases hx : x = c
    · rw [if_pos hx.symm, if_pos hx]
    · rw [if_neg (Ne.symm hx), if_neg hx]
      split <;> rfl
  · unfold addChild nodeKids
    rw [node_upd _ _ _ _ (by simpa using hc), node_upd _ _ _ _ hp]
    rw [if_neg (Ne.symm hx)]
    split <;> rfl
  · rw [hk]
    by_cases e : l = (h.node c).label
    · rw [if_pos e, e, Dict.get?_set_self]
    · rw [if_neg e, Dict.get?_set_ne _ _ (Ne.symm e)]
  · rw [hk, Dict.keys_set]; congr

/-- C128: `p.del_child(c)` succeeds and takes away `c` and no other child exactly if `c` is a child of `p`; `c.unlink()` exactly if `c` is a child of its
parent, or has no parent, or one without children; `p.add_child(c)` takes no other child away exactly if no other child has its label. -/
theorem C128_iff (h : Heap) (hok : NodesOk h) (p c : Nat) (hp : p < h.length) (hc : c < h.length) :
    ((∃ h', delChild h p c = .ok h' ∧ ∀ d, IsChild h' p d ↔ IsChild h p d ∧ d ≠ c) ↔ IsChild h p c) ∧
    ((∃ h', unlink h c = .ok h' ∧ ∀ q d, IsChild h' q d ↔ IsChild h q d ∧ ¬ ((h.node c).parent = some q ∧ d = c)) ↔
      ∀ q, (h.node c).parent = some q → nodeKids h q = [] ∨ IsChild h q c) ∧
    ((∀ d, IsChild (addChild h p c) p d ↔ IsChild h p d ∨ d = c) ↔ ∀ d, IsChild h p d → (h.node d).label = (h.node c).label → d = c) := by
  have hw : ∀ q < h.length, ∀ l d, (l, d) ∈ without (h.node c).label (nodeKids h q) ↔ (l, d) ∈ nodeKids h q ∧ l ≠ (h.node c).label := by
    intro q _ l d
    unfold without
    rw [List.mem_filter, decide_eq_true_iff]
  -- the children that are left when the entry for `c` goes
  have hgo : ∀ q < h.length, IsChild h q c → ∀ d, (∃ l, (l, d) ∈ without (h.node c).label (nodeKids h q)) ↔ IsChild h q d ∧ d ≠ c := by
    intro q hq hch d
    constructor
    · rintro ⟨l, hl⟩
      obtain ⟨h1, h2⟩ := (hw q hq l d).1 hl
      refine ⟨⟨l, h1⟩, ?_⟩
      rintro rfl
      exact h2 ((hok q hq).2.1 _ h1).2.symm
    · rintro ⟨⟨l, hl⟩, hne⟩
      refine ⟨l, (hw q hq l d).2 ⟨hl, ?_⟩⟩
      rintro rfl
      have h1 := (Dict.get?_eq_some_iff (hok q hq).1 _ _).2 hl
      have h2 := (isChild_iff hok hq c).1 hch
      unfold nodeKids at h1
      rw [h1] at h2
      exact hne (Option.some.inj h2)
  -- if something goes without being `c`, then too much goes
  have hbad : ∀ q < h.length, ¬ IsChild h q c → ∀ l d, (l, d) ∈ nodeKids h q → l = (h.node c).label →
      IsChild h q d ∧ d ≠ c ∧ ¬ ∃ l', (l', d) ∈ without (h.node c).label (nodeKids h q) := by
    intro q hq hch l d hd hl
    refine ⟨⟨l, hd⟩, ?_, ?_⟩
    · rintro rfl; exact hch ⟨l, hd⟩
    · rintro ⟨l', h'⟩
      obtain ⟨h1, h2⟩ := (hw q hq l' d).1 h'
      have h3 := ((hok q hq).2.1 _ hd).2
      have h4 := ((hok q hq).2.1 _ h1).2
      simp only at h3 h4
      exact h2 (by rw [← h4, h3, hl])
  obtain ⟨hderr, hdok⟩ := C128_del_child h hok p c hp hc
  obtain ⟨huerr, huok⟩ := C128_unlink h hok c hc
  refine ⟨⟨?_, ?_⟩, ⟨?_, ?_⟩, ?_⟩
  · rintro ⟨h', e, hall⟩
    by_contra hch
    by_cases hex : ∃ kc ∈ nodeKids h p, kc.1 = (h.node c).label
    · obtain ⟨⟨l, d⟩, hd, hl⟩ := hex
      obtain ⟨g1, g2, g3⟩ := hbad p hp hch l d hd hl
      have := (hall d).2 ⟨g1, g2⟩
      unfold IsChild at this
      rw [(hdok h' e).2.2.1 p, if_pos rfl] at this
      exact g3 this
    · have := (hderr .keyError).2 ⟨rfl, fun kc hk hl => hex ⟨kc, hk, hl⟩⟩
      rw [this] at e; cases e
  · intro hch
    cases e : delChild h p c with
    | error x =>
      obtain ⟨l, hl⟩ := hch
      exact absurd ((hok p hp).2.1 _ hl).2.symm (((hderr x).1 e).2 _ hl)
    | ok h' =>
      refine ⟨h', rfl, fun d => ?_⟩
      unfold IsChild
      rw [(hdok h' e).2.2.1 p, if_pos rfl]
      exact hgo p hp hch d
  · rintro ⟨h', e, hall⟩ q hq
    have hql := no_parent_out hok hc hq
    by_cases hnil : nodeKids h q = []
    · exact Or.inl hnil
    right
    by_contra hch
    by_cases hex : ∃ kc ∈ nodeKids h q, kc.1 = (h.node c).label
    · obtain ⟨⟨l, d⟩, hd, hl⟩ := hex
      obtain ⟨g1, g2, g3⟩ := hbad q hql hch l d hd hl
      have := (hall q d).2 ⟨g1, fun hh => g2 hh.2⟩
      unfold IsChild at this
      rw [(huok h' e).2.2.2 q, if_pos hq] at this
      exact g3 this
    · have := (huerr .keyError).2 ⟨rfl, q, hq, hnil, fun kc hk hl => hex ⟨kc, hk, hl⟩⟩
      rw [this] at e; cases e
  · intro hall
    cases e : unlink h c with
    | error x =>
      obtain ⟨_, q, hq, hne, hno⟩ := (huerr x).1 e
      rcases hall q hq with h1 | ⟨l, hl⟩
      · exact absurd h1 hne
      · exact absurd ((hok q (no_parent_out hok hc hq)).2.1 _ hl).2.symm (hno _ hl)
    | ok h' =>
      refine ⟨h', rfl, fun q d => ?_⟩
      have hk := (huok h' e).2.2.2 q
      unfold IsChild at *
      rw [hk]
      by_cases hq : (h.node c).parent = some q
      · rw [if_pos hq]
        rcases hall q hq with h1 | h1
        · rw [h1]
          constructor
          · rintro ⟨l, hl⟩; cases hl
          · rintro ⟨⟨l, hl⟩, _⟩; cases hl
        · rw [hgo q (no_parent_out hok hc hq) h1 d]
          exact ⟨fun hh => ⟨hh.1, fun hh' => hh.2 hh'.2⟩, fun hh => ⟨hh.1, fun e => hh.2 ⟨hq, e⟩⟩⟩
      · rw [if_neg hq]
        exact ⟨fun hh => ⟨hh, fun hh' => hq hh'.1⟩, fun hh => hh.1⟩
  · obtain ⟨_, _, _, _, hget, _⟩ := C128_add_child h p c hp hc
    have hwf' : Dict.WF (nodeKids (addChild h p c) p) := by
      have : nodeKids (addChild h p c) p = Dict.set (nodeKids h p) (h.node c).label c := by
        unfold addChild nodeKids
        rw [node_upd _ _ _ _ (by simpa using hc), node_upd _ _ _ _ hp]
        rw [if_pos rfl]
        split <;> rfl
      rw [this]
      exact Dict.WF_set (hok p hp).1 _ _
    have hch' : ∀ d, IsChild (addChild h p c) p d ↔ ∃ l, (if l = (h.node c).label then some c else Dict.get? (nodeKids h p) l) = some d := by
      intro d
      constructor
      · rintro ⟨l, hl⟩
        exact ⟨l, by rw [← hget]; exact (Dict.get?_eq_some_iff hwf' _ _).2 hl⟩
      · rintro ⟨l, hl⟩
        rw [← hget] at hl
        exact ⟨l, Dict.mem_of_get?_eq_some hl⟩
    have hold : ∀ d, IsChild h p d ↔ Dict.get? (nodeKids h p) (h.node d).label = some d := fun d => isChild_iff hok hp d
    constructor
    · intro hall d hd hlab
      by_contra hne
      obtain ⟨l, hl⟩ := (hch' d).1 ((hall d).2 (Or.inl hd))
      split at hl
      · exact hne (Option.some.inj hl).symm
      · rename_i hl'
        have := ((hok p hp).2.1 _ (Dict.mem_of_get?_eq_some hl)).2
        simp only at this
        exact hl' (by rw [← this, hlab])
    · intro hall d
      rw [hch']
      constructor
      · rintro ⟨l, hl⟩
        split at hl
        · exact Or.inr (Option.some.inj hl).symm
        · exact Or.inl ⟨l, Dict.mem_of_get?_eq_some hl⟩
      · rintro (hd | rfl)
        · by_cases hlab : (h.node d).label = (h.node c).label
          · have := hall d hd hlab
            subst this
            exact ⟨_, if_pos rfl⟩
          · exact ⟨_, by rw [if_neg hlab]; exact (hold d).1 hd⟩
        · exact ⟨_, if_pos rfl⟩

/-- C128 is false in general.  After `a.add_child(b)` and `a.add_child(b2)`, where `b2` has the label of `b`, `b2` has replaced `b`; `b.unlink()` then takes
`b2` away from `a`. -/
theorem C128_refuted : ∃ ops : List TreeOp, TreeOp.allInHeap [] ops ∧ IsChild (TreeOp.run [] ops) 0 2 ∧ ¬ IsChild (TreeOp.run [] ops) 0 1 ∧
    ∃ h', unlink (TreeOp.run [] ops) 1 = .ok h' ∧ ¬ IsChild h' 0 2 := by
  refine ⟨[.new u!"a" [], .new u!"b" [], .new u!"b" [], .add 0 1, .add 0 2], by decide +kernel, ⟨u!"b", by decide +kernel⟩, ?_,
    [⟨u!"a", [], [], none⟩, ⟨u!"b", [], [], none⟩, ⟨u!"b", [], [], some 0⟩], by decide +kernel, ?_⟩
  · rintro ⟨l, hl⟩
    have : nodeKids (TreeOp.run [] [.new u!"a" [], .new u!"b" [], .new u!"b" [], .add 0 1, .add 0 2]) 0 = [(u!"b", 2)] := by decide +kernel
    rw [this] at hl
    simp at hl
  · rintro ⟨l, hl⟩
    have : nodeKids [⟨u!"a", [], [], none⟩, ⟨u!"b", [], [], none⟩, ⟨u!"b", [], [], some 0⟩] 0 = [] := by decide +kernel
    rw [this] at hl
    cases hl

/-- C128 is false also without equal labels: after `p.del_child(c)`, `c.unlink()` raises `KeyError` if `p` has other children, since `c` still
has its parent. -/
theorem C128_del_then_unlink (h : Heap) (hok : NodesOk h) (p c : Nat) (hp : p < h.length) (hc : c < h.length) (hpar : (h.node c).parent = some p)
    (h' : Heap) (e : delChild h p c = .ok h') :
    unlink h' c = .error .keyError ↔ ∃ kc ∈ nodeKids h p, kc.1 ≠ (h.node c).label := by
  obtain ⟨hlen, hlp, hk, _⟩ := (C128_del_child h hok p c hp hc).2 h' e
  have hok' : NodesOk h' := by
    have := nodesOk_step h hok (.del p c) ⟨hp, hc⟩
    simp only [TreeOp.step, e] at this
    exact this
  rw [(C128_unlink h' hok' c (by omega)).1]
  rw [(hlp c).2, (hlp c).1, hpar]
  constructor
  · rintro ⟨_, q, hq, hne, _⟩
    cases hq
    rw [hk p, if_pos rfl] at hne
    obtain ⟨kc, hkc⟩ := List.exists_mem_of_ne_nil _ hne
    unfold without at hkc
    rw [List.mem_filter, decide_eq_true_iff] at hkc
    exact ⟨kc, hkc.1, hkc.2⟩
  · rintro ⟨kc, hkc, hne⟩
    refine ⟨rfl, p, rfl, ?_, ?_⟩
    · rw [hk p, if_pos rfl]
      apply List.ne_nil_of_mem (a := kc)
      unfold without
      rw [List.mem_filter, decide_eq_true_iff]
      exact ⟨hkc, hne⟩
    · intro kc' h1
      rw [hk p, if_pos rfl] at h1
      unfold without at h1
      rw [List.mem_filter, decide_eq_true_iff] at h1
      exact h1.2

/-- A heap with shared labels that meets the hypotheses, on which all outcomes occur. -/
example : NodesOk (TreeOp.run [] demoOps) := C121_nodes_ok _ (by decide +kernel)
example : (delChild (TreeOp.run [] [.new u!"a" [], .new u!"b" [], .new u!"c" [], .add 0 1, .add 0 2]) 0 1).map (fun h => h.map TNode.children) =
    .ok [[(u!"c", 2)], [], []] := by decide +kernel

end Cjk
