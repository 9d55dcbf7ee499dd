import Verif.Model.TreeGiven
import Verif.Props.TreePrograms
/-!
# C142: which tree nodes share dictionaries
-/

namespace Cjk
open Py
open Spec (nodeKids)

namespace TObjs

/-- The dictionaries that the nodes refer to. -/
def refs (w : TObjs) : List (Nat × Nat) := w.nodes.map (fun n => (n.kids, n.attr))

/-- Nodes refer to dictionaries that exist. -/
def Ok (w : TObjs) : Prop := ∀ x ∈ w.refs, x.1 < w.kidDicts.length ∧ x.2 < w.attrDicts.length

/-- The nodes from `n0` on share their dictionaries with no node. -/
def Own (n0 : Nat) (w : TObjs) : Prop :=
  ∀ (i j : Nat) (x y : Nat × Nat), n0 ≤ i → w.refs[i]? = some x → w.refs[j]? = some y → i ≠ j → x.1 ≠ y.1 ∧ x.2 ≠ y.2

theorem refs_get (w : TObjs) (i : Nat) : w.refs[i]? = w.nodes[i]?.map (fun n => (n.kids, n.attr)) := by
  unfold refs; rw [List.getElem?_map]

theorem refs_length (w : TObjs) : w.refs.length = w.nodes.length := by simp [refs]

theorem view_get (w : TObjs) (i : Nat) : w.view[i]? = w.nodes[i]?.map w.shown := by
  unfold view; rw [List.getElem?_map]

@[simp] theorem view_length (w : TObjs) : w.view.length = w.nodes.length := by simp [view]

theorem view_node (w : TObjs) {i : Nat} {n : TObj} (h : w.nodes[i]? = some n) : w.view.node i = w.shown n := by
  unfold Heap.node; rw [view_get, h]; rfl

/-! ### Changing dictionaries -/

theorem kidsAt_changeKids (w : TObjs) (d e : Nat) (f : Dict Str Nat → Dict Str Nat) (he : e < w.kidDicts.length) :
    (w.changeKids d f).kidsAt e = if d = e then f (w.kidsAt e) else w.kidsAt e := by
  unfold changeKids kidsAt
  simp only [List.getElem?_modify, List.getElem?_eq_getElem he]
  by_cases h : d = e <;> simp [h]

theorem attrAt_changeAttr (w : TObjs) (d e : Nat) (f : Attrib → Attrib) (he : e < w.attrDicts.length) :
    (w.changeAttr d f).attrAt e = if d = e then f (w.attrAt e) else w.attrAt e := by
  unfold changeAttr attrAt
  simp only [List.getElem?_modify, List.getElem?_eq_getElem he]
  by_cases h : d = e <;> simp [h]

@[simp] theorem refs_changeKids (w : TObjs) (d : Nat) (f) : (w.changeKids d f).refs = w.refs := rfl
@[simp] theorem refs_changeAttr (w : TObjs) (d : Nat) (f) : (w.changeAttr d f).refs = w.refs := rfl

@[simp] theorem refs_setParent (w : TObjs) (r : Nat) (p : Option Nat) : (w.setParent r p).refs = w.refs := by
  apply List.ext_getElem?
  intro i
  rw [refs_get, refs_get]
  unfold setParent
  simp only [List.getElem?_modify]
  by_cases h : r = i
  · subst h; cases w.nodes[r]? <;> simp
  · simp [h]

@[simp] theorem refs_changeKidsOf (w : TObjs) (r : Nat) (f) : (w.changeKidsOf r f).refs = w.refs := by
  unfold changeKidsOf; cases w.nodes[r]? <;> rfl

@[simp] theorem refs_changeAttrOf (w : TObjs) (r : Nat) (f) : (w.changeAttrOf r f).refs = w.refs := by
  unfold changeAttrOf; cases w.nodes[r]? <;> rfl

theorem changeKidsOf_nodes (w : TObjs) (r : Nat) (f) : (w.changeKidsOf r f).nodes = w.nodes := by
  unfold changeKidsOf; cases w.nodes[r]? <;> rfl

theorem changeAttrOf_nodes (w : TObjs) (r : Nat) (f) : (w.changeAttrOf r f).nodes = w.nodes := by
  unfold changeAttrOf; cases w.nodes[r]? <;> rfl

theorem changeKidsOf_attrDicts (w : TObjs) (r : Nat) (f) : (w.changeKidsOf r f).attrDicts = w.attrDicts := by
  unfold changeKidsOf; cases w.nodes[r]? <;> rfl

theorem changeAttrOf_kidDicts (w : TObjs) (r : Nat) (f) : (w.changeAttrOf r f).kidDicts = w.kidDicts := by
  unfold changeAttrOf; cases w.nodes[r]? <;> rfl

theorem changeKidsOf_kidLength (w : TObjs) (r : Nat) (f) : (w.changeKidsOf r f).kidDicts.length = w.kidDicts.length := by
  unfold changeKidsOf changeKids; cases w.nodes[r]? <;> simp

theorem changeAttrOf_attrLength (w : TObjs) (r : Nat) (f) : (w.changeAttrOf r f).attrDicts.length = w.attrDicts.length := by
  unfold changeAttrOf changeAttr; cases w.nodes[r]? <;> simp

theorem Ok.of {w w' : TObjs} (h : w.Ok) (h1 : w'.refs = w.refs) (h2 : w.kidDicts.length ≤ w'.kidDicts.length) (h3 : w.attrDicts.length ≤ w'.attrDicts.length) :
    w'.Ok := by
  intro x hx
  rw [h1] at hx
  have := h x hx
  omega

theorem Ok.changeKidsOf {w : TObjs} (h : w.Ok) (r : Nat) (f) : (w.changeKidsOf r f).Ok :=
  h.of (by simp) (by rw [changeKidsOf_kidLength]) (by rw [changeKidsOf_attrDicts])

theorem Ok.changeAttrOf {w : TObjs} (h : w.Ok) (r : Nat) (f) : (w.changeAttrOf r f).Ok :=
  h.of (by simp) (by rw [changeAttrOf_kidDicts]) (by rw [changeAttrOf_attrLength])

theorem Ok.setParent {w : TObjs} (h : w.Ok) (r : Nat) (p) : (w.setParent r p).Ok :=
  h.of (by simp) (Nat.le_refl _) (Nat.le_refl _)

theorem Own.of {n0 : Nat} {w w' : TObjs} (h : w.Own n0) (h1 : w'.refs = w.refs) : w'.Own n0 := by
  unfold Own; rw [h1]; exact h

theorem Ok.get {w : TObjs} (h : w.Ok) {i : Nat} {n : TObj} (hn : w.nodes[i]? = some n) : n.kids < w.kidDicts.length ∧ n.attr < w.attrDicts.length :=
  h (n.kids, n.attr) (List.mem_map.2 ⟨n, List.mem_of_getElem? hn, rfl⟩)

/-- A change of a dictionary of children looks like a change of one node exactly if no other node shows it. -/
theorem view_changeKidsOf_iff {w : TObjs} (hok : w.Ok) {p : Nat} {np : TObj} (hp : w.nodes[p]? = some np) (f : Dict Str Nat → Dict Str Nat) :
    (w.changeKidsOf p f).view = w.view.upd p (fun n => { n with children := f n.children }) ↔
      ∀ q nq, q ≠ p → w.nodes[q]? = some nq → nq.kids = np.kids → f (w.kidsAt np.kids) = w.kidsAt np.kids := by
  have hget : ∀ i : Nat, (w.changeKidsOf p f).view[i]? =
      w.nodes[i]?.map (fun n : TObj => (⟨n.label, if np.kids = n.kids then f (w.kidsAt n.kids) else w.kidsAt n.kids, w.attrAt n.attr, n.parent⟩ : TNode)) := by
    intro i
    rw [view_get, changeKidsOf_nodes]
    cases hi : w.nodes[i]? with
    | none => rfl
    | some n =>
      simp only [Option.map_some, Option.some.injEq]
      unfold changeKidsOf
      rw [hp]
      simp only [shown]
      rw [kidsAt_changeKids _ _ _ _ (hok.get hi).1]
      rfl
  constructor
  · intro h q nq hq hn hk
    have := congrArg (fun l : Heap => l[q]?) h
    simp only [hget, upd_getElem?, if_neg (Ne.symm hq), view_get, hn, Option.map_some, Option.some.injEq, shown, TNode.mk.injEq, hk, if_pos] at this
    exact this.2.1
  · intro h
    apply List.ext_getElem?
    intro i
    rw [hget, upd_getElem?, view_get]
    cases hi : w.nodes[i]? with
    | none => simp
    | some n =>
      by_cases e : p = i
      · subst e
        rw [hp] at hi
        cases hi
        simp [shown]
      · simp only [if_neg e, Option.map_some, Option.some.injEq, shown, TNode.mk.injEq, true_and, and_true]
        by_cases hk : np.kids = n.kids
        · rw [if_pos hk, ← hk]; exact h i n (Ne.symm e) hi hk.symm
        · rw [if_neg hk]

theorem view_changeAttrOf_iff {w : TObjs} (hok : w.Ok) {p : Nat} {np : TObj} (hp : w.nodes[p]? = some np) (f : Attrib → Attrib) :
    (w.changeAttrOf p f).view = w.view.upd p (fun n => { n with attrib := f n.attrib }) ↔
      ∀ q nq, q ≠ p → w.nodes[q]? = some nq → nq.attr = np.attr → f (w.attrAt np.attr) = w.attrAt np.attr := by
  have hget : ∀ i : Nat, (w.changeAttrOf p f).view[i]? =
      w.nodes[i]?.map (fun n : TObj => (⟨n.label, w.kidsAt n.kids, if np.attr = n.attr then f (w.attrAt n.attr) else w.attrAt n.attr, n.parent⟩ : TNode)) := by
    intro i
    rw [view_get, changeAttrOf_nodes]
    cases hi : w.nodes[i]? with
    | none => rfl
    | some n =>
      simp only [Option.map_some, Option.some.injEq]
      unfold changeAttrOf
      rw [hp]
      simp only [shown]
      rw [attrAt_changeAttr _ _ _ _ (hok.get hi).2]
      rfl
  constructor
  · intro h q nq hq hn hk
    have := congrArg (fun l : Heap => l[q]?) h
    simp only [hget, upd_getElem?, if_neg (Ne.symm hq), view_get, hn, Option.map_some, Option.some.injEq, shown, TNode.mk.injEq, hk, if_pos] at this
    exact this.2.2.1
  · intro h
    apply List.ext_getElem?
    intro i
    rw [hget, upd_getElem?, view_get]
    cases hi : w.nodes[i]? with
    | none => simp
    | some n =>
      by_cases e : p = i
      · subst e
        rw [hp] at hi
        cases hi
        simp [shown]
      · simp only [if_neg e, Option.map_some, Option.some.injEq, shown, TNode.mk.injEq, true_and, and_true]
        by_cases hk : np.attr = n.attr
        · rw [if_pos hk, ← hk]; exact h i n (Ne.symm e) hi hk.symm
        · rw [if_neg hk]

theorem upd_beyond (h : Heap) {r : Nat} (hr : h[r]? = none) (f : TNode → TNode) : h.upd r f = h := by
  apply List.ext_getElem?
  intro i
  rw [upd_getElem?]
  by_cases e : r = i
  · subst e; simp [hr]
  · simp [e]

theorem view_changeKidsOf {n0 : Nat} {w : TObjs} (hok : w.Ok) (ho : w.Own n0) {p : Nat} (hp : n0 ≤ p) (f : Dict Str Nat → Dict Str Nat) :
    (w.changeKidsOf p f).view = w.view.upd p (fun n => { n with children := f n.children }) := by
  cases hn : w.nodes[p]? with
  | none =>
    rw [upd_beyond _ (by rw [view_get, hn]; rfl)]
    unfold changeKidsOf; rw [hn]
  | some np =>
    refine (view_changeKidsOf_iff hok hn f).2 ?_
    intro q nq hq hnq hk
    have := (ho p q (np.kids, np.attr) (nq.kids, nq.attr) hp (by rw [refs_get, hn]; rfl) (by rw [refs_get, hnq]; rfl) (Ne.symm hq)).1
    exact absurd hk.symm this

theorem view_changeAttrOf {n0 : Nat} {w : TObjs} (hok : w.Ok) (ho : w.Own n0) {p : Nat} (hp : n0 ≤ p) (f : Attrib → Attrib) :
    (w.changeAttrOf p f).view = w.view.upd p (fun n => { n with attrib := f n.attrib }) := by
  cases hn : w.nodes[p]? with
  | none =>
    rw [upd_beyond _ (by rw [view_get, hn]; rfl)]
    unfold changeAttrOf; rw [hn]
  | some np =>
    refine (view_changeAttrOf_iff hok hn f).2 ?_
    intro q nq hq hnq hk
    have := (ho p q (np.kids, np.attr) (nq.kids, nq.attr) hp (by rw [refs_get, hn]; rfl) (by rw [refs_get, hnq]; rfl) (Ne.symm hq)).2
    exact absurd hk.symm this

theorem view_setParent (w : TObjs) (c : Nat) (p : Option Nat) : (w.setParent c p).view = w.view.upd c (fun n => { n with parent := p }) := by
  apply List.ext_getElem?
  intro i
  rw [upd_getElem?, view_get, view_get]
  unfold setParent
  simp only [List.getElem?_modify]
  by_cases e : c = i
  · subst e; cases w.nodes[c]? <;> simp [shown, kidsAt, attrAt]
  · simp only [if_neg e]; cases w.nodes[i]? <;> simp [shown, kidsAt, attrAt]

/-! ### The constructor -/

/-- What a dictionary given or left out has to say. -/
def givenKids (w : TObjs) (c : Option Nat) : Dict Str Nat := (c.map w.kidsAt).getD []
def givenAttr (w : TObjs) (c : Option Nat) : Attrib := (c.map w.attrAt).getD []

theorem orNewKids_spec (w : TObjs) (c : Option Nat) (hc : ∀ d, c = some d → d < w.kidDicts.length) :
    (w.orNewKids c).1.nodes = w.nodes ∧ (w.orNewKids c).1.attrDicts = w.attrDicts ∧ (∃ t, (w.orNewKids c).1.kidDicts = w.kidDicts ++ t) ∧
    (w.orNewKids c).2 < (w.orNewKids c).1.kidDicts.length ∧ (w.orNewKids c).1.kidsAt (w.orNewKids c).2 = w.givenKids c ∧
    (w.givenKids c ≠ [] → c = some (w.orNewKids c).2) ∧ (w.givenKids c = [] → w.kidDicts.length ≤ (w.orNewKids c).2) := by
  cases c with
  | none => simp [orNewKids, newKids, givenKids, kidsAt]
  | some d =>
    have hd := hc d rfl
    unfold orNewKids
    simp only [givenKids, Option.map_some, Option.getD_some]
    by_cases h : (w.kidsAt d).isEmpty = true
    · rw [if_pos h]
      rw [List.isEmpty_iff] at h
      simp [newKids, kidsAt] at h ⊢
      simp [h]
    · rw [if_neg h]
      have h' : w.kidsAt d ≠ [] := by simpa using h
      exact ⟨rfl, rfl, ⟨[], by simp⟩, hd, rfl, fun _ => rfl, fun e => absurd e h'⟩

theorem orNewAttr_spec (w : TObjs) (c : Option Nat) (hc : ∀ d, c = some d → d < w.attrDicts.length) :
    (w.orNewAttr c).1.nodes = w.nodes ∧ (w.orNewAttr c).1.kidDicts = w.kidDicts ∧ (∃ t, (w.orNewAttr c).1.attrDicts = w.attrDicts ++ t) ∧
    (w.orNewAttr c).2 < (w.orNewAttr c).1.attrDicts.length ∧ (w.orNewAttr c).1.attrAt (w.orNewAttr c).2 = w.givenAttr c ∧
    (w.givenAttr c ≠ [] → c = some (w.orNewAttr c).2) ∧ (w.givenAttr c = [] → w.attrDicts.length ≤ (w.orNewAttr c).2) := by
  cases c with
  | none => simp [orNewAttr, newAttr, givenAttr, attrAt]
  | some d =>
    have hd := hc d rfl
    unfold orNewAttr
    simp only [givenAttr, Option.map_some, Option.getD_some]
    by_cases h : (w.attrAt d).isEmpty = true
    · rw [if_pos h]
      rw [List.isEmpty_iff] at h
      simp [newAttr, attrAt] at h ⊢
      simp [h]
    · rw [if_neg h]
      have h' : w.attrAt d ≠ [] := by simpa using h
      exact ⟨rfl, rfl, ⟨[], by simp⟩, hd, rfl, fun _ => rfl, fun e => absurd e h'⟩

/-- What the constructor does to the world. -/
structure Made (w w' : TObjs) (label : Str) (c a : Option Nat) (parent : Option Nat) (k t : Nat) : Prop where
  nodes : w'.nodes = w.nodes ++ [⟨label, k, t, parent⟩]
  kidDicts : ∃ x, w'.kidDicts = w.kidDicts ++ x
  attrDicts : ∃ x, w'.attrDicts = w.attrDicts ++ x
  kids_lt : k < w'.kidDicts.length
  attr_lt : t < w'.attrDicts.length
  kids : w'.kidsAt k = w.givenKids c
  attr : w'.attrAt t = w.givenAttr a
  kids_given : w.givenKids c ≠ [] → c = some k
  kids_new : w.givenKids c = [] → w.kidDicts.length ≤ k
  attr_given : w.givenAttr a ≠ [] → a = some t
  attr_new : w.givenAttr a = [] → w.attrDicts.length ≤ t

theorem make_spec (w : TObjs) (label : Str) (c a p : Option Nat) (hc : ∀ d, c = some d → d < w.kidDicts.length) (ha : ∀ d, a = some d → d < w.attrDicts.length) :
    (w.make label c a p).2 = w.nodes.length ∧ ∃ k t, Made w (w.make label c a p).1 label c a p k t := by
  obtain ⟨h1, h2, h3, h4, h5, h6, h7⟩ := orNewKids_spec w c hc
  have ha' : ∀ d, a = some d → d < (w.orNewKids c).1.attrDicts.length := by rw [h2]; exact ha
  obtain ⟨g1, g2, g3, g4, g5, g6, g7⟩ := orNewAttr_spec (w.orNewKids c).1 a ha'
  have hga : (w.orNewKids c).1.givenAttr a = w.givenAttr a := by unfold givenAttr attrAt; rw [h2]
  rw [hga] at g5 g6 g7
  rw [h2] at g7 g3
  unfold make
  simp only
  refine ⟨by rw [g1, h1], (w.orNewKids c).2, ((w.orNewKids c).1.orNewAttr a).2, ?_⟩
  exact {
    nodes := by simp only [g1, h1]
    kidDicts := by simp only [g2]; exact h3
    attrDicts := g3
    kids_lt := by simp only [g2]; exact h4
    attr_lt := g4
    kids := by
      have : ∀ x y : TObjs, x.kidDicts = y.kidDicts → ∀ d, x.kidsAt d = y.kidsAt d := fun x y e d => by unfold kidsAt; rw [e]
      rw [← h5]; exact this _ _ g2 _
    attr := g5
    kids_given := h6
    kids_new := h7
    attr_given := g6
    attr_new := g7 }

theorem kidsAt_grown {w w' : TObjs} (h : ∃ x, w'.kidDicts = w.kidDicts ++ x) {d : Nat} (hd : d < w.kidDicts.length) : w'.kidsAt d = w.kidsAt d := by
  obtain ⟨x, h⟩ := h
  unfold kidsAt; rw [h, List.getElem?_append_left hd]

theorem attrAt_grown {w w' : TObjs} (h : ∃ x, w'.attrDicts = w.attrDicts ++ x) {d : Nat} (hd : d < w.attrDicts.length) : w'.attrAt d = w.attrAt d := by
  obtain ⟨x, h⟩ := h
  unfold attrAt; rw [h, List.getElem?_append_left hd]

theorem Made.view {w w' : TObjs} {label c a p k t} (h : Made w w' label c a p k t) (hok : w.Ok) :
    w'.view = w.view ++ [⟨label, w.givenKids c, w.givenAttr a, p⟩] := by
  unfold TObjs.view
  rw [h.nodes, List.map_append]
  congr 1
  · apply List.map_congr_left
    intro n hn
    obtain ⟨h1, h2⟩ := hok (n.kids, n.attr) (List.mem_map.2 ⟨n, hn, rfl⟩)
    unfold shown
    rw [kidsAt_grown h.kidDicts h1, attrAt_grown h.attrDicts h2]
  · simp [shown, h.kids, h.attr]

theorem Made.refs {w w' : TObjs} {label c a p k t} (h : Made w w' label c a p k t) : w'.refs = w.refs ++ [(k, t)] := by
  unfold TObjs.refs; rw [h.nodes]; simp

theorem Made.ok {w w' : TObjs} {label c a p k t} (h : Made w w' label c a p k t) (hok : w.Ok) : w'.Ok := by
  obtain ⟨x, hx⟩ := h.kidDicts
  obtain ⟨y, hy⟩ := h.attrDicts
  intro z hz
  rw [h.refs] at hz
  rcases List.mem_append.1 hz with hz | hz
  · have := hok z hz
    rw [hx, hy]
    simp only [List.length_append]
    omega
  · obtain rfl : z = (k, t) := by simpa using hz
    exact ⟨h.kids_lt, h.attr_lt⟩

end TObjs

/-- C142: `TreeNode(label, children, attrib, parent)` makes a node that shows the entries of the given dictionaries (none if they are left out); no other node
changes, so the children keep their parents and the parent its children.  A dictionary that is given and not empty becomes the dictionary of the node; otherwise
the node gets one that is new. -/
theorem C142_constructor (w : TObjs) (hok : w.Ok) (label : Str) (c a p : Option Nat) (hc : ∀ d, c = some d → d < w.kidDicts.length)
    (ha : ∀ d, a = some d → d < w.attrDicts.length) :
    (w.make label c a p).2 = w.nodes.length ∧
    (w.make label c a p).1.view = w.view ++ [⟨label, w.givenKids c, w.givenAttr a, p⟩] ∧
    ∃ k t, (w.make label c a p).1.refs = w.refs ++ [(k, t)] ∧
      (∀ d, c = some d → (k = d ↔ w.kidsAt d ≠ [])) ∧ (k < w.kidDicts.length ↔ ∃ d, c = some d ∧ w.kidsAt d ≠ []) ∧
      (∀ d, a = some d → (t = d ↔ w.attrAt d ≠ [])) ∧ (t < w.attrDicts.length ↔ ∃ d, a = some d ∧ w.attrAt d ≠ []) := by
  obtain ⟨h1, k, t, h⟩ := TObjs.make_spec w label c a p hc ha
  refine ⟨h1, h.view hok, k, t, h.refs, ?_, ?_, ?_, ?_⟩
  · rintro d rfl
    constructor
    · rintro rfl he
      have := h.kids_new (by simpa [TObjs.givenKids] using he)
      have := hc k rfl
      omega
    · intro he
      have := h.kids_given (by simpa [TObjs.givenKids] using he)
      exact (Option.some.inj this).symm
  · constructor
    · intro hk
      refine Classical.byContradiction (fun hn => ?_)
      have : w.givenKids c = [] := by
        cases c with
        | none => rfl
        | some d => exact Classical.byContradiction (fun he => hn ⟨d, rfl, by simpa [TObjs.givenKids] using he⟩)
      have := h.kids_new this
      omega
    · rintro ⟨d, rfl, hd⟩
      have := h.kids_given (by simpa [TObjs.givenKids] using hd)
      rw [← Option.some.inj this]
      exact hc d rfl
  · rintro d rfl
    constructor
    · rintro rfl he
      have := h.attr_new (by simpa [TObjs.givenAttr] using he)
      have := ha t rfl
      omega
    · intro he
      have := h.attr_given (by simpa [TObjs.givenAttr] using he)
      exact (Option.some.inj this).symm
  · constructor
    · intro hk
      refine Classical.byContradiction (fun hn => ?_)
      have : w.givenAttr a = [] := by
        cases a with
        | none => rfl
        | some d => exact Classical.byContradiction (fun he => hn ⟨d, rfl, by simpa [TObjs.givenAttr] using he⟩)
      have := h.attr_new this
      omega
    · rintro ⟨d, rfl, hd⟩
      have := h.attr_given (by simpa [TObjs.givenAttr] using hd)
      rw [← Option.some.inj this]
      exact ha d rfl


namespace TObjs

/-! ### Nodes with dictionaries of their own -/

/-- The nodes from `n0` on have dictionaries of their own, which come after the first `K0` and `A0`. -/
structure Fresh (n0 K0 A0 : Nat) (w : TObjs) : Prop where
  ok : w.Ok
  own : w.Own n0
  new : ∀ (i : Nat) x, n0 ≤ i → w.refs[i]? = some x → K0 ≤ x.1 ∧ A0 ≤ x.2
  n : n0 ≤ w.nodes.length
  K : K0 ≤ w.kidDicts.length
  A : A0 ≤ w.attrDicts.length

/-- The first nodes and dictionaries stay as they are. -/
structure Kept (n0 K0 A0 : Nat) (w w' : TObjs) : Prop where
  nodes : ∀ i < n0, w'.nodes[i]? = w.nodes[i]?
  kids : ∀ d < K0, w'.kidDicts[d]? = w.kidDicts[d]?
  attr : ∀ d < A0, w'.attrDicts[d]? = w.attrDicts[d]?

theorem Kept.refl (n0 K0 A0 : Nat) (w : TObjs) : Kept n0 K0 A0 w w := ⟨fun _ _ => rfl, fun _ _ => rfl, fun _ _ => rfl⟩

theorem Kept.trans {n0 K0 A0 : Nat} {w w1 w2 : TObjs} (h : Kept n0 K0 A0 w w1) (g : Kept n0 K0 A0 w1 w2) : Kept n0 K0 A0 w w2 :=
  ⟨fun i hi => (g.nodes i hi).trans (h.nodes i hi), fun i hi => (g.kids i hi).trans (h.kids i hi), fun i hi => (g.attr i hi).trans (h.attr i hi)⟩

theorem Fresh.start {w : TObjs} (h : w.Ok) : Fresh w.nodes.length w.kidDicts.length w.attrDicts.length w where
  ok := h
  own := by
    intro i j x y hi hx
    rw [List.getElem?_eq_none (by rw [refs_length]; exact hi)] at hx
    cases hx
  new := by
    intro i x hi hx
    rw [List.getElem?_eq_none (by rw [refs_length]; exact hi)] at hx
    cases hx
  n := Nat.le_refl _
  K := Nat.le_refl _
  A := Nat.le_refl _

theorem Fresh.all {w : TObjs} (h : w.Ok) (ho : w.Own 0) : Fresh 0 0 0 w :=
  ⟨h, ho, fun _ _ _ _ => ⟨Nat.zero_le _, Nat.zero_le _⟩, Nat.zero_le _, Nat.zero_le _, Nat.zero_le _⟩

theorem Fresh.changeKidsOf {n0 K0 A0 : Nat} {w : TObjs} (h : Fresh n0 K0 A0 w) {p : Nat} (hp : n0 ≤ p) (f) :
    Fresh n0 K0 A0 (w.changeKidsOf p f) ∧ Kept n0 K0 A0 w (w.changeKidsOf p f) ∧
      (w.changeKidsOf p f).view = w.view.upd p (fun n => { n with children := f n.children }) := by
  refine ⟨⟨h.ok.changeKidsOf p f, h.own.of (by simp), by simpa using h.new, by rw [changeKidsOf_nodes]; exact h.n, by rw [changeKidsOf_kidLength]; exact h.K,
    by rw [changeKidsOf_attrDicts]; exact h.A⟩, ⟨fun i _ => by rw [changeKidsOf_nodes], fun d hd => ?_, fun d _ => by rw [changeKidsOf_attrDicts]⟩,
    view_changeKidsOf h.ok h.own hp f⟩
  unfold TObjs.changeKidsOf
  cases hn : w.nodes[p]? with
  | none => rfl
  | some np =>
    have := (h.new p (np.kids, np.attr) hp (by rw [refs_get, hn]; rfl)).1
    have hne : np.kids ≠ d := by simp only at this; omega
    simp [changeKids, List.getElem?_modify, hne]

theorem Fresh.changeAttrOf {n0 K0 A0 : Nat} {w : TObjs} (h : Fresh n0 K0 A0 w) {p : Nat} (hp : n0 ≤ p) (f) :
    Fresh n0 K0 A0 (w.changeAttrOf p f) ∧ Kept n0 K0 A0 w (w.changeAttrOf p f) ∧
      (w.changeAttrOf p f).view = w.view.upd p (fun n => { n with attrib := f n.attrib }) := by
  refine ⟨⟨h.ok.changeAttrOf p f, h.own.of (by simp), by simpa using h.new, by rw [changeAttrOf_nodes]; exact h.n,
    by rw [changeAttrOf_kidDicts]; exact h.K, by rw [changeAttrOf_attrLength]; exact h.A⟩,
    ⟨fun i _ => by rw [changeAttrOf_nodes], fun d _ => by rw [changeAttrOf_kidDicts], fun d hd => ?_⟩, view_changeAttrOf h.ok h.own hp f⟩
  unfold TObjs.changeAttrOf
  cases hn : w.nodes[p]? with
  | none => rfl
  | some np =>
    have := (h.new p (np.kids, np.attr) hp (by rw [refs_get, hn]; rfl)).2
    have hne : np.attr ≠ d := by simp only at this; omega
    simp [changeAttr, List.getElem?_modify, hne]

theorem Fresh.setParent {n0 K0 A0 : Nat} {w : TObjs} (h : Fresh n0 K0 A0 w) {c : Nat} (hc : n0 ≤ c) (p) :
    Fresh n0 K0 A0 (w.setParent c p) ∧ Kept n0 K0 A0 w (w.setParent c p) := by
  refine ⟨⟨h.ok.setParent c p, h.own.of (by simp), by simpa using h.new, by simpa [TObjs.setParent] using h.n, h.K, h.A⟩,
    ⟨fun i hi => ?_, fun _ _ => rfl, fun _ _ => rfl⟩⟩
  have : c ≠ i := by omega
  simp [TObjs.setParent, List.getElem?_modify, this]

theorem Fresh.push {n0 K0 A0 : Nat} {w w' : TObjs} (h : Fresh n0 K0 A0 w) (n : TObj) (hn : w'.nodes = w.nodes ++ [n])
    (hK : ∃ x, w'.kidDicts = w.kidDicts ++ x) (hA : ∃ x, w'.attrDicts = w.attrDicts ++ x) (hk : w.kidDicts.length ≤ n.kids) (hk' : n.kids < w'.kidDicts.length)
    (ha : w.attrDicts.length ≤ n.attr) (ha' : n.attr < w'.attrDicts.length) :
    Fresh n0 K0 A0 w' ∧ Kept n0 K0 A0 w w' ∧ w'.view = w.view ++ [w'.shown n] := by
  have hr : w'.refs = w.refs ++ [(n.kids, n.attr)] := by unfold refs; rw [hn]; simp
  have hlt : ∀ (i : Nat) x, w.refs[i]? = some x → x.1 < w.kidDicts.length ∧ x.2 < w.attrDicts.length := fun i x hx => h.ok x (List.mem_of_getElem? hx)
  have hcases : ∀ (i : Nat) x, w'.refs[i]? = some x → w.refs[i]? = some x ∨ (i = w.nodes.length ∧ x = (n.kids, n.attr)) := by
    intro i x hx
    rw [hr] at hx
    by_cases hi : i < w.refs.length
    · rw [List.getElem?_append_left hi] at hx; exact Or.inl hx
    · rw [List.getElem?_append_right (by omega)] at hx
      have : i - w.refs.length = 0 := by
        refine Classical.byContradiction (fun hne => ?_)
        rw [List.getElem?_eq_none (by simp; omega)] at hx
        cases hx
      rw [this] at hx
      exact Or.inr ⟨by rw [refs_length] at *; omega, (Option.some.inj hx).symm⟩
  have hKl : w.kidDicts.length ≤ w'.kidDicts.length := by omega
  have hAl : w.attrDicts.length ≤ w'.attrDicts.length := by omega
  refine ⟨⟨?_, ?_, ?_, ?_, Nat.le_trans h.K hKl, Nat.le_trans h.A hAl⟩, ⟨?_, ?_, ?_⟩, ?_⟩
  · intro x hx
    rw [hr] at hx
    rcases List.mem_append.1 hx with hx | hx
    · have := h.ok x hx; omega
    · obtain rfl : x = (n.kids, n.attr) := by simpa using hx
      exact ⟨hk', ha'⟩
  · intro i j x y hi hx hy hne
    rcases hcases i x hx with hx | ⟨e1, rfl⟩ <;> rcases hcases j y hy with hy | ⟨e2, rfl⟩
    · exact h.own i j x y hi hx hy hne
    · have := hlt i x hx
      exact ⟨by simp only; omega, by simp only; omega⟩
    · have := hlt j y hy
      exact ⟨by simp only; omega, by simp only; omega⟩
    · omega
  · intro i x hi hx
    rcases hcases i x hx with hx | ⟨_, rfl⟩
    · exact h.new i x hi hx
    · exact ⟨Nat.le_trans h.K hk, Nat.le_trans h.A ha⟩
  · rw [hn, List.length_append]; have := h.n; omega
  · intro i hi
    rw [hn, List.getElem?_append_left (Nat.lt_of_lt_of_le hi h.n)]
  · intro d hd
    obtain ⟨x, hx⟩ := hK
    rw [hx, List.getElem?_append_left (Nat.lt_of_lt_of_le hd h.K)]
  · intro d hd
    obtain ⟨x, hx⟩ := hA
    rw [hx, List.getElem?_append_left (Nat.lt_of_lt_of_le hd h.A)]
  · unfold view
    rw [hn, List.map_append]
    congr 1
    apply List.map_congr_left
    intro m hm
    obtain ⟨h1, h2⟩ := h.ok (m.kids, m.attr) (List.mem_map.2 ⟨m, hm, rfl⟩)
    unfold shown
    rw [kidsAt_grown hK h1, attrAt_grown hA h2]

theorem makeCopy_sim {n0 K0 A0 : Nat} {w : TObjs} (h : Fresh n0 K0 A0 w) (label : Str) (r : Nat) (parent : Option Nat) :
    Fresh n0 K0 A0 (w.makeCopy label r parent).1 ∧ Kept n0 K0 A0 w (w.makeCopy label r parent).1 ∧ (w.makeCopy label r parent).2 = w.nodes.length ∧
      (w.makeCopy label r parent).1.view = w.view ++ [⟨label, (w.view.node r).children, (w.view.node r).attrib, parent⟩] := by
  unfold makeCopy
  simp only
  generalize hch : (w.view.node r).children = ch
  generalize hat : (w.view.node r).attrib = at'
  generalize hw2 : ((w.newKids ch).1.newAttr at').1 = w2
  have e1 : (w.newKids ch).2 = w.kidDicts.length := rfl
  have e2 : ((w.newKids ch).1.newAttr at').2 = w.attrDicts.length := rfl
  have e3 : w2.nodes = w.nodes := by rw [← hw2]; rfl
  have e4 : w2.kidDicts = w.kidDicts ++ [ch] := by rw [← hw2]; rfl
  have e5 : w2.attrDicts = w.attrDicts ++ [at'] := by rw [← hw2]; rfl
  rw [e1, e2]
  obtain ⟨g1, k, t, g⟩ := make_spec w2 label (some w.kidDicts.length) (some w.attrDicts.length) parent
    (fun d hd => by cases hd; rw [e4]; simp) (fun d hd => by cases hd; rw [e5]; simp)
  have ek : w2.givenKids (some w.kidDicts.length) = ch := by simp [givenKids, kidsAt, e4]
  have ea : w2.givenAttr (some w.attrDicts.length) = at' := by simp [givenAttr, attrAt, e5]
  have hk : w.kidDicts.length ≤ k := by
    by_cases hc : ch = []
    · have := g.kids_new (by rw [ek]; exact hc)
      rw [e4, List.length_append] at this; omega
    · have := g.kids_given (by rw [ek]; exact hc)
      rw [← Option.some.inj this]
  have ht : w.attrDicts.length ≤ t := by
    by_cases hc : at' = []
    · have := g.attr_new (by rw [ea]; exact hc)
      rw [e5, List.length_append] at this; omega
    · have := g.attr_given (by rw [ea]; exact hc)
      rw [← Option.some.inj this]
  obtain ⟨x, hx⟩ := g.kidDicts
  obtain ⟨y, hy⟩ := g.attrDicts
  obtain ⟨p1, p2, p3⟩ := h.push ⟨label, k, t, parent⟩ (by rw [g.nodes, e3]) ⟨[ch] ++ x, by rw [hx, e4, List.append_assoc]⟩
    ⟨[at'] ++ y, by rw [hy, e5, List.append_assoc]⟩ hk g.kids_lt ht g.attr_lt
  refine ⟨p1, p2, by rw [g1, e3], ?_⟩
  rw [p3]
  simp only [shown, g.kids, g.attr, ek, ea]

theorem copyKids_sim {n0 K0 A0 : Nat} (node : Nat) (hnode : n0 ≤ node) (items : List (Str × Nat)) : ∀ {w : TObjs}, Fresh n0 K0 A0 w →
    Fresh n0 K0 A0 (copyKids node items w).1 ∧ Kept n0 K0 A0 w (copyKids node items w).1 ∧
      (copyKids node items w).1.view = (Cjk.copyKids node items w.view).1 ∧ (copyKids node items w).2 = (Cjk.copyKids node items w.view).2 ∧
      ∀ x ∈ (copyKids node items w).2, n0 ≤ x := by
  induction items with
  | nil => intro w h; exact ⟨h, Kept.refl .., rfl, rfl, by simp [copyKids]⟩
  | cons lc rest ih =>
    intro w h
    obtain ⟨label, child⟩ := lc
    obtain ⟨a1, a2, a3, a4⟩ := makeCopy_sim h label child (some node)
    obtain ⟨b1, b2, b3⟩ := a1.changeKidsOf hnode (fun d => Dict.set d label (w.makeCopy label child (some node)).2)
    obtain ⟨c1, c2, c3, c4, c5⟩ := ih b1
    simp only [copyKids, Cjk.copyKids]
    rw [b3, a4, a3] at c3 c4
    simp only [view_length]
    rw [a3] at b1 b2 b3 c1 c2 c5 ⊢
    refine ⟨c1, (a2.trans b2).trans c2, c3, by rw [c4], ?_⟩
    intro x hx
    rcases List.mem_append.1 hx with hx | hx
    · exact c5 x hx
    · obtain rfl : x = w.nodes.length := by simpa using hx
      exact h.n

theorem copyLoop_sim {n0 K0 A0 : Nat} (fuel : Nat) : ∀ {w : TObjs} (stack : List Nat), Fresh n0 K0 A0 w → (∀ x ∈ stack, n0 ≤ x) →
    (copyLoop fuel w stack).map view = Cjk.copyLoop fuel w.view stack ∧ ∀ w', copyLoop fuel w stack = some w' → Fresh n0 K0 A0 w' ∧ Kept n0 K0 A0 w w' := by
  induction fuel with
  | zero => intro w stack _ _; exact ⟨rfl, fun w' e => by cases e⟩
  | succ fuel ih =>
    intro w stack h hs
    cases stack with
    | nil => exact ⟨rfl, fun w' e => by cases e; exact ⟨h, Kept.refl ..⟩⟩
    | cons node stack =>
      obtain ⟨a1, a2, a3, a4, a5⟩ := copyKids_sim node (hs node (by simp)) (w.view.node node).children h
      obtain ⟨b1, b2⟩ := ih ((copyKids node (w.view.node node).children w).2 ++ stack) a1 (by
        intro x hx
        rcases List.mem_append.1 hx with hx | hx
        · exact a5 x hx
        · exact hs x (by simp [hx]))
      simp only [copyLoop, Cjk.copyLoop]
      refine ⟨by rw [b1, a3, a4], fun w' e => ?_⟩
      obtain ⟨c1, c2⟩ := b2 w' e
      exact ⟨c1, a2.trans c2⟩

/-- What `copy` gives, as the nodes show it. -/
def shownCopy (x : Option (Except PyErr (TObjs × Nat))) : Option (Except PyErr (Heap × Nat)) := x.map (fun y => y.map (fun z => (z.1.view, z.2)))

theorem copy_sim {w : TObjs} (hok : w.Ok) (fuel r : Nat) :
    shownCopy (w.copy fuel r) = treeCopy w.view fuel r ∧
    ∀ w' r', w.copy fuel r = some (.ok (w', r')) → Fresh w.nodes.length w.kidDicts.length w.attrDicts.length w' ∧
      Kept w.nodes.length w.kidDicts.length w.attrDicts.length w w' ∧ r' = w.nodes.length := by
  unfold copy treeCopy
  by_cases hp : parentTruthy w.view r = true
  · rw [if_pos hp, if_pos hp]
    exact ⟨rfl, fun w' r' e => by cases e⟩
  · rw [if_neg hp, if_neg hp]
    obtain ⟨a1, a2, a3, a4⟩ := makeCopy_sim (Fresh.start hok) (w.view.node r).label r none
    obtain ⟨b1, b2⟩ := copyLoop_sim fuel [(w.makeCopy (w.view.node r).label r none).2] a1 (by
      intro x hx
      obtain rfl : x = (w.makeCopy (w.view.node r).label r none).2 := by simpa using hx
      rw [a3])
    constructor
    · rw [a4, a3] at b1
      simp only [view_length]
      rw [a3, ← b1]
      unfold shownCopy
      cases copyLoop fuel (w.makeCopy (w.view.node r).label r none).1 [w.nodes.length] <;> rfl
    · intro w' r' e
      cases hl : copyLoop fuel (w.makeCopy (w.view.node r).label r none).1 [(w.makeCopy (w.view.node r).label r none).2] with
      | none => rw [hl] at e; cases e
      | some w1 =>
        rw [hl] at e
        simp only [Option.map_some, Option.some.injEq, Except.ok.injEq, Prod.mk.injEq] at e
        obtain ⟨rfl, rfl⟩ := e
        obtain ⟨c1, c2⟩ := b2 w1 hl
        exact ⟨c1, a2.trans c2, a3⟩

/-! ### Programs without given dictionaries -/

theorem treeStep_sim {w : TObjs} (h : Fresh 0 0 0 w) (op : TreeOp) : Fresh 0 0 0 (w.treeStep op) ∧ (w.treeStep op).view = op.step w.view := by
  cases op with
  | new l a =>
    have e1 : (w.newAttr a).2 = w.attrDicts.length := rfl
    obtain ⟨g1, k, t, g⟩ := make_spec (w.newAttr a).1 l none (some (w.newAttr a).2) none (fun d hd => by cases hd)
      (fun d hd => by cases hd; simp [newAttr])
    have ek : (w.newAttr a).1.givenKids none = [] := rfl
    have ea : (w.newAttr a).1.givenAttr (some (w.newAttr a).2) = a := by simp [givenAttr, attrAt, newAttr]
    have ht : w.attrDicts.length ≤ t := by
      by_cases hc : a = []
      · have := g.attr_new (by rw [ea]; exact hc)
        have e5 : (w.newAttr a).1.attrDicts.length = w.attrDicts.length + 1 := by simp [newAttr]
        omega
      · have := g.attr_given (by rw [ea]; exact hc)
        rw [← Option.some.inj this, e1]
    obtain ⟨y, hy⟩ := g.attrDicts
    obtain ⟨p1, p2, p3⟩ := h.push ⟨l, k, t, none⟩ g.nodes g.kidDicts ⟨[a] ++ y, by rw [hy]; simp [newAttr]⟩ (g.kids_new ek) g.kids_lt ht g.attr_lt
    refine ⟨p1, ?_⟩
    show ((w.newAttr a).1.make l none (some (w.newAttr a).2) none).1.view = _
    rw [p3]
    simp only [shown, g.kids, g.attr, ek, ea]
    rfl
  | add p c =>
    obtain ⟨a1, _, a3⟩ := h.changeKidsOf (Nat.zero_le p) (fun d => Dict.set d (w.view.node c).label c)
    obtain ⟨b1, _⟩ := a1.setParent (Nat.zero_le c) (some p)
    refine ⟨b1, ?_⟩
    show (TObjs.setParent _ c (some p)).view = _
    rw [view_setParent, a3]
    rfl
  | unlink c =>
    unfold treeStep TreeOp.step
    simp only
    unfold unlink Cjk.unlink
    cases (w.view.node c).parent with
    | none => exact ⟨(h.setParent (Nat.zero_le c) none).1, view_setParent ..⟩
    | some p =>
      simp only
      by_cases he : ((w.view.node p).children).isEmpty = true
      · rw [if_pos he, if_pos he]
        exact ⟨(h.setParent (Nat.zero_le c) none).1, view_setParent ..⟩
      · rw [if_neg he, if_neg he]
        cases delItem (w.view.node p).children (w.view.node c).label with
        | error e => exact ⟨h, rfl⟩
        | ok d =>
          obtain ⟨a1, _, a3⟩ := h.changeKidsOf (Nat.zero_le p) (fun _ => d)
          refine ⟨(a1.setParent (Nat.zero_le c) none).1, ?_⟩
          simp only
          rw [view_setParent, a3]
  | del p c =>
    unfold treeStep TreeOp.step
    simp only
    unfold delChild Cjk.delChild
    cases delItem (w.view.node p).children (w.view.node c).label with
    | error e => exact ⟨h, rfl⟩
    | ok d =>
      obtain ⟨a1, _, a3⟩ := h.changeKidsOf (Nat.zero_le p) (fun _ => d)
      obtain ⟨b1, _, b3⟩ := a1.changeAttrOf (Nat.zero_le c) (fun a => Dict.set a (.str u!"parent") .none)
      refine ⟨b1, ?_⟩
      simp only
      rw [b3, a3]
  | set r k v =>
    obtain ⟨a1, _, a3⟩ := h.changeAttrOf (Nat.zero_le r) (fun a => Dict.set a k v)
    exact ⟨a1, a3⟩
  | unset r k =>
    unfold treeStep TreeOp.step
    simp only
    unfold delAttr Cjk.delAttr
    cases Dict.get? (w.view.node r).attrib k with
    | none => exact ⟨h, rfl⟩
    | some v =>
      obtain ⟨a1, _, a3⟩ := h.changeAttrOf (Nat.zero_le r) (fun a => Dict.del a k)
      exact ⟨a1, a3⟩

/-! ### `prune` -/

/-- The nodes from `n0` on have parents and children among themselves. -/
def Closed (n0 : Nat) (h : Heap) : Prop :=
  ∀ i, n0 ≤ i → (∀ p, (h.node i).parent = some p → n0 ≤ p) ∧ ∀ c ∈ Dict.values (h.node i).children, n0 ≤ c

theorem copyLoop_closed (h0 : Heap) (hk : Spec.KidsOk h0) : ∀ (fuel : Nat) (h : Heap) (stack : List Nat) (h' : Heap),
    h0.length ≤ h.length → (∀ x < h0.length, h.node x = h0.node x) → stack.Nodup →
    (∀ s ∈ stack, h0.length ≤ s ∧ s < h.length ∧ Dict.WF (nodeKids h s) ∧ ∀ kc ∈ nodeKids h s, kc.2 < h0.length) →
    (∀ i, h0.length ≤ i → (∀ p, (h.node i).parent = some p → h0.length ≤ p) ∧ (i ∉ stack → ∀ c ∈ Dict.values (h.node i).children, h0.length ≤ c)) →
    Cjk.copyLoop fuel h stack = some h' → Closed h0.length h' := by
  intro fuel
  induction fuel with
  | zero => intro h stack h' _ _ _ _ _ e; cases e
  | succ fuel ih =>
    intro h stack h' hle hold hnd hst hcl e
    cases stack with
    | nil =>
      simp only [Cjk.copyLoop, Option.some.injEq] at e
      subst e
      exact fun i hi => ⟨(hcl i hi).1, (hcl i hi).2 (by simp)⟩
    | cons node stack =>
      simp only [Cjk.copyLoop] at e
      have hn := hst node (by simp)
      have hcond : ∀ lc ∈ (h.node node).children, lc.2 < h.length ∧ lc.2 ≠ node := by
        intro lc hlc
        have := hn.2.2.2 lc hlc
        exact ⟨by omega, by omega⟩
      rw [copyKids_eq node _ h hn.2.1 hcond] at e
      simp only at e
      have hupd : Dict.update (h.node node).children (newItems h.length (h.node node).children) = newItems h.length (h.node node).children := by
        have := update_newItems [] h.length (h.node node).children (by simpa [Dict.WF, Dict.keys, nodeKids] using hn.2.2.1)
        simpa using this
      generalize hg : (h.upd node (fun n => { n with children := Dict.update n.children (newItems h.length (h.node node).children) }) ++
        newNodes h node (h.node node).children : Heap) = h1 at e
      have hlen : h1.length = h.length + (h.node node).children.length := by
        rw [← hg]; simp [newNodes]
      have hother : ∀ y < h.length, y ≠ node → h1.node y = h.node y := by
        intro y hy hne
        rw [← hg, node_append _ _ (by simpa using hy), upd_node_ne _ _ (Ne.symm hne)]
      have hself : h1.node node = { h.node node with children := newItems h.length (h.node node).children } := by
        rw [← hg, node_append _ _ (by simpa using hn.2.1), upd_node_eq _ _ hn.2.1, hupd]
      have hnew : ∀ (i : Nat) lc, (h.node node).children[i]? = some lc →
          h1.node (h.length + i) = ⟨lc.1, (h0.node lc.2).children, (h0.node lc.2).attrib, some node⟩ := by
        intro i lc hi
        have hlc := hn.2.2.2 lc (List.mem_of_getElem? hi)
        have hget : h1[h.length + i]? = some ⟨lc.1, (h.node lc.2).children, (h.node lc.2).attrib, some node⟩ := by
          rw [← hg, List.getElem?_append_right (by simp)]
          simp only [upd_length, Nat.add_sub_cancel_left, newNodes, List.getElem?_map, hi, Option.map_some]
        rw [← hold lc.2 hlc]
        unfold Heap.node at hget ⊢
        rw [hget]
        rfl
      have hbeyond : ∀ i, h1.length ≤ i → h1.node i = default := by
        intro i hi
        unfold Heap.node; rw [List.getElem?_eq_none hi]; rfl
      have hmemnew : ∀ m, m ∈ ((newItems h.length (h.node node).children).map Prod.snd).reverse ↔ ∃ i, i < (h.node node).children.length ∧ m = h.length + i := by
        intro m
        rw [List.mem_reverse, newItems_refs, List.mem_range']
        constructor
        · rintro ⟨i, h1, h2⟩; exact ⟨i, h1, by omega⟩
        · rintro ⟨i, h1, h2⟩; exact ⟨i, h1, by omega⟩
      refine ih h1 _ h' (by omega) ?_ ?_ ?_ ?_ e
      · intro y hy
        rw [hother y (by omega) (by omega)]
        exact hold y hy
      · rw [List.nodup_append]
        refine ⟨?_, (List.nodup_cons.1 hnd).2, ?_⟩
        · rw [List.nodup_reverse, newItems_refs]; exact List.nodup_range'
        · intro a ha b hb e
          subst e
          obtain ⟨i, _, rfl⟩ := (hmemnew a).1 ha
          have := (hst (h.length + i) (List.mem_cons_of_mem _ hb)).2.1
          omega
      · intro s hs
        rcases List.mem_append.1 hs with hs | hs
        · obtain ⟨i, hi, rfl⟩ := (hmemnew s).1 hs
          have hi' : (h.node node).children[i]? = some (h.node node).children[i] := List.getElem?_eq_getElem hi
          have hlt := hn.2.2.2 _ (List.getElem_mem hi)
          unfold nodeKids
          rw [hnew i _ hi']
          exact ⟨by omega, by omega, (hk _ hlt).1, (hk _ hlt).2⟩
        · have h2 := hst s (List.mem_cons_of_mem _ hs)
          have hne : s ≠ node := fun e => (List.nodup_cons.1 hnd).1 (e ▸ hs)
          unfold nodeKids
          rw [hother s h2.2.1 hne]
          exact ⟨h2.1, by omega, h2.2.2⟩
      · intro i hi
        by_cases h1i : i < h.length
        · by_cases hin : i = node
          · subst hin
            rw [hself]
            refine ⟨(hcl i hi).1, fun _ c hc => ?_⟩
            simp only [Dict.values, newItems_refs, List.mem_range'] at hc
            obtain ⟨j, _, rfl⟩ := hc
            omega
          · rw [hother i h1i hin]
            refine ⟨(hcl i hi).1, fun hns => (hcl i hi).2 ?_⟩
            intro hm
            rcases List.mem_cons.1 hm with rfl | hm
            · exact hin rfl
            · exact hns (List.mem_append_right _ hm)
        · by_cases h2i : i < h1.length
          · have hj : i - h.length < (h.node node).children.length := by omega
            have hij : i = h.length + (i - h.length) := by omega
            have hget := hnew (i - h.length) _ (List.getElem?_eq_getElem hj)
            rw [← hij] at hget
            refine ⟨?_, fun hns => absurd (List.mem_append_left _ ((hmemnew i).2 ⟨i - h.length, hj, hij⟩)) hns⟩
            rw [hget]
            intro p hp
            cases hp
            exact hn.1
          · rw [hbeyond i (by omega)]
            exact ⟨fun p hp => (by cases hp), fun _ c hc => (by cases hc)⟩

theorem treeCopy_closed {h : Heap} (hk : Spec.KidsOk h) {fuel r : Nat} (hr : r < h.length) {h' : Heap} {r' : Nat}
    (e : treeCopy h fuel r = some (.ok (h', r'))) : Closed h.length h' ∧ r' = h.length := by
  unfold treeCopy at e
  by_cases hp : parentTruthy h r = true
  · rw [if_pos hp] at e; cases e
  · rw [if_neg hp] at e
    generalize hg : (h ++ [⟨(h.node r).label, (h.node r).children, (h.node r).attrib, none⟩] : Heap) = h1 at e
    have hnew : h1.node h.length = ⟨(h.node r).label, (h.node r).children, (h.node r).attrib, none⟩ := by
      have hget : h1[h.length]? = some ⟨(h.node r).label, (h.node r).children, (h.node r).attrib, none⟩ := by
        rw [← hg, List.getElem?_append_right (Nat.le_refl _)]; simp
      unfold Heap.node at hget ⊢
      rw [hget]
      rfl
    have hlen : h1.length = h.length + 1 := by rw [← hg]; simp
    cases hl : Cjk.copyLoop fuel h1 [h.length] with
    | none => rw [hl] at e; cases e
    | some h2 =>
      rw [hl] at e
      simp only [Option.map_some, Option.some.injEq, Except.ok.injEq, Prod.mk.injEq] at e
      obtain ⟨rfl, rfl⟩ := e
      refine ⟨copyLoop_closed h hk fuel h1 [h.length] h2 (by omega) (fun x hx => by rw [← hg]; exact node_append _ _ hx) (by simp) ?_ ?_ hl, rfl⟩
      · intro s hs
        obtain rfl : s = h.length := by simpa using hs
        unfold nodeKids
        rw [hnew]
        exact ⟨Nat.le_refl _, by omega, (hk r hr).1, (hk r hr).2⟩
      · intro i hi
        by_cases he : i = h.length
        · subst he
          rw [hnew]
          exact ⟨fun p hp => (by cases hp), fun hn => absurd (by simp) hn⟩
        · have : h1.node i = default := by unfold Heap.node; rw [List.getElem?_eq_none (by omega)]; rfl
          rw [this]
          exact ⟨fun p hp => (by cases hp), fun _ c hc => (by cases hc)⟩

theorem Closed.upd {n0 : Nat} {h : Heap} (hc : Closed n0 h) (r : Nat) (f : TNode → TNode)
    (hp : ∀ p, (f (h.node r)).parent = some p → n0 ≤ p) (hk : ∀ c ∈ Dict.values (f (h.node r)).children, n0 ≤ c) : Closed n0 (h.upd r f) := by
  intro i hi
  by_cases e : r = i
  · subst e
    by_cases hr : r < h.length
    · rw [upd_node_eq _ _ hr]; exact ⟨hp, hk⟩
    · rw [upd_beyond _ (List.getElem?_eq_none (by omega))]; exact hc r hi
  · rw [upd_node_ne _ _ e]; exact hc i hi

theorem values_del (d : Dict Str Nat) (k : Str) : ∀ c ∈ Dict.values (Dict.del d k), c ∈ Dict.values d := by
  induction d with
  | nil => intro c hc; exact hc
  | cons kv d ih =>
    obtain ⟨k', v⟩ := kv
    intro c hc
    rw [Dict.del] at hc
    by_cases e : k' = k
    · rw [if_pos e] at hc; exact List.mem_cons_of_mem _ hc
    · rw [if_neg e] at hc
      rcases List.mem_cons.1 hc with rfl | hc
      · exact List.mem_cons_self ..
      · exact List.mem_cons_of_mem _ (ih c hc)

theorem unlink_sim {n0 K0 A0 : Nat} {w : TObjs} (h : Fresh n0 K0 A0 w) (hc : Closed n0 w.view) {r : Nat} (hr : n0 ≤ r) :
    (w.unlink r).map view = Cjk.unlink w.view r ∧ ∀ w', w.unlink r = .ok w' → Fresh n0 K0 A0 w' ∧ Kept n0 K0 A0 w w' ∧ Closed n0 w'.view := by
  unfold unlink Cjk.unlink
  have hset : Fresh n0 K0 A0 (w.setParent r none) ∧ Kept n0 K0 A0 w (w.setParent r none) ∧ Closed n0 (w.setParent r none).view := by
    obtain ⟨a1, a2⟩ := h.setParent hr none
    refine ⟨a1, a2, ?_⟩
    rw [view_setParent]
    exact hc.upd r _ (fun p hp => by cases hp) (hc r hr).2
  cases hp : (w.view.node r).parent with
  | none => exact ⟨by simp only [Except.map, view_setParent], fun w' e => by cases e; exact hset⟩
  | some p =>
    have hp0 := (hc r hr).1 p hp
    simp only
    by_cases he : ((w.view.node p).children).isEmpty = true
    · rw [if_pos he, if_pos he]
      exact ⟨by simp only [Except.map, view_setParent], fun w' e => by cases e; exact hset⟩
    · rw [if_neg he, if_neg he]
      cases hd : delItem (w.view.node p).children (w.view.node r).label with
      | error e => exact ⟨rfl, fun w' e => by cases e⟩
      | ok d =>
        obtain ⟨a1, a2, a3⟩ := h.changeKidsOf hp0 (fun _ => d)
        obtain ⟨b1, b2⟩ := a1.setParent hr none
        have hcl : Closed n0 (w.changeKidsOf p (fun _ => d)).view := by
          rw [a3]
          refine hc.upd p _ (hc p hp0).1 ?_
          intro c hcm
          refine (hc p hp0).2 c ?_
          unfold delItem at hd
          cases hg : Dict.get? (w.view.node p).children (w.view.node r).label with
          | none => rw [hg] at hd; cases hd
          | some x => rw [hg] at hd; cases hd; exact values_del _ _ c hcm
        refine ⟨by simp only [Except.map, view_setParent, a3], fun w' e => ?_⟩
        cases e
        refine ⟨b1, a2.trans b2, ?_⟩
        rw [view_setParent]
        exact hcl.upd r _ (fun p hp => by cases hp) (hcl r hr).2

theorem pruneLoop_sim {n0 K0 A0 : Nat} {S : Type} (ask : PruneAsk S) (up : Nat) (fuel : Nat) : ∀ {w : TObjs} (s : S) (stack : List (Nat × Bool)),
    Fresh n0 K0 A0 w → Closed n0 w.view → (∀ x ∈ stack, n0 ≤ x.1) →
    (pruneLoop ask up fuel w s stack).map (fun x => (x.1.view, x.2)) = pruneLoopAsk ask up fuel w.view s stack ∧
    ∀ w' x, pruneLoop ask up fuel w s stack = some (w', x) → Fresh n0 K0 A0 w' ∧ Kept n0 K0 A0 w w' := by
  induction fuel with
  | zero => intro w s stack _ _ _; exact ⟨rfl, fun w' x e => by cases e⟩
  | succ fuel ih =>
    intro w s stack h hc hs
    cases stack with
    | nil => exact ⟨rfl, fun w' x e => by cases e; exact ⟨h, Kept.refl ..⟩⟩
    | cons rv stack =>
      obtain ⟨r, visited⟩ := rv
      have hr : n0 ≤ r := hs (r, visited) (by simp)
      have hs' : ∀ x ∈ stack, n0 ≤ x.1 := fun x hx => hs x (by simp [hx])
      simp only [pruneLoop, pruneLoopAsk]
      by_cases h1 : (visited || ((w.view.node r).children).isEmpty) = true
      · rw [if_pos h1, if_pos h1]
        by_cases h2 : (!((w.view.node r).children).isEmpty) = true
        · rw [if_pos h2, if_pos h2]
          exact ih s stack h hc hs'
        · rw [if_neg h2, if_neg h2]
          cases viewUp w.view up r with
          | none => exact ⟨rfl, fun w' x e => by cases e⟩
          | some v =>
            simp only
            rcases ask s v with ⟨(e | b), s'⟩
            · exact ⟨rfl, fun w' x e => by cases e; exact ⟨h, Kept.refl ..⟩⟩
            · cases b with
              | true => exact ih s' stack h hc hs'
              | false =>
                obtain ⟨u1, u2⟩ := unlink_sim h hc hr
                simp only
                cases hu : w.unlink r with
                | error e =>
                  rw [hu] at u1
                  simp only [Except.map] at u1
                  simp only [← u1]
                  exact ⟨rfl, fun w' x e => by cases e; exact ⟨h, Kept.refl ..⟩⟩
                | ok w1 =>
                  rw [hu] at u1
                  simp only [Except.map] at u1
                  obtain ⟨g1, g2, g3⟩ := u2 w1 hu
                  obtain ⟨i1, i2⟩ := ih s' stack g1 g3 hs'
                  simp only [← u1]
                  exact ⟨i1, fun w' x e => ⟨(i2 w' x e).1, g2.trans (i2 w' x e).2⟩⟩
      · rw [if_neg h1, if_neg h1]
        refine ih s _ h hc ?_
        intro x hx
        rcases List.mem_append.1 hx with hx | hx
        · obtain ⟨c, hcm, rfl⟩ := List.mem_map.1 hx
          exact (hc r hr).2 c (List.mem_reverse.1 hcm)
        · rcases List.mem_cons.1 hx with rfl | hx
          · exact hr
          · exact hs' x hx

theorem prune_sim {S : Type} (ask : PruneAsk S) {w : TObjs} (hok : w.Ok) (hk : Spec.KidsOk w.view) (fuel r : Nat) (hr : r < w.nodes.length) (s : S) :
    (w.prune ask fuel r s).map (fun x => (x.1.view, x.2)) = treePruneAsk ask w.view fuel r s ∧
    ∀ w' x, w.prune ask fuel r s = some (w', x) → Kept w.nodes.length w.kidDicts.length w.attrDicts.length w w' ∧
      Fresh w.nodes.length w.kidDicts.length w.attrDicts.length w' := by
  obtain ⟨a1, a2⟩ := copy_sim hok fuel r
  unfold prune treePruneAsk
  cases hcp : w.copy fuel r with
  | none =>
    rw [hcp] at a1
    simp only [shownCopy, Option.map_none] at a1
    simp only [← a1]
    exact ⟨rfl, fun w' x e => by cases e⟩
  | some y =>
    cases y with
    | error e =>
      rw [hcp] at a1
      simp only [shownCopy, Option.map_some, Except.map] at a1
      simp only [← a1]
      exact ⟨rfl, fun w' x e => by cases e; exact ⟨Kept.refl .., Fresh.start hok⟩⟩
    | ok z =>
      obtain ⟨w1, r1⟩ := z
      rw [hcp] at a1
      simp only [shownCopy, Option.map_some, Except.map] at a1
      obtain ⟨b1, b2, b3⟩ := a2 w1 r1 hcp
      have hcl := (treeCopy_closed hk (by simpa using hr) a1.symm).1
      rw [view_length] at hcl
      obtain ⟨c1, c2⟩ := pruneLoop_sim ask fuel fuel s [(r1, false)] b1 hcl (by
        intro x hx
        obtain rfl : x = (r1, false) := by simpa using hx
        simp [b3])
      simp only [← a1, ← c1]
      cases hl : pruneLoop ask fuel fuel w1 s [(r1, false)] with
      | none => exact ⟨rfl, fun w' x e => by cases e⟩
      | some u =>
        obtain ⟨w2, s2, o⟩ := u
        obtain ⟨d1, d2⟩ := c2 w2 (s2, o) hl
        cases o with
        | some e => exact ⟨rfl, fun w' x e => by cases e; exact ⟨b2.trans d2, d1⟩⟩
        | none =>
          simp only [Option.map_some]
          cases pruneResultAsk ask fuel w2.view s2 r1 with
          | none => exact ⟨rfl, fun w' x e => by cases e⟩
          | some q => exact ⟨rfl, fun w' x e => by cases e; exact ⟨b2.trans d2, d1⟩⟩

/-! ### What later steps do to nodes that exist -/

theorem make_grown (w : TObjs) (label : Str) (c a p : Option Nat) :
    (∃ x, (w.make label c a p).1.refs = w.refs ++ x) ∧ (∃ x, (w.make label c a p).1.kidDicts = w.kidDicts ++ x) ∧
      ∃ x, (w.make label c a p).1.attrDicts = w.attrDicts ++ x := by
  have h1 : ∀ (w : TObjs) c, (w.orNewKids c).1.nodes = w.nodes ∧ (w.orNewKids c).1.attrDicts = w.attrDicts ∧ ∃ x, (w.orNewKids c).1.kidDicts = w.kidDicts ++ x := by
    intro w c
    cases c with
    | none => exact ⟨rfl, rfl, _, rfl⟩
    | some d =>
      unfold orNewKids
      simp only
      by_cases h : (w.kidsAt d).isEmpty = true
      · rw [if_pos h]; exact ⟨rfl, rfl, _, rfl⟩
      · rw [if_neg h]; exact ⟨rfl, rfl, [], by simp⟩
  have h2 : ∀ (w : TObjs) c, (w.orNewAttr c).1.nodes = w.nodes ∧ (w.orNewAttr c).1.kidDicts = w.kidDicts ∧ ∃ x, (w.orNewAttr c).1.attrDicts = w.attrDicts ++ x := by
    intro w c
    cases c with
    | none => exact ⟨rfl, rfl, _, rfl⟩
    | some d =>
      unfold orNewAttr
      simp only
      by_cases h : (w.attrAt d).isEmpty = true
      · rw [if_pos h]; exact ⟨rfl, rfl, _, rfl⟩
      · rw [if_neg h]; exact ⟨rfl, rfl, [], by simp⟩
  obtain ⟨a1, a2, a3⟩ := h1 w c
  obtain ⟨b1, b2, b3⟩ := h2 (w.orNewKids c).1 a
  unfold make refs
  simp only
  rw [b1, a1, b2]
  rw [a2] at b3
  exact ⟨⟨_, List.map_append ..⟩, a3, b3⟩

theorem makeCopy_refs (w : TObjs) (label : Str) (r : Nat) (p : Option Nat) : ∃ x, (w.makeCopy label r p).1.refs = w.refs ++ x := by
  unfold makeCopy
  exact (make_grown _ label _ _ p).1

theorem copyKids_refs (node : Nat) (items : List (Str × Nat)) : ∀ w : TObjs, ∃ x, (copyKids node items w).1.refs = w.refs ++ x := by
  induction items with
  | nil => intro w; exact ⟨[], by simp [copyKids]⟩
  | cons lc rest ih =>
    intro w
    obtain ⟨label, child⟩ := lc
    obtain ⟨x, hx⟩ := makeCopy_refs w label child (some node)
    obtain ⟨y, hy⟩ := ih ((w.makeCopy label child (some node)).1.changeKidsOf node (fun d => Dict.set d label (w.makeCopy label child (some node)).2))
    refine ⟨x ++ y, ?_⟩
    simp only [copyKids]
    rw [hy, refs_changeKidsOf, hx, List.append_assoc]

theorem copyLoop_refs (fuel : Nat) : ∀ (w : TObjs) (stack : List Nat) (w' : TObjs), copyLoop fuel w stack = some w' → ∃ x, w'.refs = w.refs ++ x := by
  induction fuel with
  | zero => intro w stack w' e; cases e
  | succ fuel ih =>
    intro w stack w' e
    cases stack with
    | nil => cases e; exact ⟨[], by simp⟩
    | cons node stack =>
      simp only [copyLoop] at e
      obtain ⟨x, hx⟩ := ih _ _ w' e
      obtain ⟨y, hy⟩ := copyKids_refs node (w.view.node node).children w
      exact ⟨y ++ x, by rw [hx, hy, List.append_assoc]⟩

theorem copy_refs {w : TObjs} {fuel r : Nat} {w' : TObjs} {r' : Nat} (e : w.copy fuel r = some (.ok (w', r'))) : ∃ x, w'.refs = w.refs ++ x := by
  unfold copy at e
  by_cases hp : parentTruthy w.view r = true
  · rw [if_pos hp] at e; cases e
  · rw [if_neg hp] at e
    cases hl : copyLoop fuel (w.makeCopy (w.view.node r).label r none).1 [(w.makeCopy (w.view.node r).label r none).2] with
    | none => rw [hl] at e; cases e
    | some w1 =>
      rw [hl] at e
      simp only [Option.map_some, Option.some.injEq, Except.ok.injEq, Prod.mk.injEq] at e
      obtain ⟨rfl, _⟩ := e
      obtain ⟨x, hx⟩ := copyLoop_refs fuel _ _ w1 hl
      obtain ⟨y, hy⟩ := makeCopy_refs w (w.view.node r).label r none
      exact ⟨y ++ x, by rw [hx, hy, List.append_assoc]⟩

theorem unlink_refs {w w' : TObjs} {c : Nat} (e : w.unlink c = .ok w') : w'.refs = w.refs := by
  unfold unlink at e
  cases hp : (w.view.node c).parent with
  | none => rw [hp] at e; cases e; simp
  | some p =>
    rw [hp] at e
    simp only at e
    by_cases he : ((w.view.node p).children).isEmpty = true
    · rw [if_pos he] at e; cases e; simp
    · rw [if_neg he] at e
      cases hd : delItem (w.view.node p).children (w.view.node c).label with
      | error x => rw [hd] at e; cases e
      | ok d => rw [hd] at e; cases e; simp

theorem delChild_refs {w w' : TObjs} {p c : Nat} (e : w.delChild p c = .ok w') : w'.refs = w.refs := by
  unfold delChild at e
  cases hd : delItem (w.view.node p).children (w.view.node c).label with
  | error x => rw [hd] at e; cases e
  | ok d => rw [hd] at e; cases e; simp

theorem delAttr_refs {w w' : TObjs} {r : Nat} {k : AKey} (e : w.delAttr r k = .ok w') : w'.refs = w.refs := by
  unfold delAttr at e
  cases hd : Dict.get? (w.view.node r).attrib k with
  | none => rw [hd] at e; cases e
  | some d => rw [hd] at e; cases e; simp

theorem treeStep_refs (w : TObjs) (op : TreeOp) : ∃ x, (w.treeStep op).refs = w.refs ++ x := by
  cases op with
  | new l a => exact (make_grown (w.newAttr a).1 l none _ none).1
  | add p c => exact ⟨[], by simp [treeStep, addChild]⟩
  | unlink c =>
    unfold treeStep
    simp only
    cases h : w.unlink c with
    | error e => exact ⟨[], by simp⟩
    | ok w' => exact ⟨[], by simp [unlink_refs h]⟩
  | del p c =>
    unfold treeStep
    simp only
    cases h : w.delChild p c with
    | error e => exact ⟨[], by simp⟩
    | ok w' => exact ⟨[], by simp [delChild_refs h]⟩
  | set r k v => exact ⟨[], by simp [treeStep, setAttr]⟩
  | unset r k =>
    unfold treeStep
    simp only
    cases h : w.delAttr r k with
    | error e => exact ⟨[], by simp⟩
    | ok w' => exact ⟨[], by simp [delAttr_refs h]⟩

theorem step_refs (w : TObjs) (op : GivenOp) : ∃ x, (w.step op).refs = w.refs ++ x := by
  cases op with
  | newKids d => exact ⟨[], by simp [step, newKids, refs]⟩
  | newAttr a => exact ⟨[], by simp [step, newAttr, refs]⟩
  | putKid d l r => exact ⟨[], by simp [step]⟩
  | dropKid d l => exact ⟨[], by simp [step]⟩
  | putAttr a k v => exact ⟨[], by simp [step]⟩
  | dropAttr a k => exact ⟨[], by simp [step]⟩
  | make l c a p => exact (make_grown w l c a p).1
  | call op => exact treeStep_refs w op
  | copy fuel r =>
    unfold step
    simp only
    cases h : w.copy fuel r with
    | none => exact ⟨[], by simp⟩
    | some x =>
      cases x with
      | error e => exact ⟨[], by simp⟩
      | ok z => exact copy_refs h

theorem run_refs (ops : List GivenOp) : ∀ w : TObjs, ∃ x, (w.run ops).refs = w.refs ++ x := by
  induction ops with
  | nil => intro w; exact ⟨[], by simp [run]⟩
  | cons op ops ih =>
    intro w
    obtain ⟨x, hx⟩ := step_refs w op
    obtain ⟨y, hy⟩ := ih (w.step op)
    exact ⟨x ++ y, by rw [run, hy, hx, List.append_assoc]⟩

theorem shown_later {w w' : TObjs} (h : ∃ x, w'.refs = w.refs ++ x) {i : Nat} {n : TObj} (hn : w.nodes[i]? = some n) :
    (w'.view.node i).children = w'.kidsAt n.kids ∧ (w'.view.node i).attrib = w'.attrAt n.attr := by
  obtain ⟨x, hx⟩ := h
  have hi : i < w.refs.length := by rw [refs_length]; exact (List.getElem?_eq_some_iff.1 hn).1
  have : w'.refs[i]? = some (n.kids, n.attr) := by rw [hx, List.getElem?_append_left hi, refs_get, hn]; rfl
  rw [refs_get] at this
  cases hm : w'.nodes[i]? with
  | none => rw [hm] at this; cases this
  | some m =>
    rw [hm] at this
    simp only [Option.map_some, Option.some.injEq, Prod.mk.injEq] at this
    rw [view_node w' hm]
    exact ⟨by simp [shown, this.1], by simp [shown, this.2]⟩

theorem changeKids_one (w : TObjs) (d : Nat) (f) : (∀ e, e ≠ d → (w.changeKids d f).kidsAt e = w.kidsAt e) ∧ ∀ e, (w.changeKids d f).attrAt e = w.attrAt e :=
  ⟨fun e he => by simp [kidsAt, changeKids, List.getElem?_modify, Ne.symm he], fun _ => rfl⟩

theorem changeAttr_one (w : TObjs) (d : Nat) (f) : (∀ e, e ≠ d → (w.changeAttr d f).attrAt e = w.attrAt e) ∧ ∀ e, (w.changeAttr d f).kidsAt e = w.kidsAt e :=
  ⟨fun e he => by simp [attrAt, changeAttr, List.getElem?_modify, Ne.symm he], fun _ => rfl⟩

theorem changeKidsOf_one (w : TObjs) (r : Nat) (f) :
    ∃ d, (∀ e, e ≠ d → (w.changeKidsOf r f).kidsAt e = w.kidsAt e) ∧ ∀ e, (w.changeKidsOf r f).attrAt e = w.attrAt e := by
  unfold changeKidsOf
  cases w.nodes[r]? with
  | none => exact ⟨0, fun _ _ => rfl, fun _ => rfl⟩
  | some n => exact ⟨n.kids, changeKids_one w n.kids f⟩

theorem changeAttrOf_one (w : TObjs) (r : Nat) (f) :
    ∃ d, (∀ e, e ≠ d → (w.changeAttrOf r f).attrAt e = w.attrAt e) ∧ ∀ e, (w.changeAttrOf r f).kidsAt e = w.kidsAt e := by
  unfold changeAttrOf
  cases w.nodes[r]? with
  | none => exact ⟨0, fun _ _ => rfl, fun _ => rfl⟩
  | some n => exact ⟨n.attr, changeAttr_one w n.attr f⟩

/-- A step changes at most one dictionary of children and one of attributes. -/
def OneEach (w w' : TObjs) : Prop :=
  (∃ d, ∀ e < w.kidDicts.length, e ≠ d → w'.kidsAt e = w.kidsAt e) ∧ ∃ d, ∀ e < w.attrDicts.length, e ≠ d → w'.attrAt e = w.attrAt e

theorem OneEach.refl (w : TObjs) : OneEach w w := ⟨⟨0, fun _ _ _ => rfl⟩, ⟨0, fun _ _ _ => rfl⟩⟩

theorem oneEach_kids {w : TObjs} (r : Nat) (f) (c : Nat) (p : Option Nat) : OneEach w ((w.changeKidsOf r f).setParent c p) := by
  obtain ⟨d, h1, h2⟩ := changeKidsOf_one w r f
  exact ⟨⟨d, fun e _ he => h1 e he⟩, ⟨0, fun e _ _ => h2 e⟩⟩

theorem oneEach_attr {w : TObjs} (r : Nat) (f) : OneEach w (w.changeAttrOf r f) := by
  obtain ⟨d, h1, h2⟩ := changeAttrOf_one w r f
  exact ⟨⟨0, fun e _ _ => h2 e⟩, ⟨d, fun e _ he => h1 e he⟩⟩

theorem step_one {w : TObjs} (hok : w.Ok) (op : GivenOp) : OneEach w (w.step op) := by
  cases op with
  | newKids d => exact ⟨⟨0, fun e he _ => kidsAt_grown ⟨_, rfl⟩ he⟩, ⟨0, fun _ _ _ => rfl⟩⟩
  | newAttr a => exact ⟨⟨0, fun _ _ _ => rfl⟩, ⟨0, fun e he _ => attrAt_grown ⟨_, rfl⟩ he⟩⟩
  | putKid d l r => exact ⟨⟨d, fun e _ he => (changeKids_one w d _).1 e he⟩, ⟨0, fun _ _ _ => rfl⟩⟩
  | dropKid d l => exact ⟨⟨d, fun e _ he => (changeKids_one w d _).1 e he⟩, ⟨0, fun _ _ _ => rfl⟩⟩
  | putAttr a k v => exact ⟨⟨0, fun _ _ _ => rfl⟩, ⟨a, fun e _ he => (changeAttr_one w a _).1 e he⟩⟩
  | dropAttr a k => exact ⟨⟨0, fun _ _ _ => rfl⟩, ⟨a, fun e _ he => (changeAttr_one w a _).1 e he⟩⟩
  | make l c a p =>
    obtain ⟨_, h2, h3⟩ := make_grown w l c a p
    exact ⟨⟨0, fun e he _ => kidsAt_grown h2 he⟩, ⟨0, fun e he _ => attrAt_grown h3 he⟩⟩
  | copy fuel r =>
    unfold step
    simp only
    cases h : w.copy fuel r with
    | none => exact OneEach.refl w
    | some x =>
      cases x with
      | error e => exact OneEach.refl w
      | ok z =>
        obtain ⟨w', r'⟩ := z
        obtain ⟨_, k, _⟩ := (copy_sim hok fuel r).2 w' r' h
        exact ⟨⟨0, fun e he _ => by unfold kidsAt; rw [k.kids e he]⟩, ⟨0, fun e he _ => by unfold attrAt; rw [k.attr e he]⟩⟩
  | call op =>
    show OneEach w (w.treeStep op)
    cases op with
    | new l a =>
      obtain ⟨_, h2, h3⟩ := make_grown (w.newAttr a).1 l none (some (w.newAttr a).2) none
      refine ⟨⟨0, fun e he _ => kidsAt_grown h2 he⟩, ⟨0, fun e he _ => ?_⟩⟩
      refine (attrAt_grown h3 (by simp only [newAttr, List.length_append]; omega)).trans ?_
      exact attrAt_grown ⟨_, rfl⟩ he
    | add p c => exact oneEach_kids ..
    | set r k v => exact oneEach_attr ..
    | unset r k =>
      unfold treeStep
      simp only
      unfold delAttr
      cases Dict.get? (w.view.node r).attrib k with
      | none => exact OneEach.refl w
      | some v => exact oneEach_attr ..
    | del p c =>
      unfold treeStep
      simp only
      unfold delChild
      cases delItem (w.view.node p).children (w.view.node c).label with
      | error e => exact OneEach.refl w
      | ok d =>
        simp only
        obtain ⟨x, h1, h2⟩ := changeKidsOf_one w p (fun _ => d)
        obtain ⟨y, h3, h4⟩ := changeAttrOf_one (w.changeKidsOf p (fun _ => d)) c (fun a => Dict.set a (.str u!"parent") .none)
        exact ⟨⟨x, fun e _ he => (h4 e).trans (h1 e he)⟩, ⟨y, fun e _ he => (h3 e he).trans (h2 e)⟩⟩
    | unlink c =>
      unfold treeStep
      simp only
      unfold unlink
      cases (w.view.node c).parent with
      | none => exact OneEach.refl w
      | some p =>
        simp only
        by_cases he : ((w.view.node p).children).isEmpty = true
        · rw [if_pos he]; exact OneEach.refl w
        · rw [if_neg he]
          cases delItem (w.view.node p).children (w.view.node c).label with
          | error e => exact OneEach.refl w
          | ok d => exact oneEach_kids ..

theorem Own.kept {w w' : TObjs} (hf : Fresh w.nodes.length w.kidDicts.length w.attrDicts.length w')
    (hk : Kept w.nodes.length w.kidDicts.length w.attrDicts.length w w') (hok : w.Ok) {m : Nat} (h : w.Own m) : w'.Own m := by
  have hold : ∀ i < w.nodes.length, w'.refs[i]? = w.refs[i]? := fun i hi => by rw [refs_get, refs_get, hk.nodes i hi]
  intro i j x y hi hx hy hne
  by_cases hi' : i < w.nodes.length
  · by_cases hj : j < w.nodes.length
    · exact h i j x y hi (by rw [← hold i hi']; exact hx) (by rw [← hold j hj]; exact hy) hne
    · obtain ⟨h1, h2⟩ := hf.own j i y x (by omega) hy hx (Ne.symm hne)
      exact ⟨Ne.symm h1, Ne.symm h2⟩
  · exact hf.own i j x y (by omega) hx hy hne

end TObjs

/-- C142: from then on a node shows what its dictionaries hold, whatever a program does: two nodes with one dictionary always show the same, and so does the
dictionary for the program that holds it. -/
theorem C142_stays (w : TObjs) (ops : List GivenOp) (i : Nat) (n : TObj) (hi : w.nodes[i]? = some n) :
    ((w.run ops).view.node i).children = (w.run ops).kidsAt n.kids ∧ ((w.run ops).view.node i).attrib = (w.run ops).attrAt n.attr ∧
    ∀ j m, w.nodes[j]? = some m →
      (m.kids = n.kids → ((w.run ops).view.node j).children = ((w.run ops).view.node i).children) ∧
      (m.attr = n.attr → ((w.run ops).view.node j).attrib = ((w.run ops).view.node i).attrib) := by
  have h := TObjs.shown_later (TObjs.run_refs ops w) hi
  refine ⟨h.1, h.2, fun j m hj => ?_⟩
  have g := TObjs.shown_later (TObjs.run_refs ops w) hj
  exact ⟨fun e => by rw [h.1, g.1, e], fun e => by rw [h.2, g.2, e]⟩

/-- C142: a step that changes the children that one node shows changes those of exactly the nodes with the same dictionary, and likewise for attributes. -/
theorem C142_changes_iff (w : TObjs) (hok : w.Ok) (op : GivenOp) (i j : Nat) (n m : TObj) (hi : w.nodes[i]? = some n) (hj : w.nodes[j]? = some m) :
    (((w.step op).view.node i).children ≠ (w.view.node i).children →
      (((w.step op).view.node j).children ≠ (w.view.node j).children ↔ m.kids = n.kids)) ∧
    (((w.step op).view.node i).attrib ≠ (w.view.node i).attrib →
      (((w.step op).view.node j).attrib ≠ (w.view.node j).attrib ↔ m.attr = n.attr)) := by
  obtain ⟨⟨d, hd⟩, ⟨a, ha⟩⟩ := TObjs.step_one hok op
  obtain ⟨h1, h2⟩ := TObjs.shown_later (TObjs.step_refs w op) hi
  obtain ⟨g1, g2⟩ := TObjs.shown_later (TObjs.step_refs w op) hj
  have e1 : (w.view.node i).children = w.kidsAt n.kids ∧ (w.view.node i).attrib = w.attrAt n.attr := by rw [TObjs.view_node w hi]; exact ⟨rfl, rfl⟩
  have e2 : (w.view.node j).children = w.kidsAt m.kids ∧ (w.view.node j).attrib = w.attrAt m.attr := by rw [TObjs.view_node w hj]; exact ⟨rfl, rfl⟩
  rw [h1, h2, g1, g2, e1.1, e1.2, e2.1, e2.2]
  have bi := hok.get hi
  have bj := hok.get hj
  constructor
  · intro hc
    have hn : n.kids = d := Classical.byContradiction (fun hne => hc (hd _ bi.1 hne))
    constructor
    · intro hc'
      rw [hn]
      exact Classical.byContradiction (fun hne => hc' (hd _ bj.1 hne))
    · intro e; rw [e]; exact hc
  · intro hc
    have hn : n.attr = a := Classical.byContradiction (fun hne => hc (ha _ bi.2 hne))
    constructor
    · intro hc'
      rw [hn]
      exact Classical.byContradiction (fun hne => hc' (ha _ bj.2 hne))
    · intro e; rw [e]; exact hc

/-- C142: `add_child` and setting an attribute act as if the node had dictionaries of its own exactly if no other node refers to the dictionary that they
change, or nothing changes in it. -/
theorem C142_as_if_own_iff (w : TObjs) (hok : w.Ok) (r : Nat) (n : TObj) (hr : w.nodes[r]? = some n) :
    (∀ c, (w.addChild r c).view = addChild w.view r c ↔
      ∀ q m, q ≠ r → w.nodes[q]? = some m → m.kids = n.kids → Dict.set (w.kidsAt n.kids) (w.view.node c).label c = w.kidsAt n.kids) ∧
    ∀ k v, (w.setAttr r k v).view = setAttr w.view r k v ↔
      ∀ q m, q ≠ r → w.nodes[q]? = some m → m.attr = n.attr → Dict.set (w.attrAt n.attr) k v = w.attrAt n.attr := by
  constructor
  · intro c
    refine Iff.trans ?_ (TObjs.view_changeKidsOf_iff hok hr (fun d => Dict.set d (w.view.node c).label c))
    unfold TObjs.addChild addChild
    rw [TObjs.view_setParent]
    constructor
    · intro h
      apply List.ext_getElem?
      intro i
      have hg := congrArg (fun l : Heap => l[i]?) h
      simp only [upd_getElem? _ c] at hg
      by_cases e : c = i
      · subst e
        simp only [if_pos] at hg
        -- the parents agree before `setParent`
        have hp : ∀ x : Heap, x = (w.changeKidsOf r (fun d => Dict.set d (w.view.node c).label c)).view ∨
            x = w.view.upd r (fun n => { n with children := Dict.set n.children (w.view.node c).label c }) →
            (x[c]?).map TNode.parent = (w.view[c]?).map TNode.parent := by
          rintro x (rfl | rfl)
          · rw [TObjs.view_get, TObjs.view_get, TObjs.changeKidsOf_nodes]
            cases w.nodes[c]? <;> rfl
          · rw [upd_getElem?]
            by_cases e : r = c
            · rw [if_pos e]; cases w.view[c]? <;> rfl
            · rw [if_neg e]
        have a1 := hp _ (Or.inl rfl)
        have a2 := hp _ (Or.inr rfl)
        generalize hx : (w.changeKidsOf r (fun d => Dict.set d (w.view.node c).label c)).view[c]? = x at hg a1
        generalize hy : (w.view.upd r (fun n => { n with children := Dict.set n.children (w.view.node c).label c }))[c]? = y at hg a2
        rw [← a2] at a1
        cases x with
        | none => cases y with
          | none => rfl
          | some y => cases hg
        | some x => cases y with
          | none => cases hg
          | some y =>
            obtain ⟨l, k, a, p⟩ := x
            obtain ⟨l', k', a', p'⟩ := y
            simp only [Option.map_some, Option.some.injEq, TNode.mk.injEq] at hg a1
            obtain ⟨h1, h2, h3, _⟩ := hg
            rw [h1, h2, h3, a1]
      · simpa only [if_neg e] using hg
    · intro h
      rw [h]
  · intro k v
    exact TObjs.view_changeAttrOf_iff hok hr (fun a => Dict.set a k v)

/-- C142: a program that gives no dictionary of its own to a node, and no dictionary of one node to another, sees what it would see if every node held its
dictionaries itself; this is what the other properties of trees assume. -/
theorem C142_programs (w : TObjs) (hok : w.Ok) (hown : w.Own 0) (ops : List TreeOp) :
    (w.treeRun ops).view = TreeOp.run w.view ops ∧ (w.treeRun ops).Ok ∧ (w.treeRun ops).Own 0 := by
  have h : ∀ (ops : List TreeOp) (w : TObjs), TObjs.Fresh 0 0 0 w → (w.treeRun ops).view = TreeOp.run w.view ops ∧ (w.treeRun ops).Ok ∧ (w.treeRun ops).Own 0 := by
    intro ops
    induction ops with
    | nil => intro w h; exact ⟨rfl, h.ok, h.own⟩
    | cons op ops ih =>
      intro w h
      obtain ⟨a1, a2⟩ := TObjs.treeStep_sim h op
      rw [TObjs.treeRun, TreeOp.run, ← a2]
      exact ih _ a1
  exact h ops w (TObjs.Fresh.all hok hown)

/-- C142: whatever nodes share, `copy` gives what it would give if they shared nothing, changes no node and no dictionary, and the copied nodes have
new dictionaries, each its own. -/
theorem C142_copy (w : TObjs) (hok : w.Ok) (fuel r : Nat) :
    TObjs.shownCopy (w.copy fuel r) = treeCopy w.view fuel r ∧
    ∀ w' r', w.copy fuel r = some (.ok (w', r')) →
      (∀ i < w.nodes.length, w'.nodes[i]? = w.nodes[i]?) ∧ (∀ d < w.kidDicts.length, w'.kidsAt d = w.kidsAt d) ∧
      (∀ d < w.attrDicts.length, w'.attrAt d = w.attrAt d) ∧ w'.Ok ∧
      (∀ i n, w.nodes.length ≤ i → w'.nodes[i]? = some n → w.kidDicts.length ≤ n.kids ∧ w.attrDicts.length ≤ n.attr ∧
        ∀ j m, j ≠ i → w'.nodes[j]? = some m → m.kids ≠ n.kids ∧ m.attr ≠ n.attr) ∧
      ∀ k, w.Own k → w'.Own k := by
  obtain ⟨a1, a2⟩ := TObjs.copy_sim hok fuel r
  refine ⟨a1, fun w' r' e => ?_⟩
  obtain ⟨b1, b2, _⟩ := a2 w' r' e
  refine ⟨b2.nodes, fun d hd => by unfold TObjs.kidsAt; rw [b2.kids d hd], fun d hd => by unfold TObjs.attrAt; rw [b2.attr d hd], b1.ok, ?_,
    fun k hk => TObjs.Own.kept b1 b2 hok hk⟩
  intro i n hi hn
  have hx : w'.refs[i]? = some (n.kids, n.attr) := by rw [TObjs.refs_get, hn]; rfl
  refine ⟨(b1.new i _ hi hx).1, (b1.new i _ hi hx).2, fun j m hj hm => ?_⟩
  have := b1.own i j _ (m.kids, m.attr) hi hx (by rw [TObjs.refs_get, hm]; rfl) (Ne.symm hj)
  exact ⟨Ne.symm this.1, Ne.symm this.2⟩

/-- C142: the same for `prune` with any predicate. -/
theorem C142_prune {S : Type} (ask : PruneAsk S) (w : TObjs) (hok : w.Ok) (hk : Spec.KidsOk w.view) (fuel r : Nat) (hr : r < w.nodes.length) (s : S) :
    (w.prune ask fuel r s).map (fun x => (x.1.view, x.2)) = treePruneAsk ask w.view fuel r s ∧
    ∀ w' x, w.prune ask fuel r s = some (w', x) →
      (∀ i < w.nodes.length, w'.nodes[i]? = w.nodes[i]?) ∧ (∀ d < w.kidDicts.length, w'.kidsAt d = w.kidsAt d) ∧
      (∀ d < w.attrDicts.length, w'.attrAt d = w.attrAt d) ∧
      ∀ i n, w.nodes.length ≤ i → w'.nodes[i]? = some n → w.kidDicts.length ≤ n.kids ∧ w.attrDicts.length ≤ n.attr ∧
        ∀ j m, j ≠ i → w'.nodes[j]? = some m → m.kids ≠ n.kids ∧ m.attr ≠ n.attr := by
  obtain ⟨a1, a2⟩ := TObjs.prune_sim ask hok hk fuel r hr s
  refine ⟨a1, fun w' x e => ?_⟩
  obtain ⟨b2, b1⟩ := a2 w' x e
  refine ⟨b2.nodes, fun d hd => by unfold TObjs.kidsAt; rw [b2.kids d hd], fun d hd => by unfold TObjs.attrAt; rw [b2.attr d hd], ?_⟩
  intro i n hi hn
  have hx : w'.refs[i]? = some (n.kids, n.attr) := by rw [TObjs.refs_get, hn]; rfl
  refine ⟨(b1.new i _ hi hx).1, (b1.new i _ hi hx).2, fun j m hj hm => ?_⟩
  have := b1.own i j _ (m.kids, m.attr) hi hx (by rw [TObjs.refs_get, hm]; rfl) (Ne.symm hj)
  exact ⟨Ne.symm this.1, Ne.symm this.2⟩

/-! Two nodes made from one dictionary, and a copy of one of them. -/

/-- `x = TreeNode("x"); d = {"x": x}; a = TreeNode("a", d); b = TreeNode("b", d)` -/
def givenDemo : TObjs := (TObjs.mk [] [] []).run [.call (.new u!"x" []), .newKids [(u!"x", 0)], .make u!"a" (some 1) none none, .make u!"b" (some 1) none none]

example : givenDemo.Ok ∧ (givenDemo.nodes.map TObj.kids) = [0, 1, 1] := by
  refine ⟨?_, by decide +kernel⟩
  unfold TObjs.Ok
  decide +kernel

/-- `y = TreeNode("y"); a.add_child(y)`: `b` has the child as well. -/
example : (givenDemo.run [.call (.new u!"y" []), .call (.add 1 3)]).view.map (fun n => (n.label, n.children)) =
    [(u!"x", []), (u!"a", [(u!"x", 0), (u!"y", 3)]), (u!"b", [(u!"x", 0), (u!"y", 3)]), (u!"y", [])] := by decide +kernel

/-- `c = a.copy(); y = TreeNode("y"); a.add_child(y)`: the copy has not. -/
example : (givenDemo.run [.copy 9 1, .call (.new u!"y" []), .call (.add 1 5)]).view.map (fun n => (n.label, n.children)) =
    [(u!"x", []), (u!"a", [(u!"x", 0), (u!"y", 5)]), (u!"b", [(u!"x", 0), (u!"y", 5)]), (u!"a", [(u!"x", 4)]), (u!"x", []), (u!"y", [])] := by decide +kernel

/-- `d = {}; a = TreeNode("a", d); d["x"] = a`: `a` has no child. -/
example : ((TObjs.mk [] [] []).run [.newKids [], .make u!"a" (some 0) none none, .putKid 0 u!"x" 0]).view.map TNode.children = [[]] := by decide +kernel

end Cjk
