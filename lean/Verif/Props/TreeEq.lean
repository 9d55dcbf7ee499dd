import Verif.Spec.TreeEq
import Verif.Lemmas.Tree
import Verif.Props.TreeCopy
import Mathlib.Data.List.Nodup
import Mathlib.Data.List.Perm.Subperm
/-!
# C85: equality of tree nodes
-/

namespace Cjk
open Py

theorem AForest.sameIn_iff (us : List (Str × ATree)) : ∀ k : AForest,
    k.sameIn us ↔ ∀ kt ∈ k.items, ∃ c, (kt.1, c) ∈ us ∧ kt.2.same c
  | .nil => by simp [AForest.sameIn, AForest.items]
  | .cons key t rest => by simp only [AForest.sameIn, AForest.items, List.forall_mem_cons, AForest.sameIn_iff us rest]

theorem ATree.same_node (r : Nat) (l : Str) (a : Attrib) (k : AForest) (u : ATree) : (ATree.node r l a k).same u ↔
    l = u.label ∧ (∀ x, Dict.get? a x = Dict.get? u.attrib x) ∧
      (∀ x, x ∈ u.kids.items.map Prod.fst → x ∈ k.items.map Prod.fst) ∧
      ∀ kt ∈ k.items, ∃ c, (kt.1, c) ∈ u.kids.items ∧ kt.2.same c := by
  rw [ATree.same, AForest.sameIn_iff]

theorem subset_back {α : Type} {l m : List α} (hl : l.Nodup) (hs : ∀ x ∈ l, x ∈ m) (hlen : m.length ≤ l.length) :
    ∀ x ∈ m, x ∈ l := by
  have := (hl.subperm hs).perm_of_length_le hlen
  exact fun x hx => this.mem_iff.2 hx

theorem length_le_of_subset {α : Type} {l m : List α} (hl : l.Nodup) (hs : ∀ x ∈ l, x ∈ m) : l.length ≤ m.length :=
  (hl.subperm hs).length_le

theorem attribEq_iff (a b : Attrib) (ha : Dict.WF a) (hb : Dict.WF b) :
    attribEq a b = true ↔ ∀ x, Dict.get? a x = Dict.get? b x := by
  have ka : (Dict.keys a).length = a.length := by simp [Dict.keys]
  have kb : (Dict.keys b).length = b.length := by simp [Dict.keys]
  unfold attribEq
  simp only [Bool.and_eq_true, beq_iff_eq, List.all_eq_true]
  constructor
  · rintro ⟨hlen, hall⟩ x
    have hsub : ∀ y ∈ Dict.keys a, y ∈ Dict.keys b := by
      intro y hy
      obtain ⟨kv, hkv, rfl⟩ := List.mem_map.1 hy
      rw [← Dict.get?_isSome_iff, hall kv hkv]; rfl
    have hback := subset_back ha hsub (by omega)
    cases e : Dict.get? a x with
    | none =>
      rw [Dict.get?_eq_none_iff] at e
      symm; rw [Dict.get?_eq_none_iff]
      exact fun hx => e (hback x hx)
    | some v =>
      have := hall (x, v) ((Dict.get?_eq_some_iff ha x v).1 e)
      exact this.symm
  · intro hx
    have h1 : ∀ y ∈ Dict.keys a, y ∈ Dict.keys b := by
      intro y hy; rw [← Dict.get?_isSome_iff, ← hx, Dict.get?_isSome_iff]; exact hy
    have h2 : ∀ y ∈ Dict.keys b, y ∈ Dict.keys a := by
      intro y hy; rw [← Dict.get?_isSome_iff, hx, Dict.get?_isSome_iff]; exact hy
    refine ⟨?_, ?_⟩
    · have := length_le_of_subset ha h1
      have := length_le_of_subset hb h2
      omega
    · intro kv hkv
      rw [← hx]; exact (Dict.get?_eq_some_iff ha kv.1 kv.2).2 hkv

theorem foldr_guard {α : Type} (F : α → Option Bool → Option Bool) (g : α → Bool) (l : List α)
    (h : ∀ x ∈ l, ∀ acc, F x acc = if g x then acc else some false) : l.foldr F (some true) = some (l.all g) := by
  induction l with
  | nil => rfl
  | cons x l ih =>
    rw [List.foldr_cons, h x (by simp), ih (fun y hy => h y (by simp [hy])), List.all_cons]
    cases g x <;> rfl

theorem keysDistinct_kids {t : ATree} (h : t.keysDistinct) : ∀ kt ∈ t.kids.items, kt.2.keysDistinct := by
  obtain ⟨r, l, a, k⟩ := t
  exact (AForest.keysDistinct_iff k).1 h.2

theorem keysDistinct_nodup {t : ATree} (h : t.keysDistinct) : (t.kids.items.map Prod.fst).Nodup := by
  obtain ⟨r, l, a, k⟩ := t
  exact h.1

theorem attribsOk_kids {t : ATree} (h : t.attribsOk) : ∀ kt ∈ t.kids.items, kt.2.attribsOk := by
  obtain ⟨r, l, a, k⟩ := t
  intro kt hkt s hs
  refine h s ?_
  rw [ATree.subs_node]
  exact List.mem_cons_of_mem _ (List.mem_flatMap.2 ⟨kt, hkt, hs⟩)

theorem dict_WF {t : ATree} (h : t.keysDistinct) : Dict.WF t.kids.dict := by
  unfold Dict.WF; rw [AForest.keys_dict]; exact keysDistinct_nodup h

open Classical in
theorem nodeEq_same (h : Heap) (t : ATree) : ∀ (u : ATree) (fuel : Nat), Rep h t → Rep h u → t.keysDistinct → u.keysDistinct →
    t.attribsOk → u.attribsOk → t.size ≤ fuel → nodeEq h fuel t.ref u.ref = some (decide (t.same u)) := by
  induction t using ATree.ind with
  | h r l a k ih =>
    intro u fuel hr hu hk hku ha hau hf
    obtain ⟨fuel, rfl⟩ : ∃ f, fuel = f + 1 := ⟨fuel - 1, by rw [ATree.size_node] at hf; omega⟩
    have e1 := hr.lookup
    have e2 := hu.lookup
    simp only [ATree.ref, ATree.label, ATree.kids, ATree.attrib] at e1
    have hA := attribEq_iff a u.attrib (ha _ (ATree.mem_subs_self _)) (hau _ (ATree.mem_subs_self _))
    have hsz : ∀ kt ∈ k.items, kt.2.size ≤ fuel := by
      intro kt hkt
      rw [ATree.size_node] at hf
      have : kt.2.size ≤ (k.items.map (fun kt => kt.2.size)).sum :=
        mem_le_sum (List.mem_map_of_mem (f := fun kt : Str × ATree => kt.2.size) hkt)
      omega
    have hl1 : k.dict.length = (k.items.map Prod.fst).length := by simp [AForest.dict]
    have hl2 : u.kids.dict.length = (u.kids.items.map Prod.fst).length := by simp [AForest.dict]
    show nodeEq h (fuel + 1) r u.ref = _
    simp only [nodeEq, e1.1, e2.1, e1.2.1, e2.2.1, e1.2.2, e2.2.2]
    by_cases hlab : l = u.label
    · rw [if_neg (by simpa using hlab)]
      by_cases hatt : attribEq a u.attrib = true
      · rw [if_neg (by simp [hatt])]
        by_cases hlen : k.dict.length = u.kids.dict.length
        · rw [if_neg (by simpa using hlen)]
          rw [foldr_guard _ (fun kv => decide (∃ c, (kv.1, c) ∈ u.kids.items ∧ ∃ kt ∈ k.items, kv = (kt.1, kt.2.ref) ∧ kt.2.same c))]
          · congr 1
            rw [Bool.eq_iff_iff, List.all_eq_true, decide_eq_true_iff, ATree.same_node]
            have hitem : ∀ kt ∈ k.items, (∃ c, (kt.1, c) ∈ u.kids.items ∧ ∃ kt' ∈ k.items, (kt.1, kt.2.ref) = (kt'.1, kt'.2.ref) ∧
                kt'.2.same c) ↔ ∃ c, (kt.1, c) ∈ u.kids.items ∧ kt.2.same c := by
              intro kt hkt
              constructor
              · rintro ⟨c, hc, kt', hkt', e, hs⟩
                have e1' : kt.1 = kt'.1 := (Prod.mk.injEq .. ▸ e).1
                have : kt.2 = kt'.2 := by
                  have w : Dict.WF k.items := hk.1
                  have g1 := (Dict.get?_eq_some_iff w kt.1 kt.2).2 hkt
                  have g2 := (Dict.get?_eq_some_iff w kt'.1 kt'.2).2 hkt'
                  rw [e1', g2] at g1; exact (Option.some.inj g1).symm
                exact ⟨c, hc, this ▸ hs⟩
              · rintro ⟨c, hc, hs⟩
                exact ⟨c, hc, kt, hkt, rfl, hs⟩
            constructor
            · intro hall
              have hkids : ∀ kt ∈ k.items, ∃ c, (kt.1, c) ∈ u.kids.items ∧ kt.2.same c := by
                intro kt hkt
                have := hall (kt.1, kt.2.ref) (List.mem_map_of_mem (f := fun kt : Str × ATree => (kt.1, kt.2.ref)) hkt)
                exact (hitem kt hkt).1 (of_decide_eq_true this)
              refine ⟨hlab, hA.1 hatt, ?_, hkids⟩
              refine subset_back hk.1 ?_ (by omega)
              intro x hx
              obtain ⟨kt, hkt, rfl⟩ := List.mem_map.1 hx
              obtain ⟨c, hc, _⟩ := hkids kt hkt
              exact List.mem_map.2 ⟨_, hc, rfl⟩
            · rintro ⟨_, _, _, hkids⟩ kv hkv
              obtain ⟨kt, hkt, rfl⟩ := List.mem_map.1 hkv
              exact decide_eq_true ((hitem kt hkt).2 (hkids kt hkt))
          · intro kv hkv acc
            obtain ⟨kt, hkt, rfl⟩ := List.mem_map.1 hkv
            cases hg : Dict.get? u.kids.dict kt.1 with
            | none =>
              rw [if_neg]
              rw [Dict.get?_eq_none_iff, AForest.keys_dict] at hg
              simp only [decide_eq_true_eq]
              rintro ⟨c, hc, _⟩
              exact hg (List.mem_map.2 ⟨_, hc, rfl⟩)
            | some w =>
              have hm := (Dict.get?_eq_some_iff (dict_WF hku) kt.1 w).1 hg
              obtain ⟨kt', hkt', e⟩ := List.mem_map.1 hm
              simp only [Prod.mk.injEq] at e
              obtain ⟨e3, rfl⟩ := e
              have := ih kt hkt kt'.2 fuel (hr.kids kt hkt) (hu.kids kt' hkt') (keysDistinct_kids hk kt hkt) (keysDistinct_kids hku kt' hkt')
                (attribsOk_kids ha kt hkt) (attribsOk_kids hau kt' hkt') (hsz kt hkt)
              have hiff : (∃ c, (kt.1, c) ∈ u.kids.items ∧ ∃ kt'' ∈ k.items, (kt.1, kt.2.ref) = (kt''.1, kt''.2.ref) ∧ kt''.2.same c) ↔
                  kt.2.same kt'.2 := by
                constructor
                · rintro ⟨c, hc, kt'', hkt'', e, hs⟩
                  have w : Dict.WF k.items := hk.1
                  have e1' : kt.1 = kt''.1 := (Prod.mk.injEq .. ▸ e).1
                  have g1 := (Dict.get?_eq_some_iff w kt.1 kt.2).2 hkt
                  have g2 := (Dict.get?_eq_some_iff w kt''.1 kt''.2).2 hkt''
                  rw [e1', g2] at g1
                  rw [← Option.some.inj g1]
                  have w' : Dict.WF u.kids.items := keysDistinct_nodup hku
                  have g3 := (Dict.get?_eq_some_iff w' kt.1 c).2 hc
                  have g4 := (Dict.get?_eq_some_iff w' kt'.1 kt'.2).2 hkt'
                  rw [← e3, g4] at g3
                  rw [Option.some.inj g3]; exact hs
                · intro hs
                  exact ⟨kt'.2, by rw [← e3]; exact hkt', kt, hkt, rfl, hs⟩
              simp only [this]
              by_cases hs : kt.2.same kt'.2
              · rw [if_pos (decide_eq_true (hiff.2 hs))]; simp [hs]
              · rw [if_neg (by simpa only [decide_eq_true_eq, hiff] using hs)]; simp [hs]
        · rw [if_pos (by simpa using hlen)]
          congr 1
          symm
          rw [decide_eq_false_iff_not, ATree.same_node]
          rintro ⟨_, _, h3, h4⟩
          refine hlen ?_
          have h5 : ∀ x ∈ k.items.map Prod.fst, x ∈ u.kids.items.map Prod.fst := by
            intro x hx
            obtain ⟨kt, hkt, rfl⟩ := List.mem_map.1 hx
            obtain ⟨c, hc, _⟩ := h4 kt hkt
            exact List.mem_map.2 ⟨_, hc, rfl⟩
          have := length_le_of_subset hk.1 h5
          have := length_le_of_subset (keysDistinct_nodup hku) h3
          omega
      · rw [if_pos (by simpa using hatt)]
        congr 1
        symm
        rw [decide_eq_false_iff_not, ATree.same_node]
        rintro ⟨_, h2, _⟩
        exact hatt (hA.2 h2)
    · rw [if_pos (by simpa using hlab)]
      congr 1
      symm
      rw [decide_eq_false_iff_not, ATree.same_node]
      exact fun hs => hlab hs.1

/-- C85: for all trees on the heap, `==` terminates; it is `True` exactly on trees that are the same up to the order of children and
attributes, and `False` otherwise. -/
theorem C85_eq_iff (h : Heap) (t u : ATree) (ht : Rep h t) (hu : Rep h u) (hk : t.keysDistinct) (hku : u.keysDistinct)
    (ha : t.attribsOk) (hau : u.attribsOk) (fuel : Nat) (hf : t.size ≤ fuel) :
    (nodeEq h fuel t.ref u.ref = some true ↔ t.same u) ∧ (nodeEq h fuel t.ref u.ref = some false ↔ ¬ t.same u) := by
  classical
  rw [nodeEq_same h t u fuel ht hu hk hku ha hau hf]
  simp

/-! #### An equivalence relation -/

theorem same_refl (t : ATree) : t.same t := by
  induction t using ATree.ind with
  | h r l a k ih =>
    rw [ATree.same_node]
    exact ⟨rfl, fun _ => rfl, fun _ hx => hx, fun kt hkt => ⟨kt.2, hkt, ih kt hkt⟩⟩

theorem same_symm (t : ATree) : ∀ u : ATree, u.keysDistinct → t.same u → u.same t := by
  induction t using ATree.ind with
  | h r l a k ih =>
    intro u hk hs
    obtain ⟨r', l', a', k'⟩ := u
    rw [ATree.same_node] at hs ⊢
    obtain ⟨h1, h2, h3, h4⟩ := hs
    have hkk := keysDistinct_kids hk
    simp only [ATree.label, ATree.attrib, ATree.kids] at *
    refine ⟨h1.symm, fun x => (h2 x).symm, ?_, ?_⟩
    · intro x hx
      obtain ⟨kt, hkt, rfl⟩ := List.mem_map.1 hx
      obtain ⟨c, hc, _⟩ := h4 kt hkt
      exact List.mem_map.2 ⟨_, hc, rfl⟩
    · intro kt' hkt'
      obtain ⟨kt, hkt, e⟩ := List.mem_map.1 (h3 kt'.1 (List.mem_map.2 ⟨_, hkt', rfl⟩))
      obtain ⟨c, hc, hs⟩ := h4 kt hkt
      have w : Dict.WF k'.items := hk.1
      have g1 := (Dict.get?_eq_some_iff w kt.1 c).2 hc
      have g2 := (Dict.get?_eq_some_iff w kt'.1 kt'.2).2 hkt'
      rw [e, g2] at g1
      have ec := Option.some.inj g1
      subst ec
      exact ⟨kt.2, by rw [← e]; exact hkt, ih kt hkt kt'.2 (hkk kt' hkt') hs⟩

theorem same_trans (t : ATree) : ∀ u v : ATree, t.same u → u.same v → t.same v := by
  induction t using ATree.ind with
  | h r l a k ih =>
    intro u v h1 h2
    obtain ⟨r', l', a', k'⟩ := u
    rw [ATree.same_node] at h1 h2 ⊢
    obtain ⟨a1, b1, c1, d1⟩ := h1
    obtain ⟨a2, b2, c2, d2⟩ := h2
    simp only [ATree.label, ATree.attrib, ATree.kids] at *
    refine ⟨a1.trans a2, fun x => (b1 x).trans (b2 x), fun x hx => c1 x (c2 x hx), ?_⟩
    intro kt hkt
    obtain ⟨c, hc, hs⟩ := d1 kt hkt
    obtain ⟨c', hc', hs'⟩ := d2 _ hc
    exact ⟨c', hc', ih kt hkt c c' hs hs'⟩

/-- C85: `==` is an equivalence relation on trees. -/
theorem C85_equivalence (h : Heap) (t u v : ATree) (ht : Rep h t) (hu : Rep h u) (hv : Rep h v) (kt : t.keysDistinct)
    (ku : u.keysDistinct) (kv : v.keysDistinct) (at' : t.attribsOk) (au : u.attribsOk) (av : v.attribsOk) (fuel : Nat)
    (ft : t.size ≤ fuel) (fu : u.size ≤ fuel) :
    nodeEq h fuel t.ref t.ref = some true ∧
    nodeEq h fuel t.ref u.ref = nodeEq h fuel u.ref t.ref ∧
    (nodeEq h fuel t.ref u.ref = some true → nodeEq h fuel u.ref v.ref = some true → nodeEq h fuel t.ref v.ref = some true) := by
  classical
  rw [nodeEq_same h t t fuel ht ht kt kt at' at' ft, nodeEq_same h t u fuel ht hu kt ku at' au ft,
    nodeEq_same h u t fuel hu ht ku kt au at' fu, nodeEq_same h u v fuel hu hv ku kv au av fu,
    nodeEq_same h t v fuel ht hv kt kv at' av ft]
  refine ⟨by simpa using same_refl t, ?_, ?_⟩
  · have : t.same u ↔ u.same t := ⟨same_symm t u ku, same_symm u t kt⟩
    simp [this]
  · simp only [Option.some.injEq, decide_eq_true_eq]
    exact same_trans t u v

/-- Two trees with the same children in different orders, and a third one that differs below. -/
def eqDemo : Heap :=
  [⟨u!"r", [(u!"a", 1), (u!"b", 2)], [], none⟩, ⟨u!"a", [], [], some 0⟩, ⟨u!"b", [], [], some 0⟩,
   ⟨u!"r", [(u!"b", 5), (u!"a", 4)], [], none⟩, ⟨u!"a", [], [], some 3⟩, ⟨u!"b", [], [], some 3⟩,
   ⟨u!"r", [(u!"b", 8), (u!"a", 7)], [], none⟩, ⟨u!"a", [], [], some 6⟩, ⟨u!"b", [], [(.int 1, .none)], some 6⟩]

/-- The trees of `eqDemo`. -/
def eqDemoTree (r x y : Nat) (ab : Bool) (att : Attrib) : ATree :=
  .node r u!"r" [] (if ab then .cons u!"a" (.node x u!"a" [] .nil) (.cons u!"b" (.node y u!"b" att .nil) .nil)
    else .cons u!"b" (.node y u!"b" att .nil) (.cons u!"a" (.node x u!"a" [] .nil) .nil))

/-- The hypotheses of `C85_eq_iff` and `C85_equivalence` can be met, with both outcomes. -/
example : Rep eqDemo (eqDemoTree 0 1 2 true []) ∧ Rep eqDemo (eqDemoTree 3 4 5 false []) ∧
    Rep eqDemo (eqDemoTree 6 7 8 false [(.int 1, .none)]) ∧
    (eqDemoTree 0 1 2 true []).keysDistinct ∧ (eqDemoTree 3 4 5 false []).keysDistinct ∧
    (eqDemoTree 6 7 8 false [(.int 1, .none)]).keysDistinct ∧
    nodeEq eqDemo 3 0 3 = some true ∧ nodeEq eqDemo 3 0 6 = some false := by
  refine ⟨?_, ?_, ?_, ?_, ?_, ?_, by decide, by decide⟩ <;>
    simp [eqDemoTree, eqDemo, Rep, RepF, AForest.dict, AForest.items, ATree.ref, ATree.keysDistinct, AForest.keysDistinct]

end Cjk
