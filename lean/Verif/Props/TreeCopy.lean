import Verif.Lemmas.Tree
import Mathlib.Data.List.Forall2
/-!
# C49: `copy` is a faithful, independent copy
-/

namespace Cjk
open Py

theorem upd_upd (h : Heap) (x : Nat) (f g : TNode → TNode) : (h.upd x f).upd x g = h.upd x (g ∘ f) := by
  apply List.ext_getElem?
  intro i
  rw [upd_getElem?, upd_getElem?, upd_getElem?]
  by_cases e : x = i <;> simp [e]

theorem upd_append (h : Heap) (x : Nat) (f : TNode → TNode) (more : Heap) (hx : x < h.length) :
    Heap.upd (h ++ more) x f = h.upd x f ++ more := by
  apply List.ext_getElem?
  intro i
  rw [upd_getElem?]
  by_cases hi : i < h.length
  · rw [List.getElem?_append_left hi, List.getElem?_append_left (by simpa using hi), upd_getElem?]
  · have : x ≠ i := by omega
    rw [List.getElem?_append_right (by omega), List.getElem?_append_right (by simp; omega), if_neg this]
    simp

theorem node_append (h more : Heap) {i : Nat} (hi : i < h.length) : Heap.node (h ++ more) i = h.node i := by
  unfold Heap.node; rw [List.getElem?_append_left hi]

/-- The entries made by the inner loop. -/
def newItems : Nat → List (Str × Nat) → Dict Str Nat
  | _, [] => []
  | n, (l, _) :: rest => (l, n) :: newItems (n + 1) rest

/-- The nodes made by the inner loop. -/
def newNodes (h : Heap) (x : Nat) (items : List (Str × Nat)) : Heap :=
  items.map (fun lc => ⟨lc.1, (h.node lc.2).children, (h.node lc.2).attrib, some x⟩)

theorem copyKids_eq (x : Nat) (items : List (Str × Nat)) : ∀ (h : Heap), x < h.length →
    (∀ lc ∈ items, lc.2 < h.length ∧ lc.2 ≠ x) →
    copyKids x items h =
      (h.upd x (fun n => { n with children := Dict.update n.children (newItems h.length items) }) ++ newNodes h x items,
        ((newItems h.length items).map Prod.snd).reverse) := by
  induction items with
  | nil =>
    intro h hx _
    simp only [copyKids, newItems, newNodes, Dict.update_nil, List.map_nil, List.append_nil, List.reverse_nil]
    congr 1
    apply List.ext_getElem?
    intro i
    rw [upd_getElem?]
    by_cases e : x = i
    · subst e; cases h[x]? <;> simp
    · simp [e]
  | cons lc rest ih =>
    intro h hx hc
    obtain ⟨l, c⟩ := lc
    simp only [copyKids]
    have hlen : ((h ++ [⟨l, (h.node c).children, (h.node c).attrib, some x⟩] : Heap).upd x
        (fun n => { n with children := Dict.set n.children l h.length })).length = h.length + 1 := by simp
    rw [ih _ (by rw [hlen]; omega) (by
      intro lc hlc
      have := hc lc (by simp [hlc])
      rw [hlen]; exact ⟨by omega, this.2⟩), hlen]
    have hnn : newNodes ((h ++ [⟨l, (h.node c).children, (h.node c).attrib, some x⟩] : Heap).upd x
        (fun n => { n with children := Dict.set n.children l h.length })) x rest = newNodes h x rest := by
      unfold newNodes
      apply List.map_congr_left
      intro lc hlc
      have := hc lc (by simp [hlc])
      rw [upd_node_ne _ _ (Ne.symm this.2), node_append _ _ this.1]
    rw [hnn, upd_upd, upd_append _ _ _ _ hx]
    simp only [newItems, newNodes, List.map_cons, List.reverse_cons, List.append_assoc, List.singleton_append, Prod.mk.injEq,
      and_true]
    rfl

theorem newItems_keys (n : Nat) (items : List (Str × Nat)) : (newItems n items).map Prod.fst = items.map Prod.fst := by
  induction items generalizing n with
  | nil => rfl
  | cons lc items ih => obtain ⟨l, c⟩ := lc; simp [newItems, ih]

theorem set_append_right {d e : Dict Str Nat} {k : Str} (v : Nat) (h : k ∉ d.map Prod.fst) :
    Dict.set (d ++ e) k v = d ++ Dict.set e k v := by
  induction d with
  | nil => rfl
  | cons kv d ih =>
    obtain ⟨k', v'⟩ := kv
    simp only [List.map_cons, List.mem_cons, not_or] at h
    simp only [List.cons_append, Dict.set, ih h.2]
    rw [if_neg (fun e => h.1 e.symm)]

theorem update_newItems (done : Dict Str Nat) (n : Nat) (items : List (Str × Nat))
    (hnd : (done.map Prod.fst ++ items.map Prod.fst).Nodup) :
    Dict.update (done ++ items : Dict Str Nat) (newItems n items) = done ++ newItems n items := by
  induction items generalizing done n with
  | nil => rfl
  | cons lc items ih =>
    obtain ⟨l, c⟩ := lc
    have hl : l ∉ done.map Prod.fst := by
      intro hm
      exact (List.nodup_append.1 hnd).2.2 l hm l (by simp) rfl
    simp only [newItems, Dict.update_cons]
    rw [set_append_right _ hl]
    have e : done ++ Dict.set ((l, c) :: items : Dict Str Nat) l n = (done ++ [(l, n)]) ++ items := by simp [Dict.set]
    rw [e, ih]
    · simp
    · simpa [List.append_assoc] using hnd

/-- A copied node whose children are still the old ones. -/
structure Half (h : Heap) (n0 : Nat) (e : Nat × ATree) : Prop where
  here : ∃ lab par, h[e.1]? = some ⟨lab, e.2.kids.dict, e.2.attrib, par⟩
  kids : RepF h e.2.kids
  old : ∀ y ∈ e.2.kids.refs, y < n0
  new : n0 ≤ e.1
  keys : e.2.keysDistinct
  labels : e.2.keysAreLabels

/-- What becomes of it. -/
structure Copied (h h' : Heap) (n : Nat) (e : Nat × ATree) (t : ATree) : Prop where
  ref : t.ref = e.1
  rep : Rep h' t
  label : t.label = (h.node e.1).label
  attrib : t.attrib = e.2.attrib
  bare : t.kids.bare = e.2.kids.bare
  par : Par h' (h.node e.1).parent t
  fresh : ∀ y ∈ t.kids.refs, n ≤ y

/-- The stack entries for the children. -/
def kidEntries : Nat → List (Str × ATree) → List (Nat × ATree)
  | _, [] => []
  | n, (_, t) :: rest => (n, t) :: kidEntries (n + 1) rest

theorem kidEntries_fst (n : Nat) (items : List (Str × ATree)) :
    (kidEntries n items).map Prod.fst = (newItems n (items.map (fun kt => (kt.1, kt.2.ref)))).map Prod.snd := by
  induction items generalizing n with
  | nil => rfl
  | cons kt items ih => obtain ⟨k, t⟩ := kt; simp [kidEntries, newItems, ih]

theorem kidEntries_snd (n : Nat) (items : List (Str × ATree)) : (kidEntries n items).map Prod.snd = items.map Prod.snd := by
  induction items generalizing n with
  | nil => rfl
  | cons kt items ih => obtain ⟨k, t⟩ := kt; simp [kidEntries, ih]

theorem kidEntries_mem {n : Nat} {items : List (Str × ATree)} {e : Nat × ATree} (h : e ∈ kidEntries n items) :
    ∃ j, ∃ key, items[j]? = some (key, e.2) ∧ e.1 = n + j := by
  induction items generalizing n with
  | nil => cases h
  | cons kt items ih =>
    obtain ⟨k, t⟩ := kt
    rcases List.mem_cons.1 h with rfl | h
    · exact ⟨0, k, rfl, rfl⟩
    · obtain ⟨j, key, h1, h2⟩ := ih h
      exact ⟨j + 1, key, h1, by omega⟩

theorem kidEntries_nodup (n : Nat) (items : List (Str × ATree)) : ((kidEntries n items).map Prod.fst).Nodup := by
  have : (kidEntries n items).map Prod.fst = (List.range' n items.length) := by
    induction items generalizing n with
    | nil => rfl
    | cons kt items ih => obtain ⟨k, t⟩ := kt; simp [kidEntries, List.range'_succ, ih]
  rw [this]; exact List.nodup_range'

theorem newItems_zip (n : Nat) (items : List (Str × ATree)) :
    newItems n (items.map (fun kt => (kt.1, kt.2.ref))) = (items.map Prod.fst).zip ((kidEntries n items).map Prod.fst) := by
  induction items generalizing n with
  | nil => rfl
  | cons kt items ih => obtain ⟨k, t⟩ := kt; simp [kidEntries, newItems, ih]

theorem map_snd_zip' {α β γ : Type} (f : α → β → γ) (l : List α) (m : List β) :
    (l.zip m).map (fun p => f p.1 p.2) = List.zipWith f l m := by
  induction l generalizing m with
  | nil => rfl
  | cons a l ih => cases m <;> simp [ih]

theorem forall₂_split {α β : Type} {R : α → β → Prop} : ∀ (l m : List α) (ts : List β), List.Forall₂ R (l ++ m) ts →
    ∃ u v, ts = u ++ v ∧ List.Forall₂ R l u ∧ List.Forall₂ R m v
  | [], m, ts, h => ⟨[], ts, rfl, List.Forall₂.nil, h⟩
  | a :: l, m, ts, h => by
    cases h with
    | cons h1 h2 =>
      obtain ⟨u, v, e, hu, hv⟩ := forall₂_split l m _ h2
      exact ⟨_ :: u, v, by rw [e]; rfl, List.Forall₂.cons h1 hu, hv⟩

theorem forall₂_map_eq {α β γ : Type} {R : α → β → Prop} {f : α → γ} {g : β → γ} {l : List α} {m : List β}
    (h : List.Forall₂ R l m) (hfg : ∀ a b, a ∈ l → R a b → g b = f a) : m.map g = l.map f := by
  induction h with
  | nil => rfl
  | cons h1 _ ih =>
    simp only [List.map_cons]
    rw [hfg _ _ (by simp) h1, ih (fun a b ha => hfg a b (by simp [ha]))]

theorem forall₂_mem_right {α β : Type} {R : α → β → Prop} {l : List α} {m : List β} (h : List.Forall₂ R l m) :
    ∀ b ∈ m, ∃ a ∈ l, R a b := by
  induction h with
  | nil => intro b hb; cases hb
  | cons h1 _ ih =>
    intro b hb
    rcases List.mem_cons.1 hb with rfl | hb
    · exact ⟨_, by simp, h1⟩
    · obtain ⟨a, ha, hr⟩ := ih b hb; exact ⟨a, by simp [ha], hr⟩

theorem items_bare_eq {k k' : AForest} (h : k.bare = k'.bare) :
    k.items.map (fun kt => (kt.1, kt.2.bare)) = k'.items.map (fun kt => (kt.1, kt.2.bare)) := by
  rw [← AForest.bare_items, ← AForest.bare_items, h]

theorem copyLoop_spec (n0 : Nat) (fuel : Nat) : ∀ (h : Heap) (st : List (Nat × ATree)),
    (∀ e ∈ st, Half h n0 e) → (st.map Prod.fst).Nodup → (st.map (fun e => e.2.size)).sum < fuel →
    ∃ h' ts, copyLoop fuel h (st.map Prod.fst) = some h' ∧ h.length ≤ h'.length ∧
      (∀ i < h.length, i ∉ st.map Prod.fst → h'[i]? = h[i]?) ∧
      List.Forall₂ (Copied h h' h.length) st ts ∧ (ts.flatMap ATree.refs).Nodup := by
  induction fuel with
  | zero => intro h st _ _ hf; omega
  | succ fuel ih =>
    intro h st hhalf hnd hf
    cases st with
    | nil => exact ⟨h, [], rfl, Nat.le_refl _, fun _ _ _ => rfl, List.Forall₂.nil, List.nodup_nil⟩
    | cons e st =>
      obtain ⟨x, s⟩ := e
      obtain ⟨⟨lab, par, hx⟩, hkids, hold, hnew, hkeys, hlabels⟩ := hhalf (x, s) (by simp)
      simp only at hx hkids hold hnew hkeys hlabels
      obtain ⟨r, l, a, k⟩ := s
      simp only [ATree.kids, ATree.attrib] at hx hkids hold
      obtain ⟨hkd, hkk⟩ := hkeys
      rw [AForest.keysDistinct_iff] at hkk
      simp only [ATree.keysAreLabels] at hlabels
      rw [AForest.keysAreLabels_iff] at hlabels
      rw [RepF_iff] at hkids
      have hxl : x < h.length := (List.getElem?_eq_some_iff.1 hx).1
      have hnode : h.node x = ⟨lab, k.dict, a, par⟩ := by unfold Heap.node; rw [hx]; rfl
      simp only [List.map_cons, List.nodup_cons] at hnd
      -- the references of the children are old
      have hkref : ∀ kt ∈ k.items, ∀ y ∈ kt.2.refs, y < n0 := by
        intro kt hkt y hy
        exact hold y (by rw [AForest.refs_eq]; exact List.mem_flatMap.2 ⟨kt, hkt, hy⟩)
      have hold' : ∀ lc ∈ k.dict, lc.2 < h.length ∧ lc.2 ≠ x := by
        intro lc hlc
        obtain ⟨kt, hkt, rfl⟩ := List.mem_map.1 hlc
        have := hkref kt hkt _ kt.2.ref_mem_refs
        exact ⟨(hkids kt hkt).lt, by simp only; omega⟩
      have hck := copyKids_eq x k.dict h hxl hold'
      have hupd : Dict.update k.dict (newItems h.length k.dict) = newItems h.length k.dict := by
        have := update_newItems [] h.length k.dict (by
          have e := AForest.keys_dict k
          unfold Dict.keys at e
          simpa [e] using hkd)
        simpa using this
      -- the heap after the inner loop
      let h1 : Heap := h.upd x (fun n => { n with children := Dict.update n.children (newItems h.length k.dict) }) ++
        newNodes h x k.dict
      have h1def : h1 = h.upd x (fun n => { n with children := Dict.update n.children (newItems h.length k.dict) }) ++
        newNodes h x k.dict := rfl
      have h1len : h1.length = h.length + k.items.length := by
        rw [h1def]; simp [newNodes, AForest.dict]
      have h1x : h1[x]? = some ⟨lab, newItems h.length k.dict, a, par⟩ := by
        rw [h1def, List.getElem?_append_left (by simpa using hxl), upd_getElem?, if_pos rfl, hx]
        simp [hupd]
      have h1old : ∀ i < h.length, i ≠ x → h1[i]? = h[i]? := by
        intro i hi hne
        rw [h1def, List.getElem?_append_left (by simpa using hi), upd_getElem?, if_neg (Ne.symm hne)]
      have h1new : ∀ j key c, k.items[j]? = some (key, c) →
          h1[h.length + j]? = some ⟨key, c.kids.dict, c.attrib, some x⟩ := by
        intro j key c hj
        rw [h1def, List.getElem?_append_right (by simp), upd_length, Nat.add_sub_cancel_left]
        have hc := (hkids (key, c) (List.mem_of_getElem? hj)).lookup
        simp only [newNodes, AForest.dict, List.getElem?_map, hj, Option.map_some, Option.some.injEq]
        rw [hc.2.1, hc.2.2]; rfl
      -- the new stack
      have hstack : ((newItems h.length k.dict).map Prod.snd).reverse ++ st.map Prod.fst =
          ((kidEntries h.length k.items).reverse ++ st).map Prod.fst := by
        rw [List.map_append, List.map_reverse, kidEntries_fst]; rfl
      have hhalf1 : ∀ e ∈ (kidEntries h.length k.items).reverse ++ st, Half h1 n0 e := by
        intro e he
        rcases List.mem_append.1 he with he | he
        · obtain ⟨j, key, hj, hej⟩ := kidEntries_mem (List.mem_reverse.1 he)
          have hmem := List.mem_of_getElem? hj
          refine ⟨⟨key, some x, by rw [hej]; exact h1new j key e.2 hj⟩, ?_, ?_, by omega, hkk _ hmem, (hlabels _ hmem).2⟩
          · have hrep := hkids _ hmem
            have hframe : Rep h1 e.2 := hrep.frame e.2 (fun y hy => h1old y (hrep.refs_lt y hy) (by
              have := hkref _ hmem y hy
              omega))
            rw [RepF_iff]; exact hframe.kids
          · intro y hy
            refine hkref _ hmem y ?_
            show y ∈ e.2.refs
            generalize e.2 = c at hy
            obtain ⟨r', l', a', k'⟩ := c
            rw [ATree.refs_node, ← AForest.refs_eq]; exact List.mem_cons_of_mem _ hy
        · have hh := hhalf e (by simp [he])
          obtain ⟨lab', par', hx'⟩ := hh.here
          have hne : e.1 ≠ x := fun ee => hnd.1 (by rw [← ee]; exact List.mem_map_of_mem he)
          have hlt : e.1 < h.length := (List.getElem?_eq_some_iff.1 hx').1
          refine ⟨⟨lab', par', by rw [h1old _ hlt hne]; exact hx'⟩, ?_, hh.old, hh.new, hh.keys, hh.labels⟩
          rw [RepF_iff]
          intro kt hkt
          have hrep := (RepF_iff h _).1 hh.kids kt hkt
          refine hrep.frame kt.2 (fun y hy => h1old y (hrep.refs_lt y hy) ?_)
          have := hh.old y (by rw [AForest.refs_eq]; exact List.mem_flatMap.2 ⟨kt, hkt, hy⟩)
          omega
      have hlt_of_mem : ∀ e ∈ st, e.1 < h.length := by
        intro e he
        obtain ⟨lab', par', hx'⟩ := (hhalf e (by simp [he])).here
        exact (List.getElem?_eq_some_iff.1 hx').1
      have hkge : ∀ e ∈ kidEntries h.length k.items, h.length ≤ e.1 := by
        intro e he
        obtain ⟨j, key, _, hej⟩ := kidEntries_mem he
        omega
      have hnd1 : (((kidEntries h.length k.items).reverse ++ st).map Prod.fst).Nodup := by
        rw [List.map_append, List.nodup_append]
        refine ⟨?_, hnd.2, ?_⟩
        · rw [List.map_reverse]; exact (List.reverse_perm _).nodup_iff.2 (kidEntries_nodup _ _)
        · intro y hy z hz hyz
          obtain ⟨e, he, rfl⟩ := List.mem_map.1 hy
          obtain ⟨e', he', rfl⟩ := List.mem_map.1 hz
          have := hkge e (List.mem_reverse.1 he)
          have := hlt_of_mem e' he'
          omega
      have hsize : (((kidEntries h.length k.items).reverse ++ st).map (fun e => e.2.size)).sum < fuel := by
        simp only [List.map_cons, List.sum_cons, ATree.size_node] at hf
        have : ((kidEntries h.length k.items).map (fun e => e.2.size)).sum = (k.items.map (fun kt => kt.2.size)).sum := by
          have e := congrArg (fun l => (l.map ATree.size).sum) (kidEntries_snd h.length k.items)
          simpa [List.map_map, Function.comp_def] using e
        rw [List.map_append, List.sum_append, List.map_reverse, List.sum_reverse, this]
        omega
      obtain ⟨h', ts, e1, e2, e3, e4, e5⟩ := ih h1 _ hhalf1 hnd1 hsize
      obtain ⟨u, v, hts, hu, hv⟩ := forall₂_split _ _ _ e4
      have hus : List.Forall₂ (Copied h1 h' h1.length) (kidEntries h.length k.items) u.reverse := by
        have := List.rel_reverse hu
        rwa [List.reverse_reverse] at this
      -- assemble the new tree
      let kids' : AForest := AForest.ofList ((k.items.map Prod.fst).zip u.reverse)
      have hkidsdef : kids' = AForest.ofList ((k.items.map Prod.fst).zip u.reverse) := rfl
      have hitems : kids'.items = (k.items.map Prod.fst).zip u.reverse := AForest.items_ofList _
      have hlenu : u.reverse.length = k.items.length := by
        rw [← hus.length_eq]
        have := congrArg List.length (kidEntries_snd h.length k.items)
        simpa using this
      have hrefs : u.reverse.map ATree.ref = (kidEntries h.length k.items).map Prod.fst :=
        forall₂_map_eq hus (fun _ _ _ hc => hc.ref)
      have hdict : kids'.dict = newItems h.length k.dict := by
        show _ = newItems h.length (k.items.map _)
        rw [newItems_zip, ← hrefs]
        unfold AForest.dict
        rw [hitems, List.zip_map_right]
        apply List.map_congr_left
        intro kt _; rfl
      have hxnot : x ∉ ((kidEntries h.length k.items).reverse ++ st).map Prod.fst := by
        rw [List.map_append, List.mem_append]
        rintro (hm | hm)
        · obtain ⟨e, he, hee⟩ := List.mem_map.1 hm
          have := hkge e (List.mem_reverse.1 he)
          omega
        · exact hnd.1 hm
      have hx' : h'[x]? = some ⟨lab, newItems h.length k.dict, a, par⟩ := by
        rw [e3 x (by omega) hxnot]; exact h1x
      have hmemkids : ∀ kt ∈ kids'.items, kt.2 ∈ u.reverse := by
        intro kt hkt
        rw [hitems] at hkt
        exact (List.of_mem_zip hkt).2
      have hnodeh1 : ∀ j key c, k.items[j]? = some (key, c) → h1.node (h.length + j) = ⟨key, c.kids.dict, c.attrib, some x⟩ := by
        intro j key c hj
        unfold Heap.node; rw [h1new j key c hj]; rfl
      refine ⟨h', .node x lab a kids' :: v, ?_, by omega, ?_, ?_, ?_⟩
      · show copyLoop (fuel + 1) h (x :: st.map Prod.fst) = _
        rw [copyLoop, hnode, hck, hstack]
        exact e1
      · intro i hi hni
        simp only [List.map_cons, List.mem_cons, not_or] at hni
        rw [e3 i (by omega) (by
          rw [List.map_append, List.mem_append]
          rintro (hm | hm)
          · obtain ⟨e, he, hee⟩ := List.mem_map.1 hm
            have := hkge e (List.mem_reverse.1 he)
            omega
          · exact hni.2 hm)]
        exact h1old i hi hni.1
      · refine List.Forall₂.cons ?_ ?_
        · refine ⟨rfl, ?_, ?_, rfl, ?_, ?_, ?_⟩
          · refine ⟨⟨par, by rw [hdict]; exact hx'⟩, ?_⟩
            rw [RepF_iff]
            intro kt hkt
            obtain ⟨e, _, hc⟩ := forall₂_mem_right hus kt.2 (hmemkids kt hkt)
            exact hc.rep
          · simp [ATree.label, hnode]
          · -- the shape
            show kids'.bare = k.bare
            apply AForest.items_injective
            rw [AForest.bare_items, AForest.bare_items, hitems]
            have hb : u.reverse.map ATree.bare = k.items.map (fun kt => kt.2.bare) := by
              have h1' : u.reverse.map ATree.bare = (kidEntries h.length k.items).map (fun e => e.2.bare) := by
                refine forall₂_map_eq hus ?_
                intro e t he hc
                obtain ⟨j, key, hj, hej⟩ := kidEntries_mem he
                have hl := hc.label
                rw [hej, hnodeh1 j key e.2 hj] at hl
                have hkl := (hlabels _ (List.mem_of_getElem? hj)).1
                simp only at hl hkl
                have ha := hc.attrib
                have hbk := hc.bare
                generalize e.2 = c at *
                obtain ⟨r1, l1, a1, k1⟩ := t
                obtain ⟨r2, l2, a2, k2⟩ := c
                simp only [ATree.label, ATree.attrib, ATree.kids, ATree.bare] at *
                rw [hl, hkl, ha, hbk]
              rw [h1']
              have := congrArg (List.map ATree.bare) (kidEntries_snd h.length k.items)
              simpa [List.map_map, Function.comp_def] using this
            have e1' : ((k.items.map Prod.fst).zip u.reverse).map (fun kt => (kt.1, kt.2.bare)) =
                (k.items.map Prod.fst).zip (u.reverse.map ATree.bare) := by
              rw [List.zip_map_right]; apply List.map_congr_left; intro kt _; rfl
            rw [e1', hb, List.zip_map']
          · refine ⟨by unfold Heap.node; rw [hx', hx]; rfl, ?_⟩
            rw [ParF_iff]
            intro kt hkt
            obtain ⟨e, he, hc⟩ := forall₂_mem_right hus kt.2 (hmemkids kt hkt)
            obtain ⟨j, key, hj, hej⟩ := kidEntries_mem he
            have hp := hc.par
            rw [hej, hnodeh1 j key e.2 hj] at hp
            exact hp
          · intro y hy
            rw [show (ATree.node x lab a kids').kids = kids' from rfl, AForest.refs_eq] at hy
            obtain ⟨kt, hkt, hy⟩ := List.mem_flatMap.1 hy
            obtain ⟨e, he, hc⟩ := forall₂_mem_right hus kt.2 (hmemkids kt hkt)
            have hge := hkge e he
            have hf := hc.fresh
            have hr := hc.ref
            generalize kt.2 = c at *
            obtain ⟨r1, l1, a1, k1⟩ := c
            rw [ATree.refs_node, ← AForest.refs_eq] at hy
            rcases List.mem_cons.1 hy with rfl | hy
            · simp only [ATree.ref] at hr; omega
            · have := hf y hy; omega
        · -- the rest of the stack
          have : ∀ (l : List (Nat × ATree)) (w : List ATree), (∀ e ∈ l, e ∈ st) → List.Forall₂ (Copied h1 h' h1.length) l w →
              List.Forall₂ (Copied h h' h.length) l w := by
            intro l w hl hw
            induction hw with
            | nil => exact List.Forall₂.nil
            | cons hc _ ihw =>
              refine List.Forall₂.cons ?_ (ihw (fun e he => hl e (by simp [he])))
              rename_i e t _ _ _
              have he := hl e (by simp)
              have hne : e.1 ≠ x := fun ee => hnd.1 (by rw [← ee]; exact List.mem_map_of_mem he)
              have hnn : h1.node e.1 = h.node e.1 := node_congr (h1old _ (hlt_of_mem e he) hne)
              exact ⟨hc.ref, hc.rep, by rw [hc.label, hnn], hc.attrib, hc.bare, by rw [← hnn]; exact hc.par,
                fun y hy => by have := hc.fresh y hy; omega⟩
          exact this st v (fun _ he => he) hv
      · -- no node twice
        rw [hts, List.flatMap_append] at e5
        have hk5 : (kids'.items.flatMap (fun kt => kt.2.refs)) = u.reverse.flatMap ATree.refs := by
          rw [hitems]
          have : ((k.items.map Prod.fst).zip u.reverse).map Prod.snd = u.reverse := by
            rw [List.map_snd_zip]; rw [List.length_map, hlenu]
          conv_rhs => rw [← this]
          rw [List.flatMap_map]
        rw [List.flatMap_cons, ATree.refs_node, hk5, List.cons_append, List.nodup_cons]
        have hperm : (u.reverse.flatMap ATree.refs ++ v.flatMap ATree.refs).Perm (u.flatMap ATree.refs ++ v.flatMap ATree.refs) :=
          ((List.reverse_perm u).flatMap_right _).append_right _
        refine ⟨?_, hperm.nodup_iff.2 e5⟩
        rw [hperm.mem_iff, List.mem_append]
        have hne : ∀ e t, e ∈ (kidEntries h.length k.items).reverse ++ st → Copied h1 h' h1.length e t → x ∉ t.refs := by
          intro e t he hc hm
          have hr := hc.ref
          have hf := hc.fresh
          obtain ⟨r1, l1, a1, k1⟩ := t
          rw [ATree.refs_node, ← AForest.refs_eq] at hm
          rcases List.mem_cons.1 hm with rfl | hm
          · simp only [ATree.ref] at hr
            exact hxnot (by rw [hr]; exact List.mem_map_of_mem he)
          · have := hf x hm; omega
        rintro (hm | hm)
        · obtain ⟨t, ht, hm⟩ := List.mem_flatMap.1 hm
          obtain ⟨e, he, hc⟩ := forall₂_mem_right hu t ht
          exact hne e t (List.mem_append_left _ he) hc hm
        · obtain ⟨t, ht, hm⟩ := List.mem_flatMap.1 hm
          obtain ⟨e, he, hc⟩ := forall₂_mem_right hv t ht
          exact hne e t (List.mem_append_right _ he) hc hm

/-- C49: the copy of a root with any tree below it: `copy` terminates and gives a proper tree with the same labels,
attributes, keys and shape, right parent links, made of new nodes only; all old nodes are unchanged. -/
theorem C49_copy (h : Heap) (t : ATree) (hr : Rep h t) (hk : t.keysDistinct) (hl : t.keysAreLabels)
    (hroot : parentTruthy h t.ref = false) (fuel : Nat) (hf : t.size < fuel) :
    ∃ h' t', treeCopy h fuel t.ref = some (.ok (h', t'.ref)) ∧ IsTree h' t' ∧ t'.bare = t.bare ∧ Par h' none t' ∧
      (∀ x ∈ t'.refs, h.length ≤ x) ∧ (∀ x < h.length, h'[x]? = h[x]?) := by
  have hlook := hr.lookup
  have hlt := hr.refs_lt
  let h0 : Heap := h ++ [⟨t.label, t.kids.dict, t.attrib, none⟩]
  have hold : ∀ x < h.length, h0[x]? = h[x]? := fun x hx => List.getElem?_append_left hx
  have hnew : h0[h.length]? = some ⟨t.label, t.kids.dict, t.attrib, none⟩ := by
    rw [List.getElem?_append_right (Nat.le_refl _)]; simp
  have hkid : ∀ y ∈ t.kids.refs, y < h.length := by
    intro y hy
    refine hlt y ?_
    obtain ⟨r, l, a, k⟩ := t
    rw [ATree.refs_node, ← AForest.refs_eq]; exact List.mem_cons_of_mem _ hy
  have hhalf : ∀ e ∈ [(h.length, t)], Half h0 h.length e := by
    intro e he
    simp only [List.mem_singleton] at he
    subst he
    refine ⟨⟨_, _, hnew⟩, ?_, hkid, Nat.le_refl _, hk, hl⟩
    rw [RepF_iff]
    intro kt hkt
    refine (hr.kids kt hkt).frame kt.2 (fun y hy => hold y (hkid y ?_))
    rw [AForest.refs_eq]; exact List.mem_flatMap.2 ⟨kt, hkt, hy⟩
  obtain ⟨h', ts, e1, e2, e3, e4, e5⟩ := copyLoop_spec h.length fuel h0 [(h.length, t)] hhalf (by simp) (by simpa using hf)
  cases e4 with
  | cons hc htail =>
    cases htail
    rename_i t'
    simp only [List.flatMap_cons, List.flatMap_nil, List.append_nil] at e5
    have hn0 : h0.node h.length = ⟨t.label, t.kids.dict, t.attrib, none⟩ := by unfold Heap.node; rw [hnew]; rfl
    have hbare : t'.bare = t.bare := by
      have h1 := hc.label
      have h2 := hc.attrib
      have h3 := hc.bare
      rw [hn0] at h1
      obtain ⟨r1, l1, a1, k1⟩ := t'
      obtain ⟨r2, l2, a2, k2⟩ := t
      simp only [ATree.label, ATree.attrib, ATree.kids, ATree.bare] at *
      rw [h1, h2, h3]
    have hkeys : ∀ (t t' : ATree), t'.bare = t.bare → t.keysDistinct → t'.keysDistinct := by
      intro t
      induction t using ATree.ind with
      | h r l a k ih =>
        intro t' hb hk
        obtain ⟨r', l', a', k'⟩ := t'
        simp only [ATree.bare, ATree.node.injEq, true_and] at hb
        have hi := items_bare_eq hb.2.2
        obtain ⟨h1, h2⟩ := hk
        rw [AForest.keysDistinct_iff] at h2
        refine ⟨?_, ?_⟩
        · have := congrArg (List.map Prod.fst) hi
          simp only [List.map_map, Function.comp_def] at this
          rw [this]; exact h1
        · rw [AForest.keysDistinct_iff]
          intro kt hkt
          have hm : (kt.1, kt.2.bare) ∈ k.items.map (fun kt => (kt.1, kt.2.bare)) := by
            rw [← hi]; exact List.mem_map_of_mem (f := fun kt => (kt.1, ATree.bare kt.2)) hkt
          obtain ⟨kt', hkt', e⟩ := List.mem_map.1 hm
          simp only [Prod.mk.injEq] at e
          exact ih kt' hkt' kt.2 e.2.symm (h2 kt' hkt')
    refine ⟨h', t', ?_, ⟨hc.rep, e5, hkeys t t' hbare hk⟩, hbare, ?_, ?_, ?_⟩
    · unfold treeCopy
      rw [hroot, hlook.1, hlook.2.1, hlook.2.2]
      rw [show ([(h.length, t)].map Prod.fst) = [h.length] from rfl] at e1
      simp only [Bool.false_eq_true, if_false]
      rw [e1]
      simp [hc.ref]
    · have := hc.par
      rw [hn0] at this
      exact this
    · intro x hx
      have h1 := hc.ref
      have h2 := hc.fresh
      have hlen : h0.length = h.length + 1 := by simp [h0]
      obtain ⟨r1, l1, a1, k1⟩ := t'
      rw [ATree.refs_node, ← AForest.refs_eq] at hx
      rcases List.mem_cons.1 hx with rfl | hx
      · simp only [ATree.ref] at h1; omega
      · have := h2 x hx; omega
    · intro x hx
      rw [e3 x (by simp [h0]; omega) (by simp; omega), hold x hx]

/-- C49: a node that is a child of a node of the tree is refused. -/
theorem C49_refuses (h : Heap) (t : ATree) (par : Option Nat) (hr : Rep h t) (hp : Par h par t) (kt : Str × ATree)
    (hkt : kt ∈ t.kids.items) (fuel : Nat) : treeCopy h fuel kt.2.ref = some (.error .genericException) := by
  unfold treeCopy
  have : parentTruthy h kt.2.ref = true := by
    unfold parentTruthy
    rw [(hp.kids kt hkt).parent]
    simp only [hr.lookup.2.1, AForest.isEmpty_items]
    cases hi : t.kids.items with
    | nil => rw [hi] at hkt; cases hkt
    | cons _ _ => rfl
  rw [this]; rfl

/-! #### The copy is equal to the original -/

theorem mem_le_sum {n : Nat} {l : List Nat} (h : n ∈ l) : n ≤ l.sum := by
  induction l with
  | nil => cases h
  | cons a l ih =>
    rw [List.sum_cons]
    rcases List.mem_cons.1 h with rfl | h
    · omega
    · have := ih h; omega

theorem attribEq_self (a : Attrib) (h : Dict.WF a) : attribEq a a = true := by
  unfold attribEq
  simp only [beq_self_eq_true, Bool.true_and, List.all_eq_true, beq_iff_eq]
  intro kv hkv
  exact (Dict.get?_eq_some_iff h kv.1 kv.2).2 hkv

theorem nodeEq_of_bare (h : Heap) (t : ATree) : ∀ (t' : ATree) (fuel : Nat), Rep h t → Rep h t' → t.bare = t'.bare →
    t.keysDistinct → (∀ s ∈ t.subs, Dict.WF s.attrib) → t.size ≤ fuel → nodeEq h fuel t.ref t'.ref = some true := by
  induction t using ATree.ind with
  | h r l a k ih =>
    intro t' fuel hr hr' hb hk ha hf
    obtain ⟨r', l', a', k'⟩ := t'
    simp only [ATree.bare, ATree.node.injEq, true_and] at hb
    obtain ⟨rfl, rfl, hb⟩ := hb
    have hi := items_bare_eq hb
    obtain ⟨fuel, rfl⟩ : ∃ f, fuel = f + 1 := ⟨fuel - 1, by rw [ATree.size_node] at hf; omega⟩
    have e1 := hr.lookup
    have e2 := hr'.lookup
    simp only [ATree.ref, ATree.label, ATree.kids, ATree.attrib] at e1 e2 ⊢
    simp only [nodeEq, e1.1, e2.1, e1.2.1, e2.2.1, e1.2.2, e2.2.2]
    have hlen : k.dict.length = k'.dict.length := by
      have := congrArg List.length hi
      simpa [AForest.dict] using this
    have haa : attribEq a a = true := attribEq_self a (ha _ (ATree.mem_subs_self _))
    simp only [haa, ne_eq, not_true_eq_false, if_false, Bool.true_eq_false, hlen]
    -- the children
    have hkd := hk.1
    have hkk := (AForest.keysDistinct_iff k).1 hk.2
    have hkeys' : (k'.items.map Prod.fst).Nodup := by
      have := congrArg (List.map Prod.fst) hi
      simp only [List.map_map, Function.comp_def] at this
      rw [← this]; exact hkd
    have hsz : ∀ kt ∈ k.items, kt.2.size ≤ fuel := by
      intro kt hkt
      rw [ATree.size_node] at hf
      have : kt.2.size ≤ (k.items.map (fun kt => kt.2.size)).sum :=
        mem_le_sum (List.mem_map_of_mem (f := fun kt : Str × ATree => kt.2.size) hkt)
      omega
    have hall : ∀ items : List (Str × ATree), (∀ kt ∈ items, kt ∈ k.items) →
        ((items.map (fun kt => (kt.1, kt.2.ref))).foldr (fun kv acc =>
          match Dict.get? k'.dict kv.1 with
          | none => some false
          | some w =>
            match nodeEq h fuel kv.2 w with
            | none => none
            | some false => some false
            | some true => acc) (some true)) = some true := by
      intro items
      induction items with
      | nil => intro _; rfl
      | cons kt items ih2 =>
        intro hsub
        have hkt := hsub kt (by simp)
        have hm : (kt.1, kt.2.bare) ∈ k'.items.map (fun kt => (kt.1, kt.2.bare)) := by
          rw [← hi]; exact List.mem_map_of_mem (f := fun kt => (kt.1, ATree.bare kt.2)) hkt
        obtain ⟨kt', hkt', e⟩ := List.mem_map.1 hm
        simp only [Prod.mk.injEq] at e
        have hg : Dict.get? k'.dict kt.1 = some kt'.2.ref := by
          have hwf : Dict.WF k'.dict := by
            unfold Dict.WF; rw [AForest.keys_dict]; exact hkeys'
          rw [Dict.get?_eq_some_iff hwf, ← e.1]
          exact List.mem_map_of_mem (f := fun kt : Str × ATree => (kt.1, kt.2.ref)) hkt'
        have heq := ih kt hkt kt'.2 fuel (hr.kids kt hkt) (hr'.kids kt' hkt') e.2.symm (hkk kt hkt) (by
          intro s hs
          refine ha s ?_
          rw [ATree.subs_node]
          exact List.mem_cons_of_mem _ (List.mem_flatMap.2 ⟨kt, hkt, hs⟩)) (hsz kt hkt)
        simp only [List.map_cons, List.foldr_cons, hg, heq]
        exact ih2 (fun x hx => hsub x (by simp [hx]))
    exact hall k.items (fun _ h => h)

/-- C49: the copy compares equal (`==`) to the original. -/
theorem C49_equal (h : Heap) (t : ATree) (hr : Rep h t) (hk : t.keysDistinct) (hl : t.keysAreLabels)
    (ha : ∀ s ∈ t.subs, Dict.WF s.attrib) (hroot : parentTruthy h t.ref = false) (fuel : Nat) (hf : t.size < fuel) :
    ∃ h' r', treeCopy h fuel t.ref = some (.ok (h', r')) ∧ nodeEq h' fuel t.ref r' = some true := by
  obtain ⟨h', t', e1, e2, e3, _, _, e6⟩ := C49_copy h t hr hk hl hroot fuel hf
  refine ⟨h', t'.ref, e1, ?_⟩
  exact nodeEq_of_bare h' t t' fuel (hr.frame t (fun x hx => e6 x (hr.refs_lt x hx))) e2.rep e3.symm hk ha (by omega)

end Cjk
