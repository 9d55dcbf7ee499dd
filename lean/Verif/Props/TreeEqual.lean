import Verif.Model.TreeEqual
import Verif.Spec.TreeEqual
import Verif.Props.TreeEq
import Verif.Props.TreeLoops
import Verif.Props.TreePrograms
import Verif.Props.TreeLayout
/-!
# C124: comparing and drawing nodes that are shared or contain themselves
-/

namespace Cjk
open Py
open Spec (Leads Circular nodeKids NodesOk KidsOk SameBelow Alike Apart AttribsOk)

/-! ### What is compared -/

theorem alike_refl (h : Heap) (x : Nat) : Alike h x x := ⟨rfl, fun _ => rfl⟩
theorem alike_symm {h : Heap} {x y : Nat} (e : Alike h x y) : Alike h y x := ⟨e.1.symm, fun k => (e.2 k).symm⟩

theorem sameBelow_refl (h : Heap) (a : Nat) : SameBelow h a a :=
  fun _ => ⟨fun x hx => ⟨x, hx, alike_refl h x⟩, fun x hx => ⟨x, hx, alike_refl h x⟩⟩

theorem sameBelow_symm {h : Heap} {a b : Nat} (e : SameBelow h a b) : SameBelow h b a := fun ks =>
  ⟨fun x hx => let ⟨y, h1, h2⟩ := (e ks).2 x hx; ⟨y, h1, alike_symm h2⟩, fun x hx => let ⟨y, h1, h2⟩ := (e ks).1 x hx; ⟨y, h1, alike_symm h2⟩⟩

theorem sameBelow_trans {h : Heap} {a b c : Nat} (e : SameBelow h a b) (f : SameBelow h b c) : SameBelow h a c := by
  intro ks
  constructor
  · intro x hx
    obtain ⟨y, h1, h2⟩ := (e ks).1 x hx
    obtain ⟨z, h3, h4⟩ := (f ks).1 y h1
    exact ⟨z, h3, h2.1.trans h4.1, fun k => (h2.2 k).trans (h4.2 k)⟩
  · intro z hz
    obtain ⟨y, h1, h2⟩ := (f ks).2 z hz
    obtain ⟨x, h3, h4⟩ := (e ks).2 y h1
    exact ⟨x, h3, h4.1.trans h2.1, fun k => (h4.2 k).trans (h2.2 k)⟩

theorem nodesOk_kids {h : Heap} (hok : NodesOk h) : KidsOk h := fun r hr => ⟨(hok r hr).1, fun kc hm => ((hok r hr).2.1 kc hm).1⟩

theorem kids_wf {h : Heap} (hok : KidsOk h) (r : Nat) : Dict.WF (nodeKids h r) := by
  by_cases hr : r < h.length
  · exact (hok r hr).1
  · rw [(nodeKids_out (by omega)).1]; exact Dict.WF_nil

theorem kid_unique {h : Heap} (hok : KidsOk h) {r c d : Nat} {k : Str} (h1 : (k, c) ∈ nodeKids h r) (h2 : (k, d) ∈ nodeKids h r) : c = d := by
  have e1 := (Dict.get?_eq_some_iff (kids_wf hok r) k c).2 h1
  have e2 := (Dict.get?_eq_some_iff (kids_wf hok r) k d).2 h2
  rw [e1] at e2
  exact Option.some.inj e2

/-- One step of the comparison. -/
theorem sameBelow_iff {h : Heap} (hok : KidsOk h) (a b : Nat) : SameBelow h a b ↔
    Alike h a b ∧ (∀ k, k ∈ Dict.keys (nodeKids h a) ↔ k ∈ Dict.keys (nodeKids h b)) ∧
      ∀ k c d, (k, c) ∈ nodeKids h a → (k, d) ∈ nodeKids h b → SameBelow h c d := by
  have memk : ∀ {r k}, k ∈ Dict.keys (nodeKids h r) ↔ ∃ c, (k, c) ∈ nodeKids h r := by
    intro r k
    constructor
    · intro hk
      obtain ⟨kv, h1, rfl⟩ := List.mem_map.1 hk
      exact ⟨kv.2, h1⟩
    · rintro ⟨c, hc⟩
      exact List.mem_map.2 ⟨_, hc, rfl⟩
  constructor
  · intro e
    refine ⟨?_, ?_, ?_⟩
    · obtain ⟨y, h1, h2⟩ := (e []).1 a (.here a)
      cases h1; exact h2
    · intro k
      rw [memk, memk]
      constructor
      · rintro ⟨c, hc⟩
        obtain ⟨y, h1, _⟩ := (e [k]).1 c (.step hc (.here c))
        cases h1 with
        | step hm h2 => exact ⟨_, hm⟩
      · rintro ⟨c, hc⟩
        obtain ⟨y, h1, _⟩ := (e [k]).2 c (.step hc (.here c))
        cases h1 with
        | step hm h2 => exact ⟨_, hm⟩
    · intro k c d hc hd ks
      constructor
      · intro x hx
        obtain ⟨y, h1, h2⟩ := (e (k :: ks)).1 x (.step hc hx)
        cases h1 with
        | step hm h3 =>
          rw [kid_unique hok hm hd] at h3
          exact ⟨y, h3, h2⟩
      · intro x hx
        obtain ⟨y, h1, h2⟩ := (e (k :: ks)).2 x (.step hd hx)
        cases h1 with
        | step hm h3 =>
          rw [kid_unique hok hm hc] at h3
          exact ⟨y, h3, h2⟩
  · rintro ⟨h0, hk, hs⟩ ks
    constructor
    · intro x hx
      cases hx with
      | here => exact ⟨b, .here b, h0⟩
      | @step _ c _ k ks hm hl =>
        obtain ⟨d, hd⟩ := memk.1 ((hk k).1 (memk.2 ⟨c, hm⟩))
        obtain ⟨y, h1, h2⟩ := (hs k c d hm hd ks).1 x hl
        exact ⟨y, .step hd h1, h2⟩
    · intro x hx
      cases hx with
      | here => exact ⟨a, .here a, h0⟩
      | @step _ d _ k ks hm hl =>
        obtain ⟨c, hc⟩ := memk.1 ((hk k).2 (memk.2 ⟨d, hm⟩))
        obtain ⟨y, h1, h2⟩ := (hs k c d hc hm ks).2 x hl
        exact ⟨y, .step hc h1, h2⟩

/-! ### The loop over the children -/

/-- The comparison of one entry: `none` if it does not end. -/
def entryEq (short : Bool) (rec : Nat → Nat → Option Bool) (other : Dict Str Nat) (kv : Str × Nat) : Option Bool :=
  match Dict.get? other kv.1 with
  | none => some false
  | some w => if short = true ∧ kv.2 = w then some true else rec kv.2 w

theorem foldr_entries (short : Bool) (rec : Nat → Nat → Option Bool) (other : Dict Str Nat) (l : List (Str × Nat)) :
    l.foldr (fun kv acc =>
      match Dict.get? other kv.1 with
      | none => some false
      | some w =>
        if short = true ∧ kv.2 = w then acc
        else
          match rec kv.2 w with
          | none => none
          | some false => some false
          | some true => acc) (some true) =
    l.foldr (fun kv acc => match entryEq short rec other kv with
      | none => none
      | some false => some false
      | some true => acc) (some true) := by
  congr 1
  funext kv acc
  unfold entryEq
  cases Dict.get? other kv.1 with
  | none => rfl
  | some w =>
    simp only
    by_cases hs : short = true ∧ kv.2 = w
    · rw [if_pos hs, if_pos hs]
    · rw [if_neg hs, if_neg hs]

theorem foldr_true_iff {α : Type} (F : α → Option Bool) (l : List α) :
    (l.foldr (fun x acc => match F x with | none => none | some false => some false | some true => acc) (some true) = some true ↔
      ∀ x ∈ l, F x = some true) ∧
    (l.foldr (fun x acc => match F x with | none => none | some false => some false | some true => acc) (some true) = some false →
      ∃ x ∈ l, F x = some false) ∧
    ((∀ x ∈ l, F x ≠ none) →
      l.foldr (fun x acc => match F x with | none => none | some false => some false | some true => acc) (some true) ≠ none) := by
  induction l with
  | nil => simp
  | cons x l ih =>
    simp only [List.foldr_cons, List.forall_mem_cons, List.exists_mem_cons_iff]
    cases hx : F x with
    | none => simp
    | some v =>
      cases v with
      | false => simp
      | true => simpa using ih

theorem nodeEqWith_succ (short flip : Bool) (h : Heap) (n a b : Nat) : nodeEqWith short flip h (n + 1) a b =
    if (h.node a).label ≠ (h.node b).label then some false
    else if attribEq (h.node a).attrib (h.node b).attrib = false then some false
    else if (h.node a).children.length ≠ (h.node b).children.length then some false
    else (h.node a).children.foldr (fun kv acc =>
      match entryEq short (fun x y => if flip then nodeEqWith short flip h n y x else nodeEqWith short flip h n x y) (h.node b).children kv with
      | none => none
      | some false => some false
      | some true => acc) (some true) := by
  rw [nodeEqWith, ← foldr_entries]
  rfl

theorem nodeEqWith_plain (h : Heap) (n a b : Nat) : nodeEqWith false false h n a b = nodeEq h n a b := by
  induction n generalizing a b with
  | zero => rfl
  | succ n ih =>
    rw [nodeEqWith, nodeEq]
    simp [ih]
    rfl

/-- The answer of a comparison that ends. -/
theorem nodeEqWith_sound (short flip : Bool) {h : Heap} (hok : KidsOk h) (hat : AttribsOk h) :
    ∀ (n a b : Nat) (v : Bool), nodeEqWith short flip h n a b = some v → (v = true ↔ SameBelow h a b) := by
  intro n
  induction n with
  | zero => intro a b v e; cases e
  | succ n ih =>
    intro a b v e
    rw [nodeEqWith_succ] at e
    rw [sameBelow_iff hok]
    by_cases h1 : (h.node a).label ≠ (h.node b).label
    · rw [if_pos h1] at e
      cases e
      simp only [Bool.false_eq_true, false_iff]
      rintro ⟨h2, _⟩; exact h1 h2.1
    rw [if_neg h1] at e
    by_cases h2 : attribEq (h.node a).attrib (h.node b).attrib = false
    · rw [if_pos h2] at e
      cases e
      simp only [Bool.false_eq_true, false_iff]
      rintro ⟨h3, _⟩
      rw [(attribEq_iff _ _ (hat a) (hat b)).2 h3.2] at h2
      cases h2
    rw [if_neg h2] at e
    have halike : Alike h a b := ⟨Decidable.not_not.1 h1, (attribEq_iff _ _ (hat a) (hat b)).1 (by simpa using h2)⟩
    have ka : (Dict.keys (nodeKids h a)).length = (h.node a).children.length := by simp [Dict.keys, nodeKids]
    have kb : (Dict.keys (nodeKids h b)).length = (h.node b).children.length := by simp [Dict.keys, nodeKids]
    by_cases h3 : (h.node a).children.length ≠ (h.node b).children.length
    · rw [if_pos h3] at e
      cases e
      simp only [Bool.false_eq_true, false_iff]
      rintro ⟨_, h4, _⟩
      have l1 := length_le_of_subset (kids_wf hok a) (fun x hx => (h4 x).1 hx)
      have l2 := length_le_of_subset (kids_wf hok b) (fun x hx => (h4 x).2 hx)
      omega
    rw [if_neg h3] at e
    have hrec : ∀ x y v, (if flip then nodeEqWith short flip h n y x else nodeEqWith short flip h n x y) = some v →
        (v = true ↔ SameBelow h x y) := by
      intro x y v hv
      cases flip with
      | false => exact ih x y v hv
      | true => exact (ih y x v hv).trans ⟨sameBelow_symm, sameBelow_symm⟩
    obtain ⟨f1, f2, _⟩ := foldr_true_iff (entryEq short (fun x y => if flip then nodeEqWith short flip h n y x else nodeEqWith short flip h n x y)
      (h.node b).children) (h.node a).children
    cases v with
    | true =>
      simp only [true_iff]
      have hall := f1.1 e
      have hsub : ∀ k ∈ Dict.keys (nodeKids h a), k ∈ Dict.keys (nodeKids h b) := by
        intro k hk
        obtain ⟨kv, hkv, rfl⟩ := List.mem_map.1 hk
        have := hall kv hkv
        unfold entryEq at this
        cases hg : Dict.get? (h.node b).children kv.1 with
        | none => rw [hg] at this; cases this
        | some w => rw [← Dict.get?_isSome_iff]; unfold nodeKids; rw [hg]; rfl
      refine ⟨halike, fun k => ⟨hsub k, subset_back (kids_wf hok a) hsub (by omega) k⟩, fun k c d hc hd => ?_⟩
      have := hall (k, c) hc
      unfold entryEq at this
      have hg : Dict.get? (h.node b).children k = some d := (Dict.get?_eq_some_iff (kids_wf hok b) k d).2 hd
      simp only [hg] at this
      by_cases hs : short = true ∧ c = d
      · rw [hs.2]; exact sameBelow_refl h d
      · rw [if_neg hs] at this
        exact (hrec c d true this).1 rfl
    | false =>
      simp only [Bool.false_eq_true, false_iff]
      rintro ⟨_, h4, h5⟩
      obtain ⟨kv, hkv, hf⟩ := f2 e
      unfold entryEq at hf
      cases hg : Dict.get? (h.node b).children kv.1 with
      | none =>
        have := (Dict.get?_eq_none_iff _ _).1 hg
        exact this ((h4 kv.1).1 (List.mem_map.2 ⟨kv, hkv, rfl⟩))
      | some w =>
        rw [hg] at hf
        simp only at hf
        by_cases hs : short = true ∧ kv.2 = w
        · rw [if_pos hs] at hf; cases hf
        · rw [if_neg hs] at hf
          have := (hrec kv.2 w false hf).2 (h5 kv.1 kv.2 w hkv ((Dict.get?_eq_some_iff (kids_wf hok b) kv.1 w).1 hg))
          cases this

/-- A comparison ends if the ways down from one of the nodes are shorter than the number of calls. -/
theorem nodeEqWith_ends (short flip : Bool) (h : Heap) : ∀ (n a b : Nat),
    ((∀ ks x, Leads (nodeKids h) a ks x → ks.length < n) ∨ (∀ ks x, Leads (nodeKids h) b ks x → ks.length < n)) →
    nodeEqWith short flip h n a b ≠ none := by
  intro n
  induction n with
  | zero =>
    intro a b hb
    rcases hb with hb | hb
    · exact absurd (hb [] a (.here a)) (by simp)
    · exact absurd (hb [] b (.here b)) (by simp)
  | succ n ih =>
    intro a b hb
    rw [nodeEqWith_succ]
    by_cases h1 : (h.node a).label ≠ (h.node b).label
    · rw [if_pos h1]; simp
    rw [if_neg h1]
    by_cases h2 : attribEq (h.node a).attrib (h.node b).attrib = false
    · rw [if_pos h2]; simp
    rw [if_neg h2]
    by_cases h3 : (h.node a).children.length ≠ (h.node b).children.length
    · rw [if_pos h3]; simp
    rw [if_neg h3]
    refine (foldr_true_iff _ _).2.2 (fun kv hkv => ?_)
    unfold entryEq
    cases hg : Dict.get? (h.node b).children kv.1 with
    | none => simp
    | some w =>
      simp only
      by_cases hs : short = true ∧ kv.2 = w
      · rw [if_pos hs]; simp
      · rw [if_neg hs]
        have hm : (kv.1, w) ∈ nodeKids h b := Dict.mem_of_get?_eq_some hg
        have hb' : (∀ ks x, Leads (nodeKids h) kv.2 ks x → ks.length < n) ∨ (∀ ks x, Leads (nodeKids h) w ks x → ks.length < n) := by
          rcases hb with hb | hb
          · left
            intro ks x hl
            have := hb (kv.1 :: ks) x (.step hkv hl)
            simpa using this
          · right
            intro ks x hl
            have := hb (kv.1 :: ks) x (.step hm hl)
            simpa using this
        cases flip with
        | false => exact ih kv.2 w hb'
        | true => exact ih w kv.2 hb'.symm

/-- More calls do not change the answer. -/
theorem nodeEqWith_mono (short flip : Bool) (h : Heap) : ∀ (n a b : Nat) (v : Bool), nodeEqWith short flip h n a b = some v →
    nodeEqWith short flip h (n + 1) a b = some v := by
  intro n
  induction n with
  | zero => intro a b v e; cases e
  | succ n ih =>
    intro a b v e
    rw [nodeEqWith_succ] at e ⊢
    by_cases h1 : (h.node a).label ≠ (h.node b).label
    · rw [if_pos h1] at e ⊢; exact e
    rw [if_neg h1] at e ⊢
    by_cases h2 : attribEq (h.node a).attrib (h.node b).attrib = false
    · rw [if_pos h2] at e ⊢; exact e
    rw [if_neg h2] at e ⊢
    by_cases h3 : (h.node a).children.length ≠ (h.node b).children.length
    · rw [if_pos h3] at e ⊢; exact e
    rw [if_neg h3] at e ⊢
    have key : ∀ (other : Dict Str Nat) kv v, entryEq short (fun x y => if flip then nodeEqWith short flip h n y x else nodeEqWith short flip h n x y) other kv = some v →
        entryEq short (fun x y => if flip then nodeEqWith short flip h (n + 1) y x else nodeEqWith short flip h (n + 1) x y) other kv = some v := by
      intro other kv v hv
      unfold entryEq at hv ⊢
      cases hg : Dict.get? other kv.1 with
      | none => rw [hg] at hv; exact hv
      | some w =>
        rw [hg] at hv
        simp only at hv ⊢
        by_cases hs : short = true ∧ kv.2 = w
        · rw [if_pos hs] at hv ⊢; exact hv
        · rw [if_neg hs] at hv ⊢
          cases flip with
          | false => exact ih _ _ _ hv
          | true => exact ih _ _ _ hv
    revert e
    generalize (h.node a).children = l
    intro e
    induction l with
    | nil => exact e
    | cons kv l ihl =>
      simp only [List.foldr_cons] at e ⊢
      cases hx : entryEq short (fun x y => if flip then nodeEqWith short flip h n y x else nodeEqWith short flip h n x y) (h.node b).children kv with
      | none => rw [hx] at e; cases e
      | some v' =>
        rw [hx] at e
        rw [key _ _ _ hx]
        cases v' with
        | false => exact e
        | true => exact ihl e

/-! ### The theorems -/

/-- C124: `==` on nodes of any shape, shared or circular: a comparison that returns says whether the same ways lead down from both and
nodes at the ends of the same way have equal labels and attributes. -/
theorem C124_answer (flip : Bool) (h : Heap) (hok : KidsOk h) (hat : AttribsOk h) (n a b : Nat) :
    (nodeEqWith true flip h n a b = some true → SameBelow h a b) ∧ (nodeEqWith true flip h n a b = some false → ¬ SameBelow h a b) ∧
    ∀ m, n ≤ m → ∀ v, nodeEqWith true flip h n a b = some v → nodeEqWith true flip h m a b = some v := by
  refine ⟨fun e => (nodeEqWith_sound true flip hok hat n a b true e).1 rfl, fun e hs => ?_, fun m hm v e => ?_⟩
  · have := (nodeEqWith_sound true flip hok hat n a b false e).2 hs
    cases this
  · induction hm with
    | refl => exact e
    | step _ ih => exact nodeEqWith_mono true flip h _ a b v ih

/-- C124: it returns, with enough calls inside each other, unless both nodes are circular. -/
theorem C124_returns (flip : Bool) (h : Heap) (hok : KidsOk h) (hat : AttribsOk h) (a b : Nat) (ha : a < h.length) (hb : b < h.length)
    (hc : ¬ (Circular (nodeKids h) a ∧ Circular (nodeKids h) b)) :
    ∃ n, ∀ m, n ≤ m → (nodeEqWith true flip h m a b = some true ↔ SameBelow h a b) ∧
      (nodeEqWith true flip h m a b = some false ↔ ¬ SameBelow h a b) := by
  have hbound : ∃ n, nodeEqWith true flip h n a b ≠ none := by
    by_cases h1 : Circular (nodeKids h) a
    · have h2 : ¬ Circular (nodeKids h) b := fun h2 => hc ⟨h1, h2⟩
      obtain ⟨n, hn⟩ := Spec.Circular.bound h.length (fun r hr kc hm => (hok r hr).2 kc hm) b hb h2
      exact ⟨n, nodeEqWith_ends true flip h n a b (Or.inr hn)⟩
    · obtain ⟨n, hn⟩ := Spec.Circular.bound h.length (fun r hr kc hm => (hok r hr).2 kc hm) a ha h1
      exact ⟨n, nodeEqWith_ends true flip h n a b (Or.inl hn)⟩
  obtain ⟨n, hn⟩ := hbound
  cases hv : nodeEqWith true flip h n a b with
  | none => exact absurd hv hn
  | some v =>
    refine ⟨n, fun m hm => ?_⟩
    have e := (C124_answer flip h hok hat n a b).2.2 m hm v hv
    have hs := nodeEqWith_sound true flip hok hat m a b v e
    rw [e]
    cases v with
    | true => simp only [true_iff] at hs; simp [hs]
    | false => simp only [Bool.false_eq_true, false_iff] at hs; simp [hs]

/-- C124: the number of calls that a comparison of equal nodes needs: more than the length of every way down on which the two sides
never meet. -/
theorem C124_calls (flip : Bool) (h : Heap) (hok : KidsOk h) (hat : AttribsOk h) (n a b : Nat) (hs : SameBelow h a b) :
    nodeEqWith true flip h n a b = some true ↔ ∀ ks, Apart h a b ks → ks.length < n := by
  have apart_symm : ∀ {a b ks}, Apart h a b ks → Apart h b a ks := by
    intro a b ks e
    induction e with
    | here a b => exact .here b a
    | step h1 h2 h3 _ ih => exact .step h2 h1 (Ne.symm h3) ih
  induction n generalizing a b with
  | zero =>
    constructor
    · intro e; cases e
    · intro e; exact absurd (e [] (.here a b)) (by simp)
  | succ n ih =>
    obtain ⟨h0, hk, hb⟩ := (sameBelow_iff hok a b).1 hs
    have ka : (Dict.keys (nodeKids h a)).length = (h.node a).children.length := by simp [Dict.keys, nodeKids]
    have kb : (Dict.keys (nodeKids h b)).length = (h.node b).children.length := by simp [Dict.keys, nodeKids]
    have l1 := length_le_of_subset (kids_wf hok a) (fun x hx => (hk x).1 hx)
    have l2 := length_le_of_subset (kids_wf hok b) (fun x hx => (hk x).2 hx)
    rw [nodeEqWith_succ, if_neg (by simp [h0.1]), if_neg (by rw [(attribEq_iff _ _ (hat a) (hat b)).2 h0.2]; simp), if_neg (by omega)]
    rw [(foldr_true_iff _ _).1]
    have hrec : ∀ c d, SameBelow h c d → ((if flip then nodeEqWith true flip h n d c else nodeEqWith true flip h n c d) = some true ↔
        ∀ ks, Apart h c d ks → ks.length < n) := by
      intro c d hcd
      cases flip with
      | false => exact ih c d hcd
      | true => exact (ih d c (sameBelow_symm hcd)).trans ⟨fun e ks hks => e ks (apart_symm hks), fun e ks hks => e ks (apart_symm hks)⟩
    constructor
    · intro hall ks hks
      cases hks with
      | here => simp
      | @step _ _ c d k ks hc hd hne hks =>
        have := hall (k, c) hc
        unfold entryEq at this
        have hg : Dict.get? (h.node b).children k = some d := (Dict.get?_eq_some_iff (kids_wf hok b) k d).2 hd
        simp only [hg] at this
        rw [if_neg (fun e => hne e.2)] at this
        have := (hrec c d (hb k c d hc hd)).1 this ks hks
        simp only [List.length_cons]; omega
    · intro hall kv hkv
      unfold entryEq
      have hkey := (hk kv.1).1 (List.mem_map.2 ⟨kv, hkv, rfl⟩)
      rw [← Dict.get?_isSome_iff] at hkey
      obtain ⟨w, hw⟩ := Option.isSome_iff_exists.1 hkey
      have hw' : Dict.get? (h.node b).children kv.1 = some w := hw
      rw [hw']
      change (if true = true ∧ kv.2 = w then some true else _) = some true
      have hm : (kv.1, w) ∈ nodeKids h b := Dict.mem_of_get?_eq_some hw
      by_cases hs' : true = true ∧ kv.2 = w
      · rw [if_pos hs']
      · rw [if_neg hs']
        refine (hrec kv.2 w (hb kv.1 kv.2 w hkv hm)).2 (fun ks hks => ?_)
        have := hall (kv.1 :: ks) (.step hkv hm (fun e => hs' ⟨rfl, e⟩) hks)
        simpa using this

/-- C124: a node is equal to itself, also if it contains itself; one call is enough. -/
theorem C124_itself (flip : Bool) (h : Heap) (hok : KidsOk h) (hat : AttribsOk h) (n a : Nat) :
    nodeEqWith true flip h (n + 1) a a = some true := by
  refine (C124_calls flip h hok hat (n + 1) a a (sameBelow_refl h a)).2 (fun ks hks => ?_)
  cases hks with
  | here => simp
  | step h1 h2 h3 _ => exact absurd (kid_unique hok h1 h2) h3

/-- C124: `==` is symmetric and transitive as far as it returns. -/
theorem C124_equivalence (flip : Bool) (h : Heap) (hok : KidsOk h) (hat : AttribsOk h) (n m k a b c : Nat) :
    (∀ v w, nodeEqWith true flip h n a b = some v → nodeEqWith true flip h m b a = some w → v = w) ∧
    (∀ v, nodeEqWith true flip h n a b = some true → nodeEqWith true flip h m b c = some true → nodeEqWith true flip h k a c = some v →
      v = true) := by
  have snd := nodeEqWith_sound true flip hok hat
  refine ⟨fun v w hv hw => ?_, fun v h1 h2 h3 => ?_⟩
  · have e1 := snd n a b v hv
    have e2 := snd m b a w hw
    have e3 : SameBelow h a b ↔ SameBelow h b a := ⟨sameBelow_symm, sameBelow_symm⟩
    have : v = true ↔ w = true := e1.trans (e3.trans e2.symm)
    cases v <;> cases w <;> simp_all
  · exact (snd k a c v h3).2 (sameBelow_trans ((snd n a b true h1).1 rfl) ((snd m b c true h2).1 rfl))

/-- C124: what the comparison without the short cut says (`nodeEq`, C85) is the same wherever both return. -/
theorem C124_plain (flip : Bool) (h : Heap) (hok : KidsOk h) (hat : AttribsOk h) (n m a b : Nat) (v w : Bool)
    (hv : nodeEqWith true flip h n a b = some v) (hw : nodeEq h m a b = some w) : v = w := by
  rw [← nodeEqWith_plain] at hw
  have e1 := nodeEqWith_sound true flip hok hat n a b v hv
  have e2 := nodeEqWith_sound false false hok hat m a b w hw
  have : v = true ↔ w = true := e1.trans e2.symm
  cases v <;> cases w <;> simp_all

/-! ### Programs -/

theorem attribsOk_upd (h : Heap) (hat : AttribsOk h) (r : Nat) (f : TNode → TNode) (hf : ∀ n, Dict.WF n.attrib → Dict.WF (f n).attrib) :
    AttribsOk (h.upd r f) := by
  intro i
  by_cases hr : r < h.length
  · rw [node_upd h r i f hr]
    split
    · exact hf _ (hat i)
    · exact hat i
  · have : h.upd r f = h := by
      unfold Heap.upd
      exact List.modify_eq_self (by omega)
    rw [this]; exact hat i

theorem attribsOk_step (h : Heap) (hat : AttribsOk h) (op : TreeOp) (hop : ∀ l a, op = .new l a → Dict.WF a) : AttribsOk (op.step h) := by
  cases op with
  | new l a =>
    intro i
    simp only [TreeOp.step, newNode]
    by_cases hi : i < h.length
    · rw [node_append _ _ hi]; exact hat i
    · unfold Heap.node
      rw [List.getElem?_append_right (by omega)]
      cases hr : i - h.length with
      | zero => exact hop l a rfl
      | succ j => exact Dict.WF_nil
  | add p c =>
    simp only [TreeOp.step, addChild]
    refine attribsOk_upd _ ?_ c _ ?_
    on_goal 2 => exact fun n hn => hn
    exact attribsOk_upd h hat p _ (fun n hn => hn)
  | unlink c =>
    simp only [TreeOp.step]
    split
    · rename_i h' e
      unfold unlink at e
      split at e
      · cases e; exact attribsOk_upd h hat c _ (fun n hn => hn)
      · split at e
        · cases e; exact attribsOk_upd h hat c _ (fun n hn => hn)
        · split at e
          · cases e
          · cases e
            refine attribsOk_upd _ ?_ c _ ?_
            on_goal 2 => exact fun n hn => hn
            exact attribsOk_upd h hat _ _ (fun n hn => hn)
    · exact hat
  | del p c =>
    simp only [TreeOp.step]
    split
    · rename_i h' e
      unfold delChild at e
      split at e
      · cases e
      · cases e
        apply attribsOk_upd _ _ c _ (fun n hn => Dict.WF_set hn _ _)
        exact attribsOk_upd h hat _ _ (fun n hn => hn)
    · exact hat
  | set r k v => exact attribsOk_upd h hat r _ (fun n hn => Dict.WF_set hn _ _)
  | unset r k =>
    simp only [TreeOp.step]
    split
    · rename_i h' e
      unfold delAttr at e
      split at e
      · cases e
      · cases e
        exact attribsOk_upd h hat r _ (fun n hn => Dict.WF_del hn _)
    · exact hat

/-- C124: what programs build meets the conditions. -/
theorem C124_programs (ops : List TreeOp) (hin : TreeOp.allInHeap [] ops) (hnew : ∀ l a, TreeOp.new l a ∈ ops → Dict.WF a) :
    KidsOk (TreeOp.run [] ops) ∧ AttribsOk (TreeOp.run [] ops) := by
  refine ⟨nodesOk_kids (C121_nodes_ok ops hin), ?_⟩
  have key : ∀ (ops : List TreeOp) (h : Heap), AttribsOk h → (∀ l a, TreeOp.new l a ∈ ops → Dict.WF a) → AttribsOk (TreeOp.run h ops) := by
    intro ops
    induction ops with
    | nil => intro h hh _; exact hh
    | cons op ops ih =>
      intro h hh hn
      exact ih _ (attribsOk_step h hh op (fun l a e => hn l a (by rw [e]; simp))) (fun l a hm => hn l a (List.mem_cons_of_mem _ hm))
  exact key ops [] (fun r => by unfold Heap.node; exact Dict.WF_nil) hnew

/-- C124: two nodes that contain themselves, built alike: comparing them never ends, although the same ways lead down from both. -/
theorem C124_circular : ∃ ops : List TreeOp, TreeOp.allInHeap [] ops ∧ (∀ l a, TreeOp.new l a ∈ ops → Dict.WF a) ∧
    SameBelow (TreeOp.run [] ops) 0 1 ∧ ∀ flip n, nodeEqWith true flip (TreeOp.run [] ops) n 0 1 = none := by
  refine ⟨[.new u!"a" [], .add 0 0, .new u!"a" [], .add 1 1], by decide +kernel, ?_, ?_⟩
  · intro l a hm
    simp only [List.mem_cons, TreeOp.new.injEq, List.not_mem_nil, or_false, reduceCtorEq, false_or] at hm
    rcases hm with ⟨_, rfl⟩ | ⟨_, rfl⟩ <;> exact Dict.WF_nil
  have hrun : TreeOp.run [] [.new u!"a" [], .add 0 0, .new u!"a" [], .add 1 1] =
    [⟨u!"a", [(u!"a", 0)], [], some 0⟩, ⟨u!"a", [(u!"a", 1)], [], some 1⟩] := by decide +kernel
  obtain ⟨hok, hat⟩ := C124_programs [.new u!"a" [], .add 0 0, .new u!"a" [], .add 1 1] (by decide +kernel) (by
    intro l a hm
    simp only [List.mem_cons, TreeOp.new.injEq, List.not_mem_nil, or_false, reduceCtorEq, false_or] at hm
    rcases hm with ⟨_, rfl⟩ | ⟨_, rfl⟩ <;> exact Dict.WF_nil)
  rw [hrun] at hok hat ⊢
  generalize hh : ([⟨u!"a", [(u!"a", 0)], [], some 0⟩, ⟨u!"a", [(u!"a", 1)], [], some 1⟩] : Heap) = h at hok hat
  have k0 : nodeKids h 0 = [(u!"a", 0)] := by rw [← hh]; rfl
  have k1 : nodeKids h 1 = [(u!"a", 1)] := by rw [← hh]; rfl
  have l0 : ∀ ks x, Leads (nodeKids h) 0 ks x → x = 0 ∧ Leads (nodeKids h) 1 ks 1 := by
    intro ks
    induction ks with
    | nil => intro x e; cases e; exact ⟨rfl, .here 1⟩
    | cons k ks ih =>
      intro x e
      cases e with
      | step hm hl =>
        rw [k0] at hm
        simp only [List.mem_singleton, Prod.mk.injEq] at hm
        obtain ⟨rfl, rfl⟩ := hm
        exact ⟨(ih x hl).1, .step (by rw [k1]; simp) (ih x hl).2⟩
  have l1 : ∀ ks x, Leads (nodeKids h) 1 ks x → x = 1 ∧ Leads (nodeKids h) 0 ks 0 := by
    intro ks
    induction ks with
    | nil => intro x e; cases e; exact ⟨rfl, .here 0⟩
    | cons k ks ih =>
      intro x e
      cases e with
      | step hm hl =>
        rw [k1] at hm
        simp only [List.mem_singleton, Prod.mk.injEq] at hm
        obtain ⟨rfl, rfl⟩ := hm
        exact ⟨(ih x hl).1, .step (by rw [k0]; simp) (ih x hl).2⟩
  have alike : Alike h 0 1 := by rw [← hh]; exact ⟨rfl, fun _ => rfl⟩
  have hs : SameBelow h 0 1 := by
    intro ks
    refine ⟨fun x hx => ?_, fun y hy => ?_⟩
    · obtain ⟨rfl, h2⟩ := l0 ks x hx
      exact ⟨1, h2, alike⟩
    · obtain ⟨rfl, h2⟩ := l1 ks y hy
      exact ⟨0, h2, alike⟩
  refine ⟨hs, fun flip n => ?_⟩
  have apart : ∀ n, ∃ ks, Apart h 0 1 ks ∧ ks.length = n := by
    intro n
    induction n with
    | zero => exact ⟨[], .here 0 1, rfl⟩
    | succ n ih =>
      obtain ⟨ks, h1, h2⟩ := ih
      exact ⟨u!"a" :: ks, .step (by rw [k0]; simp) (by rw [k1]; simp) (by decide) h1, by simp [h2]⟩
  cases e : nodeEqWith true flip h n 0 1 with
  | none => rfl
  | some v =>
    exfalso
    have hv := (nodeEqWith_sound true flip hok hat n 0 1 v e).2 hs
    subst hv
    obtain ⟨ks, h1, h2⟩ := apart n
    have := (C124_calls flip h hok hat n 0 1 hs).1 e ks h1
    omega

/-! ### Drawing -/

theorem layoutKids_bound (h : Heap) (method : TNode → Except PyErr Str) (hm : ∀ n, ∃ s, method n = .ok s) :
    ∀ (fuel : Nat) (pre : Str) (cs : List Nat) (p : Printed), layoutKids h method fuel pre cs = some p →
      p.2 = none ∧ ∀ c ∈ cs, ∀ ks x, Leads (nodeKids h) c ks x → ks.length < fuel := by
  have line : ∀ (pre : Str) (n : TNode) (b : Option Printed) (p : Printed), (printLine pre (method n)).andMaybe b = some p →
      ∃ q, b = some q ∧ p.2 = q.2 := by
    intro pre n b p e
    obtain ⟨s, hs⟩ := hm n
    rw [hs] at e
    simp only [printLine, Printed.andMaybe] at e
    obtain ⟨q, e1, e2⟩ := Option.map_eq_some_iff.1 e
    exact ⟨q, e1, by rw [← e2]⟩
  intro fuel
  induction fuel with
  | zero => intro pre cs p e; cases e
  | succ fuel ih =>
    intro pre cs p e
    have below : ∀ (pre : Str) (q : Printed) (r : Nat), layoutKids h method fuel pre (Dict.values (h.node r).children) = some q →
        ∀ ks x, Leads (nodeKids h) r ks x → ks.length < fuel + 1 := by
      intro pre q r e ks x hl
      cases hl with
      | here => simp
      | step hm h2 =>
        have := (ih _ _ _ e).2 _ (mem_values_iff.2 ⟨_, hm⟩) _ _ h2
        simp only [List.length_cons]; omega
    match cs, e with
    | [], e => cases e; exact ⟨rfl, fun c hc => (by cases hc)⟩
    | [d], e =>
      simp only [layoutKids] at e
      obtain ⟨q, e1, e2⟩ := line _ _ _ _ e
      refine ⟨by rw [e2]; exact (ih _ _ _ e1).1, fun c hc ks x hl => ?_⟩
      rw [List.mem_singleton] at hc
      subst hc
      exact below _ _ _ e1 ks x hl
    | d :: d' :: rest, e =>
      simp only [layoutKids] at e
      obtain ⟨q, e1, e2⟩ := Option.bind_eq_some_iff.1 e
      obtain ⟨q1, e3, e4⟩ := line _ _ _ _ e1
      have hq : q.2 = none := by rw [e4]; exact (ih _ _ _ e3).1
      simp only [Printed.andMaybe, hq] at e2
      obtain ⟨q2, e5, e6⟩ := Option.map_eq_some_iff.1 e2
      refine ⟨by rw [← e6]; exact (ih _ _ _ e5).1, fun c hc ks x hl => ?_⟩
      rcases List.mem_cons.1 hc with rfl | hc
      · exact below _ _ _ e3 ks x hl
      · have := (ih _ _ _ e5).2 c hc ks x hl
        omega

/-- C124: `layout` ends for every node that does not contain itself, directly or not; and with a method that never raises only for
these. -/
theorem C124_layout_ends_iff (h : Heap) (hok : NodesOk h) (r : Nat) (hr : r < h.length) (method : TNode → Except PyErr Str) :
    (¬ Circular (nodeKids h) r → ∃ rounds, ∀ fuel, rounds ≤ fuel → ∃ out, treeLayout h fuel r method = some out) ∧
    ((∀ n, ∃ s, method n = .ok s) → Circular (nodeKids h) r → ∀ fuel, treeLayout h fuel r method = none) := by
  constructor
  · intro hc
    obtain ⟨t, rfl, h1, h2, h3⟩ := unfold_tree hok r hr hc
    exact ⟨t.size, fun fuel hf => ⟨_, (C86_layout h t h1 method fuel hf).1⟩⟩
  · intro hm hc fuel
    cases e : treeLayout h fuel r method with
    | none => rfl
    | some out =>
      exfalso
      unfold treeLayout at e
      obtain ⟨s, hs⟩ := hm (h.node r)
      rw [hs] at e
      simp only [printLine, Printed.andMaybe] at e
      obtain ⟨q, e', _⟩ := Option.map_eq_some_iff.1 e
      refine not_circular_of_bound (m := fuel + 1) (fun ks x hl => ?_) hc
      cases hl with
      | here => simp
      | step hm' h2 =>
        have := (layoutKids_bound h method hm _ _ _ _ e').2 _ (mem_values_iff.2 ⟨_, hm'⟩) _ _ h2
        simp only [List.length_cons]; omega

/-- A node that contains itself is drawn without end, but a method that raises at the third line ends the drawing. -/
example : treeLayout [⟨u!"a", [(u!"b", 1)], [], none⟩, ⟨u!"b", [(u!"a", 0)], [(.str u!"x", .none)], some 0⟩] 5 0
    (fun n => if n.attrib.length = 1 then .error .keyError else .ok n.label) = some ([u!"a"], some .keyError) := by decide +kernel

/-- A shared node: both children of the first root are the child of the second. -/
example : (∀ r < 4, Dict.WF (nodeKids [⟨u!"r", [(u!"x", 2)], [], none⟩, ⟨u!"r", [(u!"x", 3)], [], none⟩, ⟨u!"x", [], [], some 0⟩,
      ⟨u!"x", [], [], some 1⟩] r)) ∧
    nodeEqWith true true [⟨u!"r", [(u!"x", 2)], [], none⟩, ⟨u!"r", [(u!"x", 3)], [], none⟩, ⟨u!"x", [], [], some 0⟩, ⟨u!"x", [], [], some 1⟩]
      2 0 1 = some true ∧
    nodeEqWith true true [⟨u!"r", [(u!"x", 2)], [], none⟩, ⟨u!"r", [(u!"x", 3)], [], none⟩, ⟨u!"x", [], [], some 0⟩, ⟨u!"x", [], [], some 1⟩]
      1 0 1 = none := by
  refine ⟨?_, by decide +kernel, by decide +kernel⟩
  unfold Dict.WF
  decide +kernel

end Cjk
