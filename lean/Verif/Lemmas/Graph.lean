import Verif.Spec.Graph
/-!
# Lemmas on objects that hold each other
-/

namespace Cjk
open Py
open Spec (Leads Circular)

variable {kids : Nat → List (Str × Nat)}

theorem Spec.Leads.append {r x y : Nat} {ks ks' : List Str} (h : Leads kids r ks x) (h' : Leads kids x ks' y) : Leads kids r (ks ++ ks') y := by
  induction h with
  | here r => exact h'
  | step hm _ ih => exact .step hm (ih h')

theorem Spec.Leads.split {r y : Nat} : ∀ {ks ks' : List Str}, Leads kids r (ks ++ ks') y → ∃ x, Leads kids r ks x ∧ Leads kids x ks' y := by
  intro ks
  induction ks generalizing r with
  | nil => intro ks' h; exact ⟨r, .here r, h⟩
  | cons k ks ih =>
    intro ks' h
    cases h with
    | step hm h =>
      obtain ⟨x, h1, h2⟩ := ih h
      exact ⟨x, .step hm h1, h2⟩

theorem Spec.Leads.snoc {r y : Nat} {ks : List Str} {k : Str} : Leads kids r (ks ++ [k]) y ↔ ∃ x, Leads kids r ks x ∧ (k, y) ∈ kids x := by
  constructor
  · intro h
    obtain ⟨x, h1, h2⟩ := h.split
    cases h2 with
    | step hm h3 => cases h3; exact ⟨x, h1, hm⟩
  · rintro ⟨x, h1, h2⟩
    exact h1.append (.step h2 (.here y))

theorem Spec.Leads.loops {x : Nat} {loop : List Str} (h : Leads kids x loop x) (hne : loop ≠ []) :
    ∀ n, ∃ ks, n ≤ ks.length ∧ Leads kids x ks x := by
  intro n
  induction n with
  | zero => exact ⟨[], by simp, .here x⟩
  | succ n ih =>
    obtain ⟨ks, h1, h2⟩ := ih
    refine ⟨loop ++ ks, ?_, h.append h2⟩
    have := List.length_pos_iff.2 hne
    simp only [List.length_append]; omega

/-- With a loop below there are paths of every length. -/
theorem Spec.Circular.paths {r : Nat} (h : Circular kids r) (n : Nat) : ∃ ks x, Leads kids r ks x ∧ ks.length = n := by
  obtain ⟨ks, x, loop, h1, hne, h2⟩ := h
  obtain ⟨ks', h3, h4⟩ := h2.loops hne n
  have h5 := h1.append h4
  rw [← List.take_append_drop n (ks ++ ks')] at h5
  obtain ⟨y, h6, _⟩ := h5.split
  refine ⟨_, y, h6, ?_⟩
  simp only [List.length_take, List.length_append]; omega

theorem Spec.Circular.of_kid {r c : Nat} {k : Str} (hm : (k, c) ∈ kids r) (h : Circular kids c) : Circular kids r := by
  obtain ⟨ks, x, loop, h1, h2⟩ := h
  exact ⟨k :: ks, x, loop, .step hm h1, h2⟩

/-- A list of different numbers below `n` has at most `n` elements. -/
theorem nodup_bounded (n : Nat) (l : List Nat) (hn : l.Nodup) (hb : ∀ x ∈ l, x < n) : l.length ≤ n := by
  have : l.length ≤ (List.range n).length := by
    have hsub : l ⊆ List.range n := fun x hx => List.mem_range.2 (hb x hx)
    clear hb
    generalize List.range n = m at hsub
    induction l generalizing m with
    | nil => simp
    | cons a l ih =>
      rw [List.nodup_cons] at hn
      have ha : a ∈ m := hsub List.mem_cons_self
      have := ih hn.2 (m.erase a) (fun x hx => (List.mem_erase_of_ne (by rintro rfl; exact hn.1 hx)).2 (hsub (List.mem_cons_of_mem a hx)))
      rw [List.length_erase_of_mem ha] at this
      have := List.length_pos_of_mem ha
      simp only [List.length_cons]; omega
  simpa using this

/-- Induction over everything below an object without loops below it: what holds for an object if it holds for its entries. -/
theorem Spec.Circular.induct (n : Nat) (hb : ∀ r < n, ∀ kc ∈ kids r, kc.2 < n) (P : Nat → Prop)
    (hP : ∀ r < n, (∀ kc ∈ kids r, P kc.2) → P r) (r : Nat) (hr : r < n) (hc : ¬ Circular kids r) : P r := by
  have key : ∀ (fuel : Nat) (anc : List Nat) (r : Nat), anc.length + fuel = n → anc.Nodup → (∀ a ∈ anc, a < n ∧ ∃ ks, ks ≠ [] ∧ Leads kids a ks r) →
      r < n → ¬ Circular kids r → P r := by
    intro fuel
    induction fuel with
    | zero =>
      intro anc r hl hn ha hr hc
      exfalso
      have hmem : r ∉ anc := by
        intro hm
        obtain ⟨_, ks, hne, h⟩ := ha r hm
        exact hc ⟨[], r, ks, .here r, hne, h⟩
      have := nodup_bounded n (r :: anc) (List.nodup_cons.2 ⟨hmem, hn⟩) (by
        intro x hx
        rcases List.mem_cons.1 hx with rfl | hx
        · exact hr
        · exact (ha x hx).1)
      simp only [List.length_cons] at this
      omega
    | succ fuel ih =>
      intro anc r hl hn ha hr hc
      have hmem : r ∉ anc := by
        intro hm
        obtain ⟨_, ks, hne, h⟩ := ha r hm
        exact hc ⟨[], r, ks, .here r, hne, h⟩
      refine hP r hr (fun kc hkc => ?_)
      refine ih (r :: anc) kc.2 (by simp only [List.length_cons]; omega) (List.nodup_cons.2 ⟨hmem, hn⟩) ?_ (hb r hr kc hkc) (fun h => hc (Circular.of_kid hkc h))
      intro a ha'
      rcases List.mem_cons.1 ha' with rfl | ha'
      · exact ⟨hr, [kc.1], by simp, .step hkc (.here _)⟩
      · obtain ⟨h1, ks, _, h3⟩ := ha a ha'
        exact ⟨h1, ks ++ [kc.1], by simp, Leads.snoc.2 ⟨_, h3, hkc⟩⟩
  exact key n [] r (by simp) List.nodup_nil (by simp) hr hc

/-- Without a loop below, the paths are bounded in length. -/
theorem Spec.Circular.bound (n : Nat) (hb : ∀ r < n, ∀ kc ∈ kids r, kc.2 < n) (r : Nat) (hr : r < n) (hc : ¬ Circular kids r) :
    ∃ m, ∀ ks x, Leads kids r ks x → ks.length < m := by
  refine Circular.induct n hb (fun r => ∃ m, ∀ ks x, Leads kids r ks x → ks.length < m) ?_ r hr hc
  intro r _ ih
  have : ∃ m, ∀ kc ∈ kids r, ∀ ks x, Leads kids kc.2 ks x → ks.length < m := by
    clear hc
    revert ih
    generalize kids r = l
    intro ih
    induction l with
    | nil => exact ⟨0, by simp⟩
    | cons kc l ihl =>
      obtain ⟨m1, h1⟩ := ih kc (by simp)
      obtain ⟨m2, h2⟩ := ihl (fun kc' h' => ih kc' (by simp [h']))
      refine ⟨m1 + m2, ?_⟩
      intro kc' h' ks x hl
      rcases List.mem_cons.1 h' with rfl | h'
      · have := h1 ks x hl; omega
      · have := h2 kc' h' ks x hl; omega
  obtain ⟨m, hm⟩ := this
  refine ⟨m + 1, ?_⟩
  intro ks x hl
  cases hl with
  | here => simp
  | step h1 h2 =>
    have := hm _ h1 _ _ h2
    simp only [List.length_cons]; omega

/-- There is a loop below an object exactly if there are paths of every length. -/
theorem circular_iff (n : Nat) (hb : ∀ r < n, ∀ kc ∈ kids r, kc.2 < n) (r : Nat) (hr : r < n) :
    Circular kids r ↔ ∀ m, ∃ ks x, Leads kids r ks x ∧ m ≤ ks.length := by
  constructor
  · intro h m
    obtain ⟨ks, x, h1, h2⟩ := Circular.paths h m
    exact ⟨ks, x, h1, by omega⟩
  · intro h
    refine Classical.byContradiction (fun hc => ?_)
    obtain ⟨m, hm⟩ := Circular.bound n hb r hr hc
    obtain ⟨ks, x, h1, h2⟩ := h m
    have := hm ks x h1
    omega

theorem mem_set_dict {K V : Type} [DecidableEq K] {d : Dict K V} {k : K} {v : V} {kv : K × V} (h : kv ∈ Dict.set d k v) : kv ∈ d ∨ kv.2 = v := by
  induction d with
  | nil => simp only [Dict.set, List.mem_singleton] at h; subst h; exact Or.inr rfl
  | cons x d ih =>
    obtain ⟨k', v'⟩ := x
    simp only [Dict.set] at h
    split at h
    · rcases List.mem_cons.1 h with rfl | h
      · exact Or.inr rfl
      · exact Or.inl (List.mem_cons_of_mem _ h)
    · rcases List.mem_cons.1 h with rfl | h
      · exact Or.inl List.mem_cons_self
      · rcases ih h with h | h
        · exact Or.inl (List.mem_cons_of_mem _ h)
        · exact Or.inr h

theorem Spec.Leads.mono {f g : Nat → List (Str × Nat)} (h : ∀ r kc, kc ∈ f r → kc ∈ g r) {a b : Nat} {ks : List Str} (hl : Leads f a ks b) : Leads g a ks b := by
  induction hl with
  | here r => exact .here r
  | step hm _ ih => exact .step (h _ _ hm) ih

/-- Setting an entry makes a loop exactly if the holder is below the new entry. -/
theorem loopless_set {kids kids' : Nat → List (Str × Nat)} (p c : Nat) (key : Str)
    (he : ∀ r, kids' r = if r = p then Dict.set (kids p) key c else kids r) (hn' : ∀ x ks, Leads kids x ks x → ks = []) :
    (∀ x ks, Leads kids' x ks x → ks = []) ↔ ¬ ∃ ks, Leads kids c ks p := by
  constructor
  · rintro hno ⟨ks, hl⟩
    have : ∀ {a b : Nat} {ks : List Str}, Leads kids a ks b → b = p → ∃ ks', Leads kids' a ks' p := by
      intro a b ks hl e
      induction hl with
      | here r => subst e; exact ⟨[], .here _⟩
      | @step r c x k ks hm _ ih =>
        by_cases e' : r = p
        · subst e'; exact ⟨[], .here _⟩
        · obtain ⟨ks', h2⟩ := ih e
          refine ⟨k :: ks', .step ?_ h2⟩
          rw [he r, if_neg e']
          exact hm
    obtain ⟨ks', hl'⟩ := this hl rfl
    have hedge : (key, c) ∈ kids' p := by
      rw [he p, if_pos rfl]
      exact Dict.mem_of_get?_eq_some (Dict.get?_set_self _ _ _)
    have := hno p (key :: ks') (.step hedge hl')
    cases this
  · intro hno x ks hl
    have key' : ∀ {a b : Nat} {ks : List Str}, Leads kids' a ks b →
        Leads kids a ks b ∨ ((∃ k1, Leads kids a k1 p) ∧ ∃ k2, Leads kids c k2 b) := by
      intro a b ks hl
      induction hl with
      | here r => exact Or.inl (.here r)
      | @step r c' x k ks hm _ ih =>
        rw [he r] at hm
        have hcase : (k, c') ∈ kids r ∨ (r = p ∧ c' = c) := by
          split at hm
          · rename_i e
            subst e
            rcases mem_set_dict hm with h1 | h1
            · exact Or.inl h1
            · exact Or.inr ⟨rfl, h1⟩
          · exact Or.inl hm
        rcases hcase with h1 | ⟨rfl, rfl⟩
        · rcases ih with h2 | ⟨⟨k1, h2⟩, h3⟩
          · exact Or.inl (.step h1 h2)
          · exact Or.inr ⟨⟨_, .step h1 h2⟩, h3⟩
        · rcases ih with h2 | ⟨_, h3⟩
          · exact Or.inr ⟨⟨[], .here _⟩, ⟨_, h2⟩⟩
          · exact Or.inr ⟨⟨[], .here _⟩, h3⟩
    rcases key' hl with h1 | ⟨⟨k1, h1⟩, ⟨k2, h2⟩⟩
    · exact hn' x ks h1
    · exact absurd ⟨_, h2.append h1⟩ hno

end Cjk
