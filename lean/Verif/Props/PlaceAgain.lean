import Verif.Props.PlaceText
/-!
# C183: a file of places, loaded, saved and loaded again
-/

namespace Cjk
open Py

/-! ### Specification -/

mutual
/-- A hierarchy after saving and loading: a single alias has become the text of the Python list, read as aliases separated by colons. -/
def Spec.Place.relisted (r : Str → Str) : Place → Place
  | .node l rd a k => .node l rd (match a with
      | some [x] => some (splitChr c!":" (u!"[" ++ r x ++ u!"]"))
      | a => a) (Spec.Places.relisted r k)
/-- The same for entries. -/
def Spec.Places.relisted (r : Str → Str) : Places → Places
  | .nil => .nil
  | .cons key p rest => .cons key (Spec.Place.relisted r p) (Spec.Places.relisted r rest)
end

/-- All places of a hierarchy. -/
def Spec.allPlaces (p : Place) : List Place := (p.preorder 0).map Prod.snd

/-! ### What is loaded is a hierarchy -/

theorem setDict_mem {K V : Type} [DecidableEq K] (d : Dict K V) (k : K) (v : V) (e : K × V) (h : e ∈ Dict.set d k v) : e ∈ d ∨ e = (k, v) := by
  induction d with
  | nil => simp [Dict.set] at h; exact Or.inr h
  | cons x d ih =>
    obtain ⟨k', v'⟩ := x
    simp only [Dict.set] at h
    split at h
    · rename_i hk
      rcases List.mem_cons.1 h with h | h
      · subst hk; exact Or.inr h
      · exact Or.inl (List.mem_cons_of_mem _ h)
    · rcases List.mem_cons.1 h with h | h
      · exact Or.inl (by rw [h]; exact List.mem_cons_self ..)
      · rcases ih h with h | h
        · exact Or.inl (List.mem_cons_of_mem _ h)
        · exact Or.inr h

theorem ofList_sub {K V : Type} [DecidableEq K] (l : List (K × V)) (e : K × V) (h : e ∈ Dict.ofList l) : e ∈ l := by
  have gen : ∀ (l : List (K × V)) (d : Dict K V), e ∈ Dict.update d l → e ∈ d ∨ e ∈ l := by
    intro l
    induction l with
    | nil => intro d h; exact Or.inl h
    | cons x l ih =>
      intro d h
      rcases ih (Dict.set d x.1 x.2) h with h | h
      · rcases setDict_mem d x.1 x.2 e h with h | h
        · exact Or.inl h
        · exact Or.inr (by rw [h]; exact List.mem_cons_self ..)
      · exact Or.inr (List.mem_cons_of_mem _ h)
  rcases gen l [] h with h | h
  · cases h
  · exact h

theorem entriesOf_later (rs : List Spec.PlaceRec) (i : Nat) (e : Str × Nat) (h : e ∈ Spec.entriesOf rs i) : i < e.2 ∧ e.2 < rs.length := by
  obtain ⟨j, hj, he⟩ := List.mem_filterMap.1 h
  have hj := List.mem_range.1 hj
  cases hr : rs[j]? with
  | none => rw [hr] at he; cases he
  | some r =>
    rw [hr] at he
    simp only at he
    split at he
    · rename_i hc
      cases he
      refine ⟨?_, hj⟩
      have := parentLine_lt (ds := (rs.take j).map Prod.fst) (fun hn => by
        have := congrArg List.length hn
        have h0 := hc.1
        rw [List.length_map, List.length_take, List.length_nil] at this
        omega) hc.2
      simp only [List.length_map, List.length_take] at this
      simp only
      omega
    · cases he

/-- The objects that `from_file` makes out of a file it accepts are one hierarchy. -/
theorem loaded_holds (lines : List Str) (st : PStore) (h : placeFromFile lines = .ok st) : ∃ p, Spec.Holds st 0 p := by
  obtain ⟨rs, hlen, hst⟩ : ∃ rs : List Spec.PlaceRec, rs ≠ [] ∧ Spec.HoldsOutline st rs := by
    rcases C91_cases lines with rfl | ⟨line, rest, rfl, ⟨e, he⟩ | ⟨r, hr, hr0⟩⟩ | ⟨rs, h1, h2⟩ | ⟨pre, rs, a, bad, rest, e, rfl, h1, h2, h3, h4⟩
    · rw [C91_first_line.1] at h; cases h
    · rw [C91_first_line.2.1 _ _ _ he] at h; cases h
    · rw [C91_first_line.2.2 _ _ _ hr hr0] at h; cases h
    · obtain ⟨st', h3, h4⟩ := C91_outline lines rs h1 h2
      rw [h] at h3
      cases h3
      exact ⟨rs, fun hn => by subst hn; simp [Spec.OutlineOk] at h2, h4⟩
    · rw [C91_error pre rs h1 h2 a h3 bad rest e h4] at h; cases h
  have hpos : 0 < rs.length := List.length_pos_iff.2 hlen
  have gen : ∀ n i, rs.length - i ≤ n → i < rs.length → ∃ p, Spec.Holds st i p := by
    intro n
    induction n with
    | zero => intro i h1 h2; omega
    | succ n ih =>
      intro i h1 h2
      have e := hst.2 i rs[i] (List.getElem?_eq_getElem h2)
      have all : ∀ d : Dict Str Nat, (∀ x ∈ d, i < x.2 ∧ x.2 < rs.length) → ∃ k, Spec.HoldsAll st d k := by
        intro d
        induction d with
        | nil => intro _; exact ⟨.nil, rfl⟩
        | cons kp d ihd =>
          intro hd
          obtain ⟨h3, h4⟩ := hd kp (List.mem_cons_self ..)
          obtain ⟨p, hp⟩ := ih kp.2 (by omega) h4
          obtain ⟨k, hk⟩ := ihd (fun x hx => hd x (List.mem_cons_of_mem _ hx))
          exact ⟨.cons kp.1 p k, kp.2, d, rfl, hp, hk⟩
      obtain ⟨k, hk⟩ := all _ (fun x hx => entriesOf_later rs i x (ofList_sub _ x hx))
      exact ⟨.node rs[i].2.1 rs[i].2.2.1 rs[i].2.2.2 k, _, e, rfl, rfl, rfl, hk⟩
  exact gen rs.length 0 (by omega) hpos

/-! ### Saving and loading what was loaded -/

/-- A line with at most one alias is read, one with several is refused. -/
theorem line_again (r : Str → Str) (hr : ReprOk r) (d : Nat) (l : Str) (rd : Option Str) (a : Option (List Str)) (h : GoodDetails l rd a) :
    (a = none → placeFromLine (placeToLine r d l rd a ++ u!"\n") = .ok ((d : Int), l, rd, none)) ∧
    (∀ x, a = some [x] → placeFromLine (placeToLine r d l rd a ++ u!"\n") = .ok ((d : Int), l, rd, some (splitChr c!":" (u!"[" ++ r x ++ u!"]")))) ∧
    (∀ x y xs, a = some (x :: y :: xs) → placeFromLine (placeToLine r d l rd a ++ u!"\n") = .error .valueError) := by
  obtain ⟨ws, w1, w2, w3, w4⟩ := line_words r hr d l rd a h
  have hsplit : splitWs (rstrip (placeToLine r d l rd a ++ u!"\n")) = showNat d :: l :: readingText rd :: ws := by
    rw [splitWs_rstrip, w2]
    unfold splitWs
    rw [splitWsAux_append_spaces _ _ (by decide)]
    exact splitWs_join _ (goodWords d h w1)
  have ns : ∀ {w : Str}, Word w → 0x20 ∉ w := fun h hm => absurd (h.2 _ hm) (by decide)
  unfold placeFromLine
  rw [hsplit]
  refine ⟨fun ha => ?_, fun x ha => ?_, fun x y xs ha => ?_⟩
  · rw [w3 ha]
    simp only [pyInt_showNat, bind_ok, readReading_text rd h.2.1]
    rw [(C90_init l rd none).1.2 ⟨ns h.1, fun x hx => ns (h.2.1 x hx).1, by simp⟩]
    rfl
  · have hw := (w4 x [] ha).2 rfl
    rw [hw]
    simp only [pyInt_showNat, bind_ok, readReading_text rd h.2.1]
    have hword : Word (u!"[" ++ r x ++ u!"]") := w1 _ (by rw [hw]; exact List.mem_singleton_self _)
    rw [(C90_init l rd (some (splitChr c!":" (u!"[" ++ r x ++ u!"]")))).1.2 ⟨ns h.1, fun x hx => ns (h.2.1 x hx).1, fun as has b hb hm => by
      cases has
      exact ns hword (splitChr_mem_sub _ _ b hb _ hm)⟩]
    rfl
  · have hl := (w4 x (y :: xs) ha).1
    match ws, hl with
    | w :: w' :: ws, _ => rfl

mutual
theorem relisted_reads (r : Str → Str) (hr : ReprOk r) (d : Nat) : ∀ (p : Place), p.good →
    (∀ dp ∈ p.preorder d, ∀ as, dp.2.aliases = some as → as.length ≤ 1) → p.readAs r d (Spec.Place.relisted r p)
  | .node l rd a k, hg, ha => by
    obtain ⟨h1, h2, h3⟩ := hg
    have h0 := ha (d, .node l rd a k) (by simp [Place.preorder])
    have hk := relisted_readss r hr (d + 1) k h3 (fun dp hm => ha dp (by simp only [Place.preorder]; exact List.mem_cons_of_mem _ hm))
    obtain ⟨l1, l2, _⟩ := line_again r hr d l rd a h1
    match a, h0 with
    | none, _ => exact ⟨rfl, l1 rfl, h2, hk⟩
    | some [], _ => exact absurd rfl (h1.2.2 [] rfl).1
    | some [x], _ => exact ⟨rfl, l2 x rfl, h2, hk⟩
    | some (x :: y :: xs), h0 => have := h0 _ rfl; simp at this
theorem relisted_readss (r : Str → Str) (hr : ReprOk r) (d : Nat) : ∀ (k : Places), k.good →
    (∀ dp ∈ k.preorder d, ∀ as, dp.2.aliases = some as → as.length ≤ 1) → k.readAs r d (Spec.Places.relisted r k)
  | .nil, _, _ => trivial
  | .cons key p rest, hg, ha => by
    obtain ⟨h1, h2, h3⟩ := hg
    refine ⟨h1, rfl, relisted_reads r hr d p h2 (fun dp hm => ha dp ?_), relisted_readss r hr d rest h3 (fun dp hm => ha dp ?_)⟩
    · simp only [Places.preorder, List.mem_append]; exact Or.inl hm
    · simp only [Places.preorder, List.mem_append]; exact Or.inr hm
end

mutual
theorem depth_ge (d : Nat) : ∀ (p : Place), ∀ dp ∈ p.preorder d, d ≤ dp.1
  | .node l rd a k, dp, hm => by
    simp only [Place.preorder, List.mem_cons] at hm
    rcases hm with rfl | hm
    · exact Nat.le_refl _
    · have := depth_ges (d + 1) k dp hm; omega
theorem depth_ges (d : Nat) : ∀ (k : Places), ∀ dp ∈ k.preorder d, d ≤ dp.1
  | .nil, dp, hm => by simp [Places.preorder] at hm
  | .cons _ p rest, dp, hm => by
    simp only [Places.preorder, List.mem_append] at hm
    rcases hm with hm | hm
    · exact depth_ge d p dp hm
    · exact depth_ges d rest dp hm
end

mutual
/-- In the pre-order no place is more than one level below the one before it. -/
theorem depth_steps (d : Nat) : ∀ (p : Place) (pre post : List (Nat × Place)) (x y : Nat × Place), p.preorder d = pre ++ x :: y :: post → y.1 ≤ x.1 + 1
  | .node l rd a k, pre, post, x, y, h => by
    simp only [Place.preorder] at h
    cases pre with
    | nil =>
      simp only [List.nil_append, List.cons.injEq] at h
      obtain ⟨rfl, h⟩ := h
      have := depth_heads (d + 1) k y post h
      simp only
      omega
    | cons z pre =>
      simp only [List.cons_append, List.cons.injEq] at h
      exact depth_stepss (d + 1) k pre post x y h.2
theorem depth_stepss (d : Nat) : ∀ (k : Places) (pre post : List (Nat × Place)) (x y : Nat × Place), k.preorder d = pre ++ x :: y :: post → y.1 ≤ x.1 + 1
  | .nil, pre, post, x, y, h => by simp [Places.preorder] at h
  | .cons _ p rest, pre, post, x, y, h => by
    simp only [Places.preorder] at h
    rcases List.append_eq_append_iff.1 h with ⟨c, h1, h2⟩ | ⟨c, h1, h2⟩
    · exact depth_stepss d rest c post x y h2
    · cases c with
      | nil =>
        simp only [List.nil_append] at h2
        exact depth_stepss d rest [] post x y h2.symm
      | cons z c =>
        simp only [List.cons_append, List.cons.injEq] at h2
        obtain ⟨rfl, h2⟩ := h2
        cases c with
        | nil =>
          simp only [List.nil_append] at h2
          have hy := depth_heads d rest y post h2.symm
          have hx := depth_ge d p x (by rw [h1]; simp)
          omega
        | cons z c =>
          simp only [List.cons_append, List.cons.injEq] at h2
          obtain ⟨rfl, h2⟩ := h2
          exact depth_steps d p pre c x y h1
theorem depth_heads (d : Nat) : ∀ (k : Places) (y : Nat × Place) (post : List (Nat × Place)), k.preorder d = y :: post → y.1 = d
  | .nil, y, post, h => by simp [Places.preorder] at h
  | .cons _ (.node l rd a k) rest, y, post, h => by
    simp only [Places.preorder, Place.preorder, List.cons_append, List.cons.injEq] at h
    rw [← h.1]
end

mutual
theorem storable_aliases (d : Nat) : ∀ (p : Place), p.storable → ∀ dp ∈ p.preorder d, dp.2.aliases = none
  | .node l rd a k, hs, dp, hm => by
    obtain ⟨_, _, h3, _, h5⟩ := hs
    simp only [Place.preorder, List.mem_cons] at hm
    rcases hm with rfl | hm
    · exact h3
    · exact storable_aliasess (d + 1) k h5 dp hm
theorem storable_aliasess (d : Nat) : ∀ (k : Places), k.storable → ∀ dp ∈ k.preorder d, dp.2.aliases = none
  | .nil, _, dp, hm => by simp [Places.preorder] at hm
  | .cons _ p rest, hs, dp, hm => by
    simp only [Places.preorder, List.mem_append] at hm
    rcases hm with hm | hm
    · exact storable_aliases d p hs.2.1 dp hm
    · exact storable_aliasess d rest hs.2.2 dp hm
end

mutual
theorem storable_of_good (d : Nat) : ∀ (p : Place), p.good → (∀ dp ∈ p.preorder d, dp.2.aliases = none) → p.storable
  | .node l rd a k, hg, ha =>
    ⟨hg.1.1, hg.1.2.1, ha (d, .node l rd a k) (by simp [Place.preorder]), hg.2.1, storable_of_goods (d + 1) k hg.2.2 (fun dp hm => ha dp (by
      simp only [Place.preorder]; exact List.mem_cons_of_mem _ hm))⟩
theorem storable_of_goods (d : Nat) : ∀ (k : Places), k.good → (∀ dp ∈ k.preorder d, dp.2.aliases = none) → k.storable
  | .nil, _, _ => trivial
  | .cons _ p rest, hg, ha =>
    ⟨hg.1, storable_of_good d p hg.2.1 (fun dp hm => ha dp (by simp only [Places.preorder, List.mem_append]; exact Or.inl hm)),
      storable_of_goods d rest hg.2.2 (fun dp hm => ha dp (by simp only [Places.preorder, List.mem_append]; exact Or.inr hm))⟩
end

/-- C183: a file that `from_file` accepts gives one hierarchy.  After `dump`, `from_file` gives the same hierarchy exactly if no place has aliases; if some place has several
aliases it raises `ValueError`; and otherwise the hierarchy is the same except that each alias has become the text of a Python list.  `r` is the `repr` of strings. -/
theorem C183_again (r : Str → Str) (hr : ReprOk r) (text : Str) (st : PStore) (h : placeFromText text = .ok st) :
    ∃ p, Spec.Holds st 0 p ∧ (∀ q, Spec.Holds st 0 q → q = p) ∧
      ((∃ st', placeFromText (placeDumpText r p) = .ok st' ∧ Spec.Holds st' 0 p) ↔ ∀ q ∈ Spec.allPlaces p, q.aliases = none) ∧
      ((∃ q ∈ Spec.allPlaces p, ∃ as, q.aliases = some as ∧ 2 ≤ as.length) → placeFromText (placeDumpText r p) = .error .valueError) ∧
      ((∀ q ∈ Spec.allPlaces p, ∀ as, q.aliases = some as → as.length ≤ 1) →
        ∃ st', placeFromText (placeDumpText r p) = .ok st' ∧ Spec.Holds st' 0 (Spec.Place.relisted r p)) := by
  obtain ⟨p, hp⟩ := loaded_holds _ _ h
  have hg := good_of_holds (storeOk_file h) hp
  have hlines := fileLines_dump r hr p hg
  have hread : (∀ q ∈ Spec.allPlaces p, ∀ as, q.aliases = some as → as.length ≤ 1) →
        ∃ st', placeFromText (placeDumpText r p) = .ok st' ∧ Spec.Holds st' 0 (Spec.Place.relisted r p) := by
    intro ha
    unfold placeFromText
    rw [hlines]
    exact fromFile_readAs r p _ (relisted_reads r hr 0 p hg (fun dp hm => ha dp.2 (List.mem_map_of_mem hm)))
  refine ⟨p, hp, fun q hq => holds_unique hq hp, ?_, ?_, hread⟩
  · rw [C41_exact r hr p]
    constructor
    · intro hs q hq
      obtain ⟨dp, hdp, rfl⟩ := List.mem_map.1 hq
      exact storable_aliases 0 p hs dp hdp
    · intro ha
      exact storable_of_good 0 p hg (fun dp hm => ha dp.2 (List.mem_map_of_mem hm))
  · rintro ⟨q, hq, as, ha, hlen⟩
    obtain ⟨dp, hdp, rfl⟩ := List.mem_map.1 hq
    have hbad : placeFromLine (lineOf r dp) = .error .valueError := by
      have hd := good_details 0 p hg dp hdp
      match as, hlen with
      | x :: y :: xs, _ => exact (line_again r hr dp.1 _ _ _ hd).2.2 x y xs ha
    unfold placeFromText
    rw [hlines, placeDump_eq]
    have hline : ∀ dp ∈ p.preorder 0, ∀ x, placeFromLine (lineOf r dp) = .ok x → x.1 = (dp.1 : Int) := by
      intro dp hm x hx
      have := (line_read r hr dp.1 _ _ _ (good_details 0 p hg dp hm) hx).1
      rw [this]
    rcases C91_cases ((p.preorder 0).map (lineOf r)) with hn | ⟨line, rest, hl, hc⟩ | ⟨rs, h1, _⟩ | ⟨pre, rs, a, bad, rest, e, hl, h1, h2, h3, h4⟩
    · cases p with
      | node l rd a k => simp [Place.preorder] at hn
    · rw [hl]
      cases p with
      | node l rd a k =>
        simp only [Place.preorder, List.map_cons, List.cons.injEq] at hl
        rcases hc with ⟨e, he⟩ | ⟨x, hx, hx0⟩
        · rw [C91_first_line.2.1 _ _ _ he, C91_line_error line e he]
        · rw [← hl.1] at hx
          exact absurd (hline _ (by simp [Place.preorder]) x hx) hx0
    · have hm : placeFromLine (lineOf r dp) ∈ ((p.preorder 0).map (lineOf r)).map placeFromLine :=
        List.mem_map_of_mem (List.mem_map_of_mem hdp)
      rw [h1, hbad] at hm
      obtain ⟨x, _, hx⟩ := List.mem_map.1 hm
      cases hx
    · rw [hl, C91_error pre rs h1 h2 a h3 bad rest e h4]
      rcases h4 with he | ⟨x, hx, hc⟩
      · rw [C91_line_error bad e he]
      · exfalso
        obtain ⟨u, v, huv, hu, hv⟩ := List.map_eq_append_iff.1 hl
        obtain ⟨y, v', rfl, hy, _⟩ := List.map_eq_cons_iff.1 hv
        rw [← hy] at hx
        have hx1 := hline y (by rw [huv]; simp) x hx
        rcases hc with ⟨hc, _⟩ | ⟨hc, _⟩
        · omega
        · -- the line before
          rcases List.eq_nil_or_concat u with hun | ⟨u', z, huz⟩
          · subst hun
            simp only [List.map_nil] at hu
            subst hu
            simp at h1
            subst h1
            simp at h3
          · subst huz
            have hz := depth_steps 0 p u' v' z y (by rw [huv]; simp)
            have hrs : rs.getLast?.map Except.ok = some (placeFromLine (lineOf r z)) := by
              rw [← List.getLast?_map, ← h1, ← hu]
              simp
            cases hrl : rs.getLast? with
            | none => rw [hrl] at hrs; cases hrs
            | some w =>
              rw [hrl] at hrs
              have hzw : placeFromLine (lineOf r z) = .ok w := (Option.some.inj hrs).symm
              have hw1 := hline z (by rw [huv]; simp) w hzw
              rw [List.getLast?_map, hrl] at h3
              have : w.1 = a := Option.some.inj h3
              omega

/-- C183 fails in general: of these two files that can be loaded, the first gives another hierarchy after saving and loading, the second none. -/
theorem C183_refuted : let r : Str → Str := fun s => u!"'" ++ s ++ u!"'"
    let one : Place := .node u!"tokyo" none (some [u!"edo"]) .nil
    let two : Place := .node u!"tokyo" none (some [u!"edo", u!"tokei"]) .nil
    (∃ st, placeFromText u!"0 tokyo None edo\n" = .ok st ∧ Spec.Holds st 0 one) ∧
    (∃ st, placeFromText (placeDumpText r one) = .ok st ∧ Spec.Holds st 0 (.node u!"tokyo" none (some [u!"['edo']"]) .nil)) ∧
    (∃ st, placeFromText u!"0 tokyo None edo:tokei\n" = .ok st ∧ Spec.Holds st 0 two) ∧
    placeFromText (placeDumpText r two) = .error .valueError :=
  ⟨⟨_, rfl, _, rfl, rfl, rfl, rfl, rfl⟩, ⟨[⟨u!"tokyo", none, some [u!"['edo']"], []⟩], by decide +kernel, _, rfl, rfl, rfl, rfl, rfl⟩, ⟨_, rfl, _, rfl, rfl, rfl, rfl, rfl⟩,
    by decide +kernel⟩

/-- Non-vacuity of C183: a file with a label used twice and lines of depth 0 in the middle is accepted. -/
example : (placeFromText u!"0 world None\n1 japan nihon\n2 tokyo None\n0 moon None\n1 base None\n0 japan None").toOption.isSome = true := by decide +kernel

end Cjk
