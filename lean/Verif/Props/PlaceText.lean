import Verif.Model.PlaceText
import Verif.Props.PlaceOutline
/-!
# C41: exactly which hierarchies survive being written and read back
-/

namespace Cjk
open Py

/-! ### What a loaded store looks like -/

/-- Characters none of which is white space. -/
def Spaceless (s : Str) : Prop := ∀ c ∈ s, isSpace c = false

/-- The details of a place that was read from a line. -/
def GoodDetails (label : Str) (reading : Option Str) (aliases : Option (List Str)) : Prop :=
  Word label ∧ (∀ x, reading = some x → Word x ∧ x ≠ u!"None") ∧ ∀ as, aliases = some as → as ≠ [] ∧ ∀ a ∈ as, Spaceless a

theorem splitChr_mem_sub (sep : Chr) (s : Str) : ∀ p ∈ splitChr sep s, ∀ c ∈ p, c ∈ s := by
  induction s with
  | nil => intro p hp c hc; simp [splitChr] at hp; subst hp; exact hc
  | cons x s ih =>
    intro p hp c hc
    by_cases hx : x = sep
    · subst hx
      have := splitChr_append_sep x [] s
      simp only [List.nil_append] at this
      rw [this] at hp
      rcases List.mem_append.1 hp with hp | hp
      · simp [splitChr] at hp; subst hp; cases hc
      · exact List.mem_cons_of_mem _ (ih p hp c hc)
    · obtain ⟨q, qs, h1, h2⟩ := splitChr_cons_ne sep hx s
      rw [h2] at hp
      rcases List.mem_cons.1 hp with rfl | hp
      · rcases List.mem_cons.1 hc with rfl | hc
        · simp
        · exact List.mem_cons_of_mem _ (ih q (by rw [h1]; simp) c hc)
      · exact List.mem_cons_of_mem _ (ih p (by rw [h1]; simp [hp]) c hc)

theorem goodDetails_line {line : Str} {d : Int} {l : Str} {rd : Option Str} {al : Option (List Str)}
    (h : placeFromLine line = .ok (d, l, rd, al)) : GoodDetails l rd al := by
  obtain ⟨depth, rw', _, hr, h | ⟨a, ha, h⟩⟩ := (C91_line line d l rd al).1 h
  · obtain ⟨ha, hw⟩ := h
    have hw := splitWs_of_hasWords hw
    have words := fun w hm => splitWs_words line w hm
    rw [hw] at words
    refine ⟨words l (by simp), ?_, by rw [ha]; simp⟩
    intro x hx
    rw [hr] at hx
    split at hx
    · cases hx
    · rename_i hne
      cases hx
      exact ⟨words _ (by simp), hne⟩
  · have hw := splitWs_of_hasWords h
    have words := fun w hm => splitWs_words line w hm
    rw [hw] at words
    refine ⟨words l (by simp), ?_, ?_⟩
    · intro x hx
      rw [hr] at hx
      split at hx
      · cases hx
      · rename_i hne
        cases hx
        exact ⟨words _ (by simp), hne⟩
    · intro as has
      rw [ha] at has
      cases has
      exact ⟨splitChr_ne_nil _ _, fun p hp c hc => (words a (by simp)).2 c (splitChr_mem_sub _ _ p hp c hc)⟩

/-- Details of all places are good; entries are keyed by the labels of the places they refer to, without repetition. -/
def StoreOk (st : PStore) : Prop := ∀ (i : Nat) (n : PNode), st[i]? = some n → GoodDetails n.label n.reading n.aliases ∧ Dict.WF n.kids ∧
  ∀ e ∈ n.kids, ∃ m : PNode, st[e.2]? = some m ∧ m.label = e.1

theorem storeOk_step {st st' : LoadState} {line : Str} (h : StoreOk st.store) (hs : loadStep st line = .ok st') : StoreOk st'.store := by
  unfold loadStep at hs
  obtain ⟨⟨d, lb, rd, al⟩, e0, hs⟩ := bind_eq_ok.1 hs
  obtain ⟨path, _, hs⟩ := bind_eq_ok.1 hs
  obtain ⟨store, e3, hs⟩ := bind_eq_ok.1 hs
  cases hs
  have good := goodDetails_line e0
  unfold storeAppend at e3
  split at e3
  · cases e3
  · rename_i x _
    cases e3
    have lab : ∀ (j : Nat) (m : PNode), st.store[j]? = some m → ∃ m' : PNode,
        ((st.store ++ [(⟨lb, rd, al, []⟩ : PNode)]).modify x (fun n => { n with kids := Dict.set n.kids lb st.store.length }))[j]? = some m' ∧
          m'.label = m.label := by
      intro j m hj
      have hlt := (List.getElem?_eq_some_iff.1 hj).1
      rw [List.getElem?_modify, List.getElem?_append_left hlt, hj]
      by_cases hx : x = j <;> simp [hx]
    have labNew : ∃ m' : PNode,
        ((st.store ++ [(⟨lb, rd, al, []⟩ : PNode)]).modify x (fun n => { n with kids := Dict.set n.kids lb st.store.length }))[st.store.length]? = some m' ∧
          m'.label = lb := by
      rw [List.getElem?_modify, List.getElem?_append_right (Nat.le_refl _)]
      by_cases hx : x = st.store.length <;> simp [hx]
    intro i n hi
    rw [List.getElem?_modify] at hi
    -- the place as it was before the new entry
    have base : ∀ n0 : PNode, (st.store ++ [(⟨lb, rd, al, []⟩ : PNode)])[i]? = some n0 → GoodDetails n0.label n0.reading n0.aliases ∧ Dict.WF n0.kids ∧
        ∀ e ∈ n0.kids, ∃ m : PNode, st.store[e.2]? = some m ∧ m.label = e.1 := by
      intro n0 h0
      by_cases hlt : i < st.store.length
      · rw [List.getElem?_append_left hlt] at h0
        exact h i n0 h0
      · rw [List.getElem?_append_right (by omega)] at h0
        have : i - st.store.length = 0 := by
          have := (List.getElem?_eq_some_iff.1 h0).1
          simp at this
          omega
        rw [this] at h0
        simp only [List.getElem?_cons_zero, Option.some.injEq] at h0
        subst h0
        exact ⟨good, Dict.WF_nil, by simp⟩
    cases h0 : (st.store ++ [(⟨lb, rd, al, []⟩ : PNode)])[i]? with
    | none => rw [h0] at hi; simp at hi
    | some n0 =>
      obtain ⟨b1, b2, b3⟩ := base n0 h0
      rw [h0] at hi
      simp only [Option.map_eq_map, Option.map_some, Option.some.injEq] at hi
      subst hi
      by_cases hx : x = i
      · simp only [hx, if_true]
        refine ⟨b1, Dict.WF_set b2 _ _, ?_⟩
        intro e he
        have hg := (Dict.get?_eq_some_iff (Dict.WF_set b2 lb st.store.length) e.1 e.2).2 he
        rw [Dict.get?_set] at hg
        split at hg
        · rename_i hk
          simp only [Option.some.injEq] at hg
          obtain ⟨m, hm, hl⟩ := labNew
          subst hx
          exact ⟨m, by rw [← hg]; exact hm, by rw [hl, hk]⟩
        · obtain ⟨m, hm, hl⟩ := b3 (e.1, e.2) (Dict.mem_of_get?_eq_some hg)
          obtain ⟨m', hm', hl'⟩ := lab _ m hm
          subst hx
          exact ⟨m', hm', by rw [hl', hl]⟩
      · simp only [hx, if_false]
        refine ⟨b1, b2, ?_⟩
        intro e he
        obtain ⟨m, hm, hl⟩ := b3 e he
        obtain ⟨m', hm', hl'⟩ := lab _ m hm
        exact ⟨m', hm', by rw [hl', hl]⟩

theorem storeOk_loop (lines : List Str) : ∀ {st st' : LoadState}, StoreOk st.store → loadLoop st lines = .ok st' → StoreOk st'.store := by
  induction lines with
  | nil => intro st st' h hs; cases hs; exact h
  | cons l ls ih =>
    intro st st' h hs
    simp only [loadLoop] at hs
    obtain ⟨st1, e1, e2⟩ := bind_eq_ok.1 hs
    exact ih (storeOk_step h e1) e2

theorem storeOk_file {lines : List Str} {st : PStore} (h : placeFromFile lines = .ok st) : StoreOk st := by
  unfold placeFromFile at h
  split at h
  · cases h
  · rename_i l ls
    obtain ⟨⟨d, lb, rd, al⟩, e0, h⟩ := bind_eq_ok.1 h
    simp only at h
    split at h
    · cases h
    · cases hl : loadLoop ⟨[⟨lb, rd, al, []⟩], [0], 0, 0⟩ ls with
      | error e => rw [hl] at h; cases h
      | ok st1 =>
        rw [hl] at h
        cases h
        refine storeOk_loop ls ?_ hl
        intro i n hi
        cases i with
        | zero =>
          simp only [List.getElem?_cons_zero, Option.some.injEq] at hi
          subst hi
          exact ⟨goodDetails_line e0, Dict.WF_nil, by simp⟩
        | succ i => simp at hi

/-! ### Hierarchies held by such a store -/

mutual
/-- Good details everywhere, entries keyed by label, no key twice. -/
def Place.good : Place → Prop
  | .node l r a k => GoodDetails l r a ∧ (k.items.map Prod.fst).Nodup ∧ k.good
/-- The same for entries. -/
def Places.good : Places → Prop
  | .nil => True
  | .cons key p rest => key = p.label ∧ p.good ∧ rest.good
end

theorem holdsAll_keys {st : PStore} : ∀ {k : Places} {d : Dict Str Nat}, Spec.HoldsAll st d k → k.items.map Prod.fst = Dict.keys d
  | .nil, d, h => by cases h; rfl
  | .cons key p rest, d, h => by
    obtain ⟨ref, d', rfl, _, h⟩ := h
    have := holdsAll_keys h
    simp only [Dict.keys] at this ⊢
    simp only [Places.items, List.map_cons, this]

theorem holds_label {st : PStore} {ref : Nat} {p : Place} {m : PNode} (h : Spec.Holds st ref p) (hm : st[ref]? = some m) : m.label = p.label := by
  obtain ⟨l, r, a, k⟩ := p
  obtain ⟨n, hn, h1, _⟩ := h
  rw [hn] at hm
  cases hm
  exact h1

mutual
theorem good_of_holds {st : PStore} (hs : StoreOk st) : ∀ {p : Place} {ref : Nat}, Spec.Holds st ref p → p.good
  | .node l r a k, ref, h => by
    obtain ⟨n, hn, rfl, rfl, rfl, hk⟩ := h
    obtain ⟨h1, h2, h3⟩ := hs ref n hn
    refine ⟨h1, ?_, good_of_holdsAll hs h3 hk⟩
    rw [holdsAll_keys hk]
    exact h2
theorem good_of_holdsAll {st : PStore} (hs : StoreOk st) : ∀ {k : Places} {d : Dict Str Nat},
    (∀ e ∈ d, ∃ m : PNode, st[e.2]? = some m ∧ m.label = e.1) → Spec.HoldsAll st d k → k.good
  | .nil, _, _, _ => trivial
  | .cons key p rest, d, hd, h => by
    obtain ⟨ref, d', rfl, hp, hr⟩ := h
    obtain ⟨m, hm, hl⟩ := hd (key, ref) (by simp)
    refine ⟨?_, good_of_holds hs hp, good_of_holdsAll hs (fun e he => hd e (by simp [he])) hr⟩
    rw [← holds_label hp hm]
    exact hl.symm
end

mutual
/-- A store holds at most one hierarchy at a reference. -/
theorem holds_unique {st : PStore} : ∀ {p q : Place} {ref : Nat}, Spec.Holds st ref p → Spec.Holds st ref q → p = q
  | .node l r a k, .node l' r' a' k', ref, h, h' => by
    obtain ⟨n, hn, rfl, rfl, rfl, hk⟩ := h
    obtain ⟨n', hn', rfl, rfl, rfl, hk'⟩ := h'
    rw [hn] at hn'
    cases hn'
    rw [holdsAll_unique hk hk']
theorem holdsAll_unique {st : PStore} : ∀ {k k' : Places} {d : Dict Str Nat}, Spec.HoldsAll st d k → Spec.HoldsAll st d k' → k = k'
  | .nil, .nil, _, _, _ => rfl
  | .nil, .cons _ _ _, d, h, h' => by obtain ⟨_, _, e, _⟩ := h'; cases h; cases e
  | .cons _ _ _, .nil, d, h, h' => by obtain ⟨_, _, e, _⟩ := h; cases h'; cases e
  | .cons key p rest, .cons key' p' rest', d, h, h' => by
    obtain ⟨ref, d1, rfl, hp, hr⟩ := h
    obtain ⟨ref', d1', e, hp', hr'⟩ := h'
    cases e
    rw [holds_unique hp hp', holdsAll_unique hr hr']
end

/-! ### Loading the lines of a hierarchy -/

mutual
/-- The lines of `p` are read as the places of `q`. -/
def Place.readAs (r : Str → Str) (d : Nat) : Place → Place → Prop
  | .node l rd a k, .node l' rd' a' k' => l' = l ∧ placeFromLine (placeToLine r d l rd a ++ u!"\n") = .ok ((d : Int), l, rd', a') ∧
      (k.items.map Prod.fst).Nodup ∧ Places.readAs r (d + 1) k k'
/-- The same for entries. -/
def Places.readAs (r : Str → Str) (d : Nat) : Places → Places → Prop
  | .nil, .nil => True
  | .cons key p rest, .cons key' p' rest' => key = p.label ∧ key' = key ∧ Place.readAs r d p p' ∧ Places.readAs r d rest rest'
  | _, _ => False
end

mutual
theorem load_readAs (r : Str → Str) (p q : Place) (st : LoadState) (d : Nat) (hp : p.readAs r d q) (Q : List Nat) (x : Nat)
    (h : LoadAt st d Q) (hQ : Q.getLast? = some x) (nd : PNode) (hx : st.store[x]? = some nd)
    (hfresh : p.label ∉ Dict.keys nd.kids) :
    ∃ st', loadLoop st ((p.preorder d).map (lineOf r)) = .ok st' ∧ LoadAt st' d Q ∧
      st'.store = addKids st.store x [(p.label, st.store.length)] ++ q.enc st.store.length := by
  match p, q with
  | .node l rd0 a0 k0, .node l' rd a k =>
    obtain ⟨rfl, hline, hnd, hk⟩ := hp
    have hxl : x < st.store.length := (List.getElem?_eq_some_iff.1 hx).1
    have hstep : loadStep st (lineOf r (d, .node l' rd0 a0 k0)) =
        .ok ⟨addKids st.store x [(l', st.store.length)] ++ [⟨l', rd, a, []⟩], Q, d, st.store.length⟩ := by
      unfold loadStep lineOf
      simp only [Place.label, Place.reading, Place.aliases]
      rw [hline]
      simp only [bind_ok, loadPath_at h, storeAppend, hQ]
      congr 2
      rw [← addKids_append _ _ _ _ hxl]
      unfold addKids
      apply List.ext_getElem?
      intro i
      rw [List.getElem?_modify, List.getElem?_modify]
      by_cases hi : x = i
      · subst hi
        rw [List.getElem?_append_left hxl, hx]
        have := Dict.set_of_not_mem nd.kids l' st.store.length hfresh
        simp [this]
      · simp [hi]
    let st1 : LoadState := ⟨addKids st.store x [(l', st.store.length)] ++ [⟨l', rd, a, []⟩], Q, d, st.store.length⟩
    have hQl := loadAt_length h
    have h1 : LoadAt st1 (d + 1) (Q ++ [st.store.length]) := ⟨d, rfl, hQl, Or.inl ⟨rfl, rfl⟩⟩
    obtain ⟨st2, e2, h2, s2⟩ := loads_readAs r k0 k st1 (d + 1) hk (Q ++ [st.store.length]) st.store.length h1
      (by simp) ⟨l', rd, a, []⟩ (by
        show (addKids st.store x [(l', st.store.length)] ++ [_])[st.store.length]? = _
        rw [List.getElem?_append_right (by rw [addKids_length]; exact Nat.le_refl _)]; simp [addKids_length]) hnd (by simp [Dict.keys])
    refine ⟨st2, ?_, ?_, ?_⟩
    · simp only [Place.preorder, List.map_cons, loadLoop]
      rw [hstep]
      exact e2
    · obtain ⟨ld, a1, a2, a3⟩ := h2
      refine ⟨ld, a1, a2, Or.inr ?_⟩
      rcases a3 with ⟨b1, b2⟩ | ⟨b1, b2⟩
      · have := List.append_inj_left' b2 rfl
        refine ⟨by omega, ?_⟩
        rw [← this, List.take_of_length_le (by omega)]
      · refine ⟨by omega, ?_⟩
        have := congrArg (List.take (d + 1)) b2
        rw [List.take_take, show min (d + 1) (d + 1 + 1) = d + 1 by omega, List.take_append_of_le_length (by omega),
          List.take_of_length_le (by omega)] at this
        exact this
    · rw [s2]
      show addKids (addKids st.store x [(l', st.store.length)] ++ [⟨l', rd, a, []⟩]) st.store.length _ ++ _ = _
      have el : st1.store.length = st.store.length + 1 := by
        show (addKids st.store x [(l', st.store.length)] ++ [_]).length = _
        simp [addKids_length]
      rw [el]
      have := addKids_concat (addKids st.store x [(l', st.store.length)]) ⟨l', rd, a, []⟩ (k.refs (st.store.length + 1))
      rw [addKids_length] at this
      rw [this]
      simp [Place.enc, Place.label]
theorem loads_readAs (r : Str → Str) (k k' : Places) (st : LoadState) (d : Nat) (hk : k.readAs r d k') (Q : List Nat) (x : Nat)
    (h : LoadAt st d Q) (hQ : Q.getLast? = some x) (nd : PNode) (hx : st.store[x]? = some nd)
    (hnd : (k.items.map Prod.fst).Nodup) (hfresh : ∀ key ∈ k.items.map Prod.fst, key ∉ Dict.keys nd.kids) :
    ∃ st', loadLoop st ((k.preorder d).map (lineOf r)) = .ok st' ∧ LoadAt st' d Q ∧
      st'.store = addKids st.store x (k'.refs st.store.length) ++ k'.enc st.store.length := by
  match k, k' with
  | .nil, .nil => exact ⟨st, rfl, h, by simp [Places.refs, Places.enc, addKids_nil]⟩
  | .nil, .cons _ _ _ => exact hk.elim
  | .cons _ _ _, .nil => exact hk.elim
  | .cons key p rest, .cons key' p' rest' =>
    obtain ⟨hkey, hkey', hp, hrest⟩ := hk
    have hxl : x < st.store.length := (List.getElem?_eq_some_iff.1 hx).1
    simp only [Places.items, List.map_cons, List.nodup_cons] at hnd
    obtain ⟨st1, e1, h1, s1⟩ := load_readAs r p p' st d hp Q x h hQ nd hx (by
      rw [← hkey]; exact hfresh key (by simp [Places.items]))
    have hx1 : st1.store[x]? = some { nd with kids := nd.kids ++ [(p.label, st.store.length)] } := by
      rw [s1, List.getElem?_append_left (by rw [addKids_length]; exact hxl), addKids_get, hx]; rfl
    obtain ⟨st2, e2, h2, s2⟩ := loads_readAs r rest rest' st1 d hrest Q x h1 hQ _ hx1 hnd.2 (by
      intro key2 hk' hm
      simp only [Dict.keys, List.map_append, List.mem_append, List.map_cons, List.map_nil, List.mem_singleton] at hm
      rcases hm with hm | hm
      · exact hfresh key2 (by simp only [Places.items, List.map_cons]; exact List.mem_cons_of_mem _ hk') hm
      · rw [hm, ← hkey] at hk'; exact hnd.1 hk')
    refine ⟨st2, ?_, h2, ?_⟩
    · simp only [Places.preorder, List.map_append]
      rw [loadLoop_append, e1]; exact e2
    · have el : st1.store.length = st.store.length + p'.size := by
        rw [s1]; simp [addKids_length, place_enc_length]
      rw [s2, el, s1, addKids_append _ _ _ _ (by rw [addKids_length]; exact hxl), addKids_add, hkey', hkey]
      simp [Places.refs, Places.enc, List.append_assoc]
end

/-- If the lines of `p` are read as the places of `q`, then loading the dump of `p` gives `q`. -/
theorem fromFile_readAs (r : Str → Str) (p q : Place) (hp : p.readAs r 0 q) :
    ∃ st, placeFromFile (placeDump r p) = .ok st ∧ Spec.Holds st 0 q := by
  rw [placeDump_eq]
  match p, q with
  | .node l rd0 a0 k0, .node l' rd a k =>
    obtain ⟨rfl, hline, hnd, hk⟩ := hp
    have h1 : LoadAt ⟨[⟨l', rd, a, []⟩], [0], 0, 0⟩ 1 [0, 0] := ⟨0, rfl, rfl, Or.inl ⟨rfl, rfl⟩⟩
    obtain ⟨st, e, _, s⟩ := loads_readAs r k0 k ⟨[⟨l', rd, a, []⟩], [0], 0, 0⟩ 1 hk [0, 0] 0 h1 rfl ⟨l', rd, a, []⟩ rfl hnd
      (by simp [Dict.keys])
    refine ⟨st.store, ?_, ?_⟩
    · simp only [Place.preorder, List.map_cons, placeFromFile]
      rw [show lineOf r (0, .node l' rd0 a0 k0) = placeToLine r 0 l' rd0 a0 ++ u!"\n" from rfl, hline]
      simp only [bind_ok]
      rw [if_neg (by simp), e]; rfl
    · have : st.store = [] ++ (Place.node l' rd a k).enc 0 ++ [] := by
        rw [s]
        simp [addKids, Place.enc]
      rw [this]
      exact holds_enc [] [] 0 rfl _

/-! ### The lines of a good hierarchy -/

/-- `repr` of a string without white space: a word, longer than the string by at least the two quotes. -/
def ReprOk (r : Str → Str) : Prop := ∀ s, Spaceless s → Word (r s) ∧ s.length + 2 ≤ (r s).length

theorem line_words (r : Str → Str) (hr : ReprOk r) (d : Nat) (l : Str) (rd : Option Str) (a : Option (List Str)) (h : GoodDetails l rd a) :
    ∃ ws : List Str, (∀ w ∈ ws, Word w) ∧ placeToLine r d l rd a = join [0x20] (showNat d :: l :: readingText rd :: ws) ∧
      (a = none → ws = []) ∧ ∀ x xs, a = some (x :: xs) → ws.length = xs.length + 1 ∧ (xs = [] → ws = [u!"[" ++ r x ++ u!"]"]) := by
  match a with
  | none => exact ⟨[], by simp, by simp [placeToLine, join, List.append_assoc], fun _ => rfl, by simp⟩
  | some [] => exact absurd rfl (h.2.2 [] rfl).1
  | some (x :: xs) =>
    have hsp := (h.2.2 _ rfl).2
    obtain ⟨ws, w1, w2, w3⟩ := listRepr_words (xs.map r) u!"[" (r x) (by decide) (hr x (hsp x (by simp))).1 (by
      intro y hy
      obtain ⟨z, hz, rfl⟩ := List.mem_map.1 hy
      exact (hr z (hsp z (by simp [hz]))).1)
    refine ⟨ws, w2, ?_, by simp, ?_⟩
    · cases ws with
      | nil => simp at w1
      | cons w ws =>
        rw [join_cons_cons, join_cons_cons, join_cons_cons, ← w3]
        simp [placeToLine, listRepr, List.append_assoc]
    · intro y ys he
      cases he
      refine ⟨by simpa using w1, ?_⟩
      rintro rfl
      simp only [List.map_nil, List.length_nil, Nat.zero_add] at w1
      match ws, w1 with
      | [w], _ =>
        simp only [List.map_nil, join] at w3
        rw [← w3]

theorem goodWords (d : Nat) {l : Str} {rd : Option Str} {a : Option (List Str)} (h : GoodDetails l rd a) {ws : List Str} (hw : ∀ w ∈ ws, Word w) :
    ∀ w ∈ showNat d :: l :: readingText rd :: ws, Word w := by
  intro w hm
  simp only [List.mem_cons] at hm
  rcases hm with rfl | rfl | rfl | hm
  · exact word_showNat d
  · exact h.1
  · exact word_readingText rd h.2.1
  · exact hw w hm

/-- A line of a good hierarchy contains no line ending. -/
theorem line_noEol (r : Str → Str) (hr : ReprOk r) (d : Nat) (l : Str) (rd : Option Str) (a : Option (List Str)) (h : GoodDetails l rd a) :
    NoEol (placeToLine r d l rd a) := by
  obtain ⟨ws, w1, w2, _⟩ := line_words r hr d l rd a h
  have hw := goodWords d h w1
  rw [w2]
  generalize showNat d :: l :: readingText rd :: ws = vs at hw
  have key : ∀ c, c ∈ join [0x20] vs → c = 0x20 ∨ isSpace c = false := by
    induction vs with
    | nil => simp [join]
    | cons v vs ih =>
      intro c hc
      cases vs with
      | nil =>
        simp only [join] at hc
        exact Or.inr ((hw v (by simp)).2 c hc)
      | cons v' vs =>
        rw [join_cons_cons] at hc
        simp only [List.mem_append, List.mem_singleton] at hc
        rcases hc with (hc | hc) | hc
        · exact Or.inr ((hw v (by simp)).2 c hc)
        · exact Or.inl hc
        · exact ih (fun w hm => hw w (List.mem_cons_of_mem _ hm)) c hc
  constructor
  · intro hc
    rcases key _ hc with h | h
    · cases h
    · revert h; decide
  · intro hc
    rcases key _ hc with h | h
    · cases h
    · revert h; decide

/-- What reading such a line gives, if it can be read at all. -/
theorem line_read (r : Str → Str) (hr : ReprOk r) (d : Nat) (l : Str) (rd : Option Str) (a : Option (List Str)) (h : GoodDetails l rd a)
    {x : Int × Str × Option Str × Option (List Str)} (hx : placeFromLine (placeToLine r d l rd a ++ u!"\n") = .ok x) :
    x = ((d : Int), l, rd, x.2.2.2) ∧ (x.2.2.2 = a → a = none) := by
  obtain ⟨ws, w1, w2, w3, w4⟩ := line_words r hr d l rd a h
  have hsplit : splitWs (rstrip (placeToLine r d l rd a ++ u!"\n")) = showNat d :: l :: readingText rd :: ws := by
    rw [splitWs_rstrip, w2]
    unfold splitWs
    rw [splitWsAux_append_spaces _ _ (by decide)]
    exact splitWs_join _ (goodWords d h w1)
  unfold placeFromLine at hx
  rw [hsplit] at hx
  cases ws with
  | nil =>
    simp only [pyInt_showNat, bind_ok, readReading_text rd h.2.1] at hx
    obtain ⟨_, _, hx⟩ := bind_eq_ok.1 hx
    cases hx
    exact ⟨rfl, fun h => h.symm⟩
  | cons w ws =>
    cases ws with
    | cons w' ws => cases hx
    | nil =>
      simp only [pyInt_showNat, bind_ok, readReading_text rd h.2.1] at hx
      obtain ⟨_, _, hx⟩ := bind_eq_ok.1 hx
      cases hx
      refine ⟨rfl, ?_⟩
      intro ha
      exfalso
      match a with
      | none => cases ha
      | some [] => exact (h.2.2 [] rfl).1 rfl
      | some (x :: xs) =>
        obtain ⟨l1, l2⟩ := w4 x xs rfl
        have hxs : xs = [] := by simpa using l1
        subst hxs
        have hw := l2 rfl
        simp only [List.cons.injEq, and_true] at hw
        simp only [Option.some.injEq] at ha
        have hj := join_splitChr c!":" w
        rw [ha] at hj
        simp only [join] at hj
        have h1 := (hr x ((h.2.2 _ rfl).2 x (by simp))).2
        have h2 := congrArg List.length (hj.trans hw)
        simp at h2
        omega

mutual
theorem readAs_of_good (r : Str → Str) (hr : ReprOk r) (d : Nat) : ∀ (p : Place), p.good →
    (∀ line ∈ (p.preorder d).map (lineOf r), ∃ x, placeFromLine line = .ok x) → ∃ q, p.readAs r d q
  | .node l rd a k, hg, hl => by
    obtain ⟨h1, h2, h3⟩ := hg
    obtain ⟨x, hx⟩ := hl (lineOf r (d, .node l rd a k)) (by simp [Place.preorder])
    obtain ⟨q, hq⟩ := readAs_of_goods r hr (d + 1) k h3 (fun line hm => hl line (by
      simp only [Place.preorder, List.map_cons]
      exact List.mem_cons_of_mem _ hm))
    have hx' := (line_read r hr d l rd a h1 hx).1
    refine ⟨.node l rd x.2.2.2 q, rfl, ?_, h2, hq⟩
    rw [← hx']
    exact hx
theorem readAs_of_goods (r : Str → Str) (hr : ReprOk r) (d : Nat) : ∀ (k : Places), k.good →
    (∀ line ∈ (k.preorder d).map (lineOf r), ∃ x, placeFromLine line = .ok x) → ∃ k', k.readAs r d k'
  | .nil, _, _ => ⟨.nil, trivial⟩
  | .cons key p rest, hg, hl => by
    obtain ⟨h1, h2, h3⟩ := hg
    obtain ⟨q, hq⟩ := readAs_of_good r hr d p h2 (fun line hm => hl line (by
      simp only [Places.preorder, List.map_append, List.mem_append]; exact Or.inl hm))
    obtain ⟨q', hq'⟩ := readAs_of_goods r hr d rest h3 (fun line hm => hl line (by
      simp only [Places.preorder, List.map_append, List.mem_append]; exact Or.inr hm))
    exact ⟨.cons key q q', h1, rfl, hq, hq'⟩
end

mutual
/-- A good hierarchy that is read as itself has no aliases. -/
theorem storable_of_readAs (r : Str → Str) (hr : ReprOk r) (d : Nat) : ∀ (p : Place), p.good → p.readAs r d p → p.storable
  | .node l rd a k, hg, h => by
    obtain ⟨h1, h2, h3⟩ := hg
    obtain ⟨_, hline, _, hk⟩ := h
    exact ⟨h1.1, h1.2.1, (line_read r hr d l rd a h1 hline).2 rfl, h2, storables_of_readAs r hr (d + 1) k h3 hk⟩
theorem storables_of_readAs (r : Str → Str) (hr : ReprOk r) (d : Nat) : ∀ (k : Places), k.good → k.readAs r d k → k.storable
  | .nil, _, _ => trivial
  | .cons _ p rest, hg, h =>
    ⟨hg.1, storable_of_readAs r hr d p hg.2.1 h.2.2.1, storables_of_readAs r hr d rest hg.2.2 h.2.2.2⟩
end

mutual
theorem good_of_storable : ∀ (p : Place), p.storable → p.good
  | .node l rd a k, ⟨h1, h2, h3, h4, h5⟩ => ⟨⟨h1, h2, by rw [h3]; simp⟩, h4, goods_of_storable k h5⟩
theorem goods_of_storable : ∀ (k : Places), k.storable → k.good
  | .nil, _ => trivial
  | .cons _ p rest, ⟨h1, h2, h3⟩ => ⟨h1, good_of_storable p h2, goods_of_storable rest h3⟩
end

mutual
theorem good_details (d : Nat) : ∀ (p : Place), p.good → ∀ dp ∈ p.preorder d, GoodDetails dp.2.label dp.2.reading dp.2.aliases
  | .node l rd a k, hg, dp, hm => by
    simp only [Place.preorder, List.mem_cons] at hm
    rcases hm with rfl | hm
    · exact hg.1
    · exact goods_details (d + 1) k hg.2.2 dp hm
theorem goods_details (d : Nat) : ∀ (k : Places), k.good → ∀ dp ∈ k.preorder d, GoodDetails dp.2.label dp.2.reading dp.2.aliases
  | .nil, _, dp, hm => by simp [Places.preorder] at hm
  | .cons _ p rest, hg, dp, hm => by
    simp only [Places.preorder, List.mem_append] at hm
    rcases hm with hm | hm
    · exact good_details d p hg.2.1 dp hm
    · exact goods_details d rest hg.2.2 dp hm
end

/-- The lines of the file written for a good hierarchy are the lines written. -/
theorem fileLines_dump (r : Str → Str) (hr : ReprOk r) (p : Place) (hg : p.good) : fileLines (placeDumpText r p) = placeDump r p := by
  unfold placeDumpText
  rw [placeDump_eq]
  have := fileLines_nl ((p.preorder 0).map (fun dp => placeToLine r dp.1 dp.2.label dp.2.reading dp.2.aliases)) (by
    intro l hl
    obtain ⟨dp, hdp, rfl⟩ := List.mem_map.1 hl
    exact line_noEol r hr _ _ _ _ (good_details 0 p hg dp hdp))
  rw [List.flatMap_map, List.map_map] at this
  rw [← List.flatMap_def]
  exact this

theorem loadLoop_lines_ok (lines : List Str) : ∀ {st st' : LoadState}, loadLoop st lines = .ok st' →
    ∀ line ∈ lines, ∃ x, placeFromLine line = .ok x := by
  induction lines with
  | nil => intro st st' _ line hm; cases hm
  | cons l ls ih =>
    intro st st' h line hm
    simp only [loadLoop] at h
    obtain ⟨st1, e1, e2⟩ := bind_eq_ok.1 h
    rcases List.mem_cons.1 hm with rfl | hm
    · unfold loadStep at e1
      obtain ⟨x, e, _⟩ := bind_eq_ok.1 e1
      exact ⟨x, e⟩
    · exact ih e2 line hm

theorem fromFile_lines_ok {lines : List Str} {st : PStore} (h : placeFromFile lines = .ok st) :
    ∀ line ∈ lines, ∃ x, placeFromLine line = .ok x := by
  unfold placeFromFile at h
  split at h
  · cases h
  · rename_i l ls
    obtain ⟨⟨d, lb, rd, al⟩, e0, h⟩ := bind_eq_ok.1 h
    simp only at h
    split at h
    · cases h
    · cases hl : loadLoop ⟨[⟨lb, rd, al, []⟩], [0], 0, 0⟩ ls with
      | error e => rw [hl] at h; cases h
      | ok st1 =>
        intro line hm
        rcases List.mem_cons.1 hm with rfl | hm
        · exact ⟨_, e0⟩
        · exact loadLoop_lines_ok ls hl line hm

/-- C41, exactly: a hierarchy is read back from the text of the file written by `dump` if and only if, throughout, labels and readings are not
empty and without white space, no reading is the text `None`, there are no aliases, and entries are keyed by label.  `r` is the `repr` of strings. -/
theorem C41_exact (r : Str → Str) (hr : ReprOk r) (p : Place) :
    (∃ st, placeFromText (placeDumpText r p) = .ok st ∧ Spec.Holds st 0 p) ↔ p.storable := by
  unfold placeFromText
  constructor
  · rintro ⟨st, h1, h2⟩
    have hg := good_of_holds (storeOk_file h1) h2
    rw [fileLines_dump r hr p hg] at h1
    obtain ⟨q, hq⟩ := readAs_of_good r hr 0 p hg (by
      rw [← placeDump_eq]
      exact fromFile_lines_ok h1)
    obtain ⟨st', h3, h4⟩ := fromFile_readAs r p q hq
    rw [h1] at h3
    cases h3
    have := holds_unique h2 h4
    subst this
    exact storable_of_readAs r hr 0 p hg hq
  · intro hp
    rw [fileLines_dump r hr p (good_of_storable p hp)]
    exact C41_roundtrip_partial r p hp

/-- The assumption about `repr` can be met: quotes around the text, as in Python for printable text without quotes and backslashes. -/
example : ReprOk (fun s => u!"'" ++ s ++ u!"'") := by
  intro s hs
  refine ⟨⟨by simp, ?_⟩, by simp⟩
  intro c hc
  simp only [List.mem_append, List.mem_singleton] at hc
  rcases hc with (rfl | hc) | rfl
  · decide
  · exact hs c hc
  · decide

end Cjk
