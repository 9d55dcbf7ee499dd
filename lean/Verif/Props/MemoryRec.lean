import Verif.Spec.MemoryRec
import Verif.Props.SmartCache
/-!
# A memory cache around a method that calls itself (C116)
-/

namespace Cjk
open Py

section
variable {O : PyObjects} {method : CallArgs O → RecProg O}

/-! ### The recursion without a cache, with a bound on the depth -/

/-- A body without a cache. -/
def RecProg.plain (ev : CallArgs O → Option (Except PyErr O.Obj)) : RecProg O → Option (Except PyErr O.Obj)
  | .ret r => some r
  | .call k next =>
    match ev k with
    | none => none
    | some r => (next r).plain ev

/-- A call without a cache. -/
def plainRec (method : CallArgs O → RecProg O) : Nat → CallArgs O → Option (Except PyErr O.Obj)
  | 0, _ => none
  | n + 1, k => if k.keyHashable then (method k).plain (plainRec method n) else some (.error .typeError)

theorem plain_mono {ev ev' : CallArgs O → Option (Except PyErr O.Obj)} (h : ∀ k r, ev k = some r → ev' k = some r) (b : RecProg O) :
    ∀ r, b.plain ev = some r → b.plain ev' = some r := by
  induction b with
  | ret r => intro r' hr; exact hr
  | call k next ih =>
    intro r' hr
    simp only [RecProg.plain] at hr ⊢
    cases hk : ev k with
    | none => rw [hk] at hr; cases hr
    | some r =>
      rw [hk] at hr
      rw [h k r hk]
      exact ih r r' hr

theorem plainRec_step (n : Nat) : ∀ (k : CallArgs O) r, plainRec method n k = some r → plainRec method (n + 1) k = some r := by
  induction n with
  | zero => intro k r h; cases h
  | succ n ih =>
    intro k r h
    rw [plainRec] at h ⊢
    split
    · rename_i hk
      rw [if_pos hk] at h
      exact plain_mono ih (method k) r h
    · rename_i hk
      rw [if_neg hk] at h
      exact h

theorem plainRec_mono {n m : Nat} (hnm : n ≤ m) (k : CallArgs O) (r) (h : plainRec method n k = some r) : plainRec method m k = some r := by
  induction m with
  | zero => rw [Nat.le_zero.1 hnm] at h; exact h
  | succ m ih =>
    rcases Nat.lt_or_ge n (m + 1) with hlt | hge
    · exact plainRec_step m k r (ih (by omega))
    · rw [show m + 1 = n by omega]; exact h

theorem plain_le {n m : Nat} (hnm : n ≤ m) (b : RecProg O) (r) (h : b.plain (plainRec method n) = some r) : b.plain (plainRec method m) = some r :=
  plain_mono (fun k r hk => plainRec_mono hnm k r hk) b r h

theorem gives_of_plain (n : Nat) : ∀ (k : CallArgs O) r, plainRec method n k = some r → Spec.Gives method k r := by
  induction n with
  | zero => intro k r h; cases h
  | succ n ih =>
    intro k r h
    rw [plainRec] at h
    split at h
    · rename_i hk
      refine .body k r ((keyHashable_iff k).1 hk) ?_
      have go : ∀ (b : RecProg O) r, b.plain (plainRec method n) = some r → Spec.RecEnds method b r := by
        intro b
        induction b with
        | ret r => intro r' hr; cases hr; exact .ret r
        | call k next ihb =>
          intro r' hr
          simp only [RecProg.plain] at hr
          cases hk : plainRec method n k with
          | none => rw [hk] at hr; cases hr
          | some r =>
            rw [hk] at hr
            exact .call k next r r' (ih k r hk) (ihb r r' hr)
      exact go _ r h
    · rename_i hk
      cases h
      exact .unhashable k (fun hh => hk ((keyHashable_iff k).2 hh))

theorem plain_of_gives {k : CallArgs O} {r} (h : Spec.Gives method k r) : ∃ n, plainRec method n k = some r := by
  refine Spec.Gives.rec (motive_1 := fun k r _ => ∃ n, plainRec method n k = some r)
    (motive_2 := fun b r _ => ∃ n, b.plain (plainRec method n) = some r) ?_ ?_ ?_ ?_ h
  · rintro k r hk _ ⟨n, hn⟩
    exact ⟨n + 1, by rw [plainRec, if_pos ((keyHashable_iff k).2 hk)]; exact hn⟩
  · intro k hk
    exact ⟨1, by rw [plainRec, if_neg (fun hh => hk ((keyHashable_iff k).1 hh))]⟩
  · intro r
    exact ⟨0, rfl⟩
  · rintro k next r r' _ _ ⟨n, hn⟩ ⟨m, hm⟩
    refine ⟨max n m, ?_⟩
    simp only [RecProg.plain]
    rw [plainRec_mono (Nat.le_max_left n m) k r hn]
    exact plain_le (Nat.le_max_right n m) _ _ hm

theorem gives_unique {k : CallArgs O} {r r'} (h : Spec.Gives method k r) (h' : Spec.Gives method k r') : r = r' := by
  obtain ⟨n, hn⟩ := plain_of_gives h
  obtain ⟨m, hm⟩ := plain_of_gives h'
  have h1 := plainRec_mono (Nat.le_max_left n m) k r hn
  have h2 := plainRec_mono (Nat.le_max_right n m) k r' hm
  rw [h1] at h2
  cases h2; rfl

/-! ### The cache -/

/-- The cache holds only what calls give. -/
def Sound (method : CallArgs O → RecProg O) (memo : Memo O) : Prop := ∀ k v, memoGet memo k = some v → Spec.Hashable k → Spec.Gives method k (.ok v)

theorem memoGet_memoSet (hO : Spec.EqLaws O) (k : CallArgs O) (v : O.Obj) (memo : Memo O) (k' : CallArgs O) :
    memoGet (memoSet k v memo) k' = if k.keyEq k' then some v else memoGet memo k' := by
  induction memo with
  | nil =>
    unfold memoSet memoGet
    cases h : k.keyEq k' <;> simp [List.find?, h]
  | cons e memo ih =>
    obtain ⟨k0, v0⟩ := e
    unfold memoSet
    cases h0 : k0.keyEq k with
    | true =>
      simp only [if_true]
      unfold memoGet
      simp only [List.find?]
      cases h1 : k0.keyEq k' with
      | true =>
        have : k.keyEq k' = true := keyEq_trans hO (keyEq_symm hO h0) h1
        simp [this]
      | false =>
        have : k.keyEq k' = false := by
          cases h2 : k.keyEq k' with
          | false => rfl
          | true => rw [keyEq_trans hO h0 h2] at h1; cases h1
        simp [this]
    | false =>
      simp only [Bool.false_eq_true, if_false]
      unfold memoGet at ih ⊢
      simp only [List.find?]
      cases h1 : k0.keyEq k' with
      | true =>
        have : k.keyEq k' = false := by
          cases h2 : k.keyEq k' with
          | false => rfl
          | true => rw [keyEq_trans hO h1 (keyEq_symm hO h2)] at h0; cases h0
        simp [this]
      | false => exact ih

/-- Equal hashable calls give the same. -/
def Alike (method : CallArgs O → RecProg O) : Prop :=
  ∀ k k' r, Spec.SameCall k k' → Spec.Hashable k → Spec.Hashable k' → Spec.Gives method k r → Spec.Gives method k' r

theorem sound_set (hO : Spec.EqLaws O) (ha : Alike method) {memo : Memo O} (h : Sound method memo) {k : CallArgs O} {v : O.Obj} (hk : Spec.Hashable k)
    (hg : Spec.Gives method k (.ok v)) : Sound method (memoSet k v memo) := by
  intro k' v' hv hk'
  rw [memoGet_memoSet hO] at hv
  split at hv
  · rename_i e
    cases hv
    exact ha k k' _ ((keyEq_iff k k').1 e) hk hk' hg
  · exact h k' v' hv hk'

/-- A call through the proxy gives what the method gives. -/
theorem proxy_gives (hO : Spec.EqLaws O) (ha : Alike method) (n : Nat) :
    ∀ (k : CallArgs O) memo r memo' l, Sound method memo → proxyRec method n k memo = some (r, memo', l) → Spec.Gives method k r ∧ Sound method memo' := by
  induction n with
  | zero => intro k memo r memo' l _ h; cases h
  | succ n ih =>
    have go : ∀ (b : RecProg O) memo r memo' l, Sound method memo → b.run (proxyRec method n) memo = some (r, memo', l) →
        Spec.RecEnds method b r ∧ Sound method memo' := by
      intro b
      induction b with
      | ret r => intro memo r' memo' l hs h; cases h; exact ⟨.ret r, hs⟩
      | call k next ihb =>
        intro memo r' memo' l hs h
        simp only [RecProg.run] at h
        cases hk : proxyRec method n k memo with
        | none => rw [hk] at h; cases h
        | some x =>
          obtain ⟨r, m1, l1⟩ := x
          rw [hk] at h
          dsimp only at h
          cases hb : (next r).run (proxyRec method n) m1 with
          | none => rw [hb] at h; cases h
          | some y =>
            obtain ⟨r2, m2, l2⟩ := y
            rw [hb] at h
            cases h
            obtain ⟨g1, s1⟩ := ih k memo r m1 l1 hs hk
            obtain ⟨g2, s2⟩ := ihb r m1 _ _ _ s1 hb
            exact ⟨.call k next r _ g1 g2, s2⟩
    intro k memo r memo' l hs h
    rw [proxyRec] at h
    split at h
    · rename_i hk
      have hk := (keyHashable_iff k).1 hk
      split at h
      · rename_i v hv
        cases h
        exact ⟨hs k v hv hk, hs⟩
      · split at h
        · cases h
        · rename_i v m1 l1 hb
          cases h
          obtain ⟨g, s⟩ := go _ _ _ _ _ hs hb
          have g' := Spec.Gives.body k _ hk g
          exact ⟨g', sound_set hO ha s hk g'⟩
        · rename_i e m1 l1 hb
          cases h
          obtain ⟨g, s⟩ := go _ _ _ _ _ hs hb
          exact ⟨.body k _ hk g, s⟩
    · rename_i hk
      cases h
      exact ⟨.unhashable k (fun hh => hk ((keyHashable_iff k).2 hh)), hs⟩

/-- If the recursion ends without the cache, it ends with it, at the same depth. -/
theorem proxy_ends (hO : Spec.EqLaws O) (ha : Alike method) (n : Nat) :
    ∀ (k : CallArgs O) memo r, Sound method memo → plainRec method n k = some r → ∃ memo' l, proxyRec method n k memo = some (r, memo', l) := by
  induction n with
  | zero => intro k memo r _ h; cases h
  | succ n ih =>
    have go : ∀ (b : RecProg O) memo r, Sound method memo → b.plain (plainRec method n) = some r →
        ∃ memo' l, b.run (proxyRec method n) memo = some (r, memo', l) := by
      intro b
      induction b with
      | ret r => intro memo r' hs h; cases h; exact ⟨memo, [], rfl⟩
      | call k next ihb =>
        intro memo r' hs h
        simp only [RecProg.plain] at h
        cases hk : plainRec method n k with
        | none => rw [hk] at h; cases h
        | some r =>
          rw [hk] at h
          obtain ⟨m1, l1, h1⟩ := ih k memo r hs hk
          obtain ⟨m2, l2, h2⟩ := ihb r m1 r' (proxy_gives hO ha n k memo r m1 l1 hs h1).2 h
          exact ⟨m2, l1 ++ l2, by simp only [RecProg.run, h1, h2]⟩
    intro k memo r hs h
    have hg := gives_of_plain _ k r h
    rw [plainRec] at h
    split at h
    · rename_i hk
      cases hv : memoGet memo k with
      | some v =>
        have : r = .ok v := gives_unique hg (hs k v hv ((keyHashable_iff k).1 hk))
        subst this
        exact ⟨memo, [], by rw [proxyRec, if_pos hk, hv]⟩
      | none =>
        obtain ⟨m1, l1, h1⟩ := go _ memo r hs h
        cases r with
        | ok v => exact ⟨memoSet k v m1, k :: l1, by rw [proxyRec, if_pos hk, hv]; simp only [h1]⟩
        | error e => exact ⟨m1, k :: l1, by rw [proxyRec, if_pos hk, hv]; simp only [h1]⟩
    · rename_i hk
      cases h
      exact ⟨memo, [], by rw [proxyRec, if_neg hk]⟩

theorem calls_sound (hO : Spec.EqLaws O) (ha : Alike method) {hist memo log} (h : Spec.RecCalls method hist memo log) : Sound method memo := by
  induction h with
  | none => intro k v h; cases h
  | more hist memo memo' log l n k r _ h ih => exact (proxy_gives hO ha n k memo r memo' l ih h).2

/-- C116: after any history of calls, a call of a method that calls itself through `memory_proxy` ends with an outcome if and only if it ends with this
outcome without the cache. -/
theorem C116_same_outcome (hO : Spec.EqLaws O)
    (ha : ∀ k k' r, Spec.SameCall k k' → Spec.Hashable k → Spec.Hashable k' → Spec.Gives method k r → Spec.Gives method k' r)
    {hist memo log} (h : Spec.RecCalls method hist memo log) (k : CallArgs O) (r : Except PyErr O.Obj) :
    (∃ n memo' l, proxyRec method n k memo = some (r, memo', l)) ↔ Spec.Gives method k r := by
  constructor
  · rintro ⟨n, memo', l, hn⟩
    exact (proxy_gives hO ha n k memo r memo' l (calls_sound hO ha h) hn).1
  · intro hg
    obtain ⟨n, hn⟩ := plain_of_gives hg
    obtain ⟨memo', l, h1⟩ := proxy_ends hO ha n k memo r (calls_sound hO ha h) hn
    exact ⟨n, memo', l, h1⟩

/-- So all outcomes of the history are those of the method. -/
theorem C116_history (hO : Spec.EqLaws O)
    (ha : ∀ k k' r, Spec.SameCall k k' → Spec.Hashable k → Spec.Hashable k' → Spec.Gives method k r → Spec.Gives method k' r)
    {hist memo log} (h : Spec.RecCalls method hist memo log) : ∀ e ∈ hist, Spec.Gives method e.1 e.2 := by
  induction h with
  | none => intro e he; cases he
  | more hist memo memo' log l n k r hc h ih =>
    intro e he
    rcases List.mem_append.1 he with he | he
    · exact ih e he
    · rw [List.mem_singleton.1 he]
      exact (proxy_gives hO ha n k memo r memo' l (calls_sound hO ha hc) h).1

/-! ### The method runs once for each call that succeeds -/

/-- Equal hashable calls are the same program. -/
def Uniform (method : CallArgs O → RecProg O) : Prop := ∀ k k', Spec.SameCall k k' → Spec.Hashable k → Spec.Hashable k' → method k = method k'

theorem Uniform.plain (hu : Uniform method) {k k' : CallArgs O} (h : Spec.SameCall k k') (h1 : Spec.Hashable k) (h2 : Spec.Hashable k') (n : Nat) :
    plainRec method n k = plainRec method n k' := by
  cases n with
  | zero => rfl
  | succ n => rw [plainRec, plainRec, if_pos ((keyHashable_iff k).2 h1), if_pos ((keyHashable_iff k').2 h2), hu k k' h h1 h2]

theorem Uniform.alike (hu : Uniform method) : Alike method := by
  intro k k' r h h1 h2 hg
  obtain ⟨n, hn⟩ := plain_of_gives hg
  rw [hu.plain h h1 h2] at hn
  exact gives_of_plain n k' r hn

/-- What a stretch of running does to cache and log. -/
structure Stretch (method : CallArgs O → RecProg O) (n : Nat) (memo memo' : Memo O) (l : List (CallArgs O)) : Prop where
  kept : ∀ k, memoGet memo k ≠ none → memoGet memo' k ≠ none
  fresh : ∀ k ∈ l, memoGet memo k = none
  hashable : ∀ k ∈ l, Spec.Hashable k
  depth : ∀ k ∈ l, ∃ r, plainRec method n k = some r
  stored : ∀ k ∈ l, ∀ v, Spec.Gives method k (.ok v) → memoGet memo' k ≠ none
  once : l.Pairwise (fun k k' => Spec.SameCall k k' → ∃ e, Spec.Gives method k (.error e))

theorem Stretch.nil (n : Nat) (memo : Memo O) : Stretch method n memo memo [] :=
  ⟨fun _ h => h, by simp, by simp, by simp, by simp, .nil⟩

theorem Stretch.append (hO : Spec.EqLaws O) {n : Nat} {m0 m1 m2 : Memo O} {l l' : List (CallArgs O)} (h : Stretch method n m0 m1 l)
    (h' : Stretch method n m1 m2 l') : Stretch method n m0 m2 (l ++ l') := by
  refine ⟨fun k hk => h'.kept k (h.kept k hk), ?_, ?_, ?_, ?_, ?_⟩
  · intro k hk
    rcases List.mem_append.1 hk with hk | hk
    · exact h.fresh k hk
    · have := h'.fresh k hk
      cases h0 : memoGet m0 k with
      | none => rfl
      | some v => exact absurd this (h.kept k (by rw [h0]; simp))
  · intro k hk
    rcases List.mem_append.1 hk with hk | hk
    · exact h.hashable k hk
    · exact h'.hashable k hk
  · intro k hk
    rcases List.mem_append.1 hk with hk | hk
    · exact h.depth k hk
    · exact h'.depth k hk
  · intro k hk v hv
    rcases List.mem_append.1 hk with hk | hk
    · exact h'.kept k (h.stored k hk v hv)
    · exact h'.stored k hk v hv
  · refine List.pairwise_append.2 ⟨h.once, h'.once, ?_⟩
    intro k hk k' hk' hsame
    obtain ⟨r, hr⟩ := h.depth k hk
    have hg := gives_of_plain n k r hr
    cases r with
    | error e => exact ⟨e, hg⟩
    | ok v =>
      have h1 := h.stored k hk v hg
      rw [memoGet_congr hO m1 ((keyEq_iff k k').2 hsame)] at h1
      exact absurd (h'.fresh k' hk') h1

theorem Stretch.mono {n m : Nat} (hnm : n ≤ m) {m0 m1 : Memo O} {l : List (CallArgs O)} (h : Stretch method n m0 m1 l) : Stretch method m m0 m1 l :=
  ⟨h.kept, h.fresh, h.hashable, fun k hk => let ⟨r, hr⟩ := h.depth k hk; ⟨r, plainRec_mono hnm k r hr⟩, h.stored, h.once⟩

theorem proxy_stretch (hO : Spec.EqLaws O) (hu : Uniform method) (n : Nat) :
    ∀ (k : CallArgs O) memo r r' memo' l m, Sound method memo → plainRec method n k = some r → proxyRec method m k memo = some (r', memo', l) →
      Stretch method n memo memo' l := by
  induction n with
  | zero => intro k memo r r' memo' l m _ h; cases h
  | succ n ih =>
    have go : ∀ (b : RecProg O) memo r r' memo' l m, Sound method memo → b.plain (plainRec method n) = some r →
        b.run (proxyRec method m) memo = some (r', memo', l) → Stretch method n memo memo' l := by
      intro b
      induction b with
      | ret r => intro memo r1 r2 memo' l m hs h1 h2; cases h2; exact .nil n memo
      | call k next ihb =>
        intro memo r1 r2 memo' l m hs h1 h2
        simp only [RecProg.plain] at h1
        simp only [RecProg.run] at h2
        cases hp : plainRec method n k with
        | none => rw [hp] at h1; cases h1
        | some r =>
          rw [hp] at h1
          cases hk : proxyRec method m k memo with
          | none => rw [hk] at h2; cases h2
          | some x =>
            obtain ⟨r', m1, l1⟩ := x
            rw [hk] at h2
            dsimp only at h2
            cases hb : (next r').run (proxyRec method m) m1 with
            | none => rw [hb] at h2; cases h2
            | some y =>
              obtain ⟨r3, m2, l2⟩ := y
              rw [hb] at h2
              cases h2
              obtain ⟨g1, s1⟩ := proxy_gives hO hu.alike m k memo r' m1 l1 hs hk
              have e : r = r' := gives_unique (gives_of_plain n k r hp) g1
              subst e
              exact (ih k memo r r m1 l1 m hs hp hk).append hO (ihb r m1 r1 _ _ _ m s1 h1 hb)
    intro k memo r r' memo' l m hs hp hk
    cases hq : plainRec method n k with
    | some r0 => exact (ih k memo r0 r' memo' l m hs hq hk).mono (Nat.le_succ n)
    | none =>
      cases m with
      | zero => cases hk
      | succ m =>
        have key : ∀ m1 l1 m2, Spec.Hashable k → memoGet memo k = none → Stretch method n memo m1 l1 →
            (∀ k', memoGet m1 k' ≠ none → memoGet m2 k' ≠ none) → (∀ v, Spec.Gives method k (.ok v) → memoGet m2 k ≠ none) →
            Stretch method (n + 1) memo m2 (k :: l1) := by
          intro m1 l1 m2 hh hv hst h1 h2
          refine ⟨fun k' hk' => h1 k' (hst.kept k' hk'), ?_, ?_, ?_, ?_, ?_⟩
          · intro k' hk'
            rcases List.mem_cons.1 hk' with rfl | hk'
            · exact hv
            · exact hst.fresh k' hk'
          · intro k' hk'
            rcases List.mem_cons.1 hk' with rfl | hk'
            · exact hh
            · exact hst.hashable k' hk'
          · intro k' hk'
            rcases List.mem_cons.1 hk' with rfl | hk'
            · exact ⟨r, hp⟩
            · exact (hst.mono (Nat.le_succ n)).depth k' hk'
          · intro k' hk' v hg
            rcases List.mem_cons.1 hk' with rfl | hk'
            · exact h2 v hg
            · exact h1 k' (hst.stored k' hk' v hg)
          · refine List.pairwise_cons.2 ⟨?_, hst.once⟩
            intro k' hk' hsame
            obtain ⟨r1, hr1⟩ := hst.depth k' hk'
            rw [← hu.plain hsame hh (hst.hashable k' hk'), hq] at hr1
            cases hr1
        rw [plainRec] at hp
        rw [proxyRec] at hk
        split at hk
        · rename_i hh
          rw [if_pos hh] at hp
          have hh := (keyHashable_iff k).1 hh
          split at hk
          · cases hk; exact .nil _ memo
          · rename_i hv
            split at hk
            · cases hk
            · rename_i v m1 l1 hb
              cases hk
              refine key m1 l1 _ hh hv (go _ memo r _ m1 l1 m hs hp hb) ?_ ?_
              · intro k' hk'
                rw [memoGet_memoSet hO]
                split
                · simp
                · exact hk'
              · intro v' _
                rw [memoGet_memoSet hO, keyEq_refl hO]
                simp
            · rename_i e m1 l1 hb
              cases hk
              refine key _ l1 _ hh hv (go _ memo r _ _ l1 m hs hp hb) (fun _ h => h) ?_
              intro v hg
              obtain ⟨g, _⟩ := proxy_gives hO hu.alike (m + 1) k memo (.error e) memo' (k :: l1) hs
                (by rw [proxyRec, if_pos ((keyHashable_iff k).2 hh), hv]; simp only [hb])
              have := gives_unique g hg
              cases this
        · cases hk; exact .nil _ memo

/-- C116: in any history of calls, including the calls that the method makes of itself, the method runs at most once for each call that succeeds: of two
runs for the same call the earlier one raised. -/
theorem C116_runs_once (hO : Spec.EqLaws O) (hu : ∀ k k', Spec.SameCall k k' → Spec.Hashable k → Spec.Hashable k' → method k = method k')
    {hist memo log} (h : Spec.RecCalls method hist memo log) :
    log.Pairwise (fun k k' => Spec.SameCall k k' → ∃ e, Spec.Gives method k (.error e)) := by
  have go : ∀ {hist memo log}, Spec.RecCalls method hist memo log → ∃ n, Stretch method n [] memo log := by
    intro hist memo log h
    induction h with
    | none => exact ⟨0, .nil 0 []⟩
    | more hist memo memo' log l n k r hc h ih =>
      obtain ⟨p, hp⟩ := ih
      have hs := calls_sound hO (Uniform.alike hu) hc
      obtain ⟨q, hq⟩ := plain_of_gives (proxy_gives hO (Uniform.alike hu) n k memo r memo' l hs h).1
      exact ⟨max p q, (hp.mono (Nat.le_max_left p q)).append hO
        ((proxy_stretch hO hu q k memo r r memo' l n hs hq h).mono (Nat.le_max_right p q))⟩
  obtain ⟨n, hn⟩ := go h
  exact hn.once

end

/-! ### An instance: Fibonacci numbers -/

/-- Numbers, compared as numbers. -/
def natObjects : PyObjects := ⟨Nat, Nat.beq, fun _ => true⟩

/-- A call with one argument. -/
def call1 (n : Nat) : CallArgs natObjects := ⟨[n], []⟩

/-- `def fib(n): return n if n < 2 else fib(n - 1) + fib(n - 2)`; with other arguments a `TypeError`. -/
def fibBody (k : CallArgs natObjects) : RecProg natObjects :=
  match k.args, k.params with
  | [n], [] =>
    if Nat.blt n 2 then .ret (.ok n)
    else .call (call1 (Nat.sub n 1)) (fun a => match a with
      | .error e => .ret (.error e)
      | .ok a => .call (call1 (Nat.sub n 2)) (fun b => match b with
        | .error e => .ret (.error e)
        | .ok b => .ret (.ok (Nat.add a b))))
  | _, _ => .ret (.error .typeError)

theorem natObjects_laws : Spec.EqLaws natObjects where
  refl := fun a => Nat.beq_refl a
  symm := fun a b h => by rw [Nat.eq_of_beq_eq_true h]; exact Nat.beq_refl b
  trans := fun a b c h h' => by rw [Nat.eq_of_beq_eq_true h]; exact h'

/-- Equal calls are identical here. -/
theorem natObjects_same {k k' : CallArgs natObjects} (h : Spec.SameCall k k') : k = k' := by
  obtain ⟨a, p⟩ := k
  obtain ⟨a', p'⟩ := k'
  obtain ⟨h1, h2, h3, h4⟩ := h
  dsimp only at h1 h2 h3 h4
  have e1 : a = a' := by
    apply List.ext_getElem h1
    intro i hi hi'
    have := h2 i a[i] a'[i] (List.getElem?_eq_getElem hi) (List.getElem?_eq_getElem hi')
    exact Nat.eq_of_beq_eq_true this
  have hl : p.length = p'.length := by have := congrArg List.length h3; simpa using this
  have e2 : p = p' := by
    apply List.ext_getElem hl
    intro i hi hi'
    have hv := h4 i p[i] p'[i] (List.getElem?_eq_getElem hi) (List.getElem?_eq_getElem hi')
    have hn : p[i].1 = p'[i].1 := by
      have := congrArg (fun l => l[i]?) h3
      simpa [List.getElem?_map, List.getElem?_eq_getElem hi, List.getElem?_eq_getElem hi'] using this
    exact Prod.ext hn (Nat.eq_of_beq_eq_true hv)
  rw [e1, e2]

/-- `fib(20)` through the proxy from an empty cache: 21 runs of the method (without the cache there would be 21891), and `fib(10)` afterwards runs nothing. -/
example : (proxyRec fibBody 25 (call1 20) []).map (fun x => (x.1.toOption, x.2.2.length)) = some (some (6765 : Nat), 21) := by rfl

example : ∃ memo, Spec.RecCalls fibBody [(call1 6, .ok (8 : Nat)), (call1 4, .ok (3 : Nat))] memo
    [call1 6, call1 5, call1 4, call1 3, call1 2, call1 1, call1 0] := by
  refine ⟨_, .more [(call1 6, .ok (8 : Nat))] _ _ [call1 6, call1 5, call1 4, call1 3, call1 2, call1 1, call1 0] [] 9 (call1 4) _
    (.more [] [] _ [] _ 9 (call1 6) (.ok (8 : Nat)) .none rfl) rfl⟩

/-- Both theorems apply to it. -/
example {hist memo log} (h : Spec.RecCalls fibBody hist memo log) (n : Nat) (r : Except PyErr Nat) :
    ((∃ d memo' l, proxyRec fibBody d (call1 n) memo = some (r, memo', l)) ↔ Spec.Gives fibBody (call1 n) r) ∧
    log.Pairwise (fun k k' => Spec.SameCall k k' → ∃ e, Spec.Gives fibBody k (.error e)) :=
  ⟨C116_same_outcome natObjects_laws (fun k k' r hs _ _ hg => by rw [← natObjects_same hs]; exact hg) h (call1 n) r,
   C116_runs_once natObjects_laws (fun k k' hs _ _ => by rw [natObjects_same hs]) h⟩

/-- The second theorem needs more than the first: `def f(x): return f(int(x)) if isinstance(x, float) else x` gives equal values for equal arguments, but
`f(1.0)` runs the method for `1.0` and again for the equal `1` (here 11 and 1, compared modulo 10). -/
def floatBody (k : CallArgs sampleObjects) : RecProg sampleObjects :=
  match k.args with
  | [n] => if Nat.blt n 10 then .ret (.ok n) else .call ⟨[Nat.mod n 10], []⟩ .ret
  | _ => .ret (.error .typeError)

example : (proxyRec floatBody 9 ⟨[(11 : Nat)], []⟩ []).map (fun x => x.2.2.map CallArgs.args) = some [[(11 : Nat)], [(1 : Nat)]] := by rfl

end Cjk
