import Verif.Model.LineIter
/-!
# C133: iterators take the lines they need and no more
-/

namespace Cjk
open Py

/-- The lines that a step took from the stream. -/
def Spec.linesTaken (e : LineEvent) : List Str := e.before.take (e.before.length - e.after.length)

/-- The steps in which the program asked the i-th generator. -/
def Spec.asked (i : Nat) (es : List LineEvent) : List LineEvent :=
  es.filter (fun e => match e.op with
    | .next j => decide (j = i)
    | _ => false)

/-- What `n` calls of `next` show of something that yields these values, then raises, if it raises, and is at its end from then on. -/
def Spec.handedOut (n : Nat) (yields : List LineSeen) (raises : List LineSeen) : List LineSeen := (yields ++ raises ++ List.replicate n LineSeen.stop).take n

theorem nextEntry_suffix (parse : Str → Except PyErr Entry) (sh : Entry → LineSeen) (a : LineGen) (ls : List Str) :
    ∃ t, ls = t ++ (nextEntry parse sh a ls).2.2 := by
  cases ls with
  | nil => exact ⟨[], rfl⟩
  | cons l ls =>
    refine ⟨[l], ?_⟩
    rw [nextEntry]
    cases parse l <;> rfl

theorem nextUncommented_suffix (ls : List Str) : ∃ t, ls = t ++ (nextUncommented ls).2.2 := by
  induction ls with
  | nil => exact ⟨[], rfl⟩
  | cons l ls ih =>
    rw [nextUncommented]
    by_cases h : startsWith l u!"#" = true
    · rw [if_pos h]
      obtain ⟨t, ht⟩ := ih
      exact ⟨l :: t, by rw [List.cons_append, ← ht]⟩
    · rw [if_neg h]; exact ⟨[l], rfl⟩

theorem LineGen.next_suffix (g : LineGen) (ls : List Str) : ∃ t, ls = t ++ (g.next ls).2.2 := by
  cases g with
  | entries p => exact nextEntry_suffix ..
  | comments => exact nextUncommented_suffix ls
  | codedStart =>
    cases ls with
    | nil => exact ⟨[], rfl⟩
    | cons h ls =>
      rw [LineGen.next]
      cases detectFormat h with
      | error e => exact ⟨[h], rfl⟩
      | ok f =>
        obtain ⟨t, ht⟩ := nextEntry_suffix f.parseLine (fun x => .codes x (entryCodes x)) (.coded f.parseLine) ls
        exact ⟨h :: t, by rw [List.cons_append, ← ht]⟩
  | coded p => exact nextEntry_suffix ..
  | finished => exact ⟨[], rfl⟩

theorem LineWorld.step_suffix (w : LineWorld) (op : LineOp) : ∃ t, w.rest = t ++ (w.step op).1.rest := by
  cases op with
  | readLine => unfold LineWorld.step; cases h : w.rest with
    | nil => exact ⟨[], by simp [h]⟩
    | cons l ls => exact ⟨[l], rfl⟩
  | iterWith p => exact ⟨[], rfl⟩
  | iterAuto => unfold LineWorld.step; cases h : w.rest with
    | nil => exact ⟨[], by simp [h]⟩
    | cons l ls => refine ⟨[l], ?_⟩; simp only; cases detectFormat l <;> rfl
  | iterCoded => exact ⟨[], rfl⟩
  | iterComments => exact ⟨[], rfl⟩
  | next i =>
    unfold LineWorld.step
    simp only
    cases w.gens[i]? with
    | none => exact ⟨[], rfl⟩
    | some g => exact g.next_suffix w.rest

theorem taken_append {before after t : List Str} (h : before = t ++ after) : before.take (before.length - after.length) = t := by
  subst h; simp

/-- C133: every line of the stream goes to one step: the lines taken by the steps of the program, in their order, followed by the lines that are left, are the
lines of the stream. -/
theorem C133_each_line_once (w : LineWorld) (ops : List LineOp) : (w.run ops).flatMap Spec.linesTaken ++ (w.final ops).rest = w.rest := by
  induction ops generalizing w with
  | nil => rfl
  | cons op ops ih =>
    obtain ⟨t, ht⟩ := w.step_suffix op
    rw [LineWorld.run, LineWorld.final, List.flatMap_cons, List.append_assoc, ih, Spec.linesTaken]
    simp only
    rw [taken_append ht, ← ht]

/-- One generator, asked again and again while the stream is as given in each call. -/
def LineGen.drive (i : Nat) : LineGen → List (List Str) → List LineEvent
  | _, [] => []
  | g, b :: bs => ⟨.next i, b, (g.next b).2.2, (g.next b).2.1⟩ :: LineGen.drive i (g.next b).1 bs

theorem asked_drive (i : Nat) (ops : List LineOp) : ∀ (w : LineWorld) (g : LineGen), w.gens[i]? = some g →
    Spec.asked i (w.run ops) = g.drive i ((Spec.asked i (w.run ops)).map LineEvent.before) := by
  induction ops with
  | nil => intros; rfl
  | cons op ops ih =>
    intro w g hg
    have hlt : i < w.gens.length := (List.getElem?_eq_some_iff.1 hg).1
    have keep : ∀ w' : LineWorld, w'.gens[i]? = some g →
        Spec.asked i (w'.run ops) = g.drive i ((Spec.asked i (w'.run ops)).map LineEvent.before) :=
      fun w' h => ih w' g h
    have app : ∀ x : LineGen, (w.gens ++ [x])[i]? = some g := fun x => by rw [List.getElem?_append_left hlt]; exact hg
    rw [LineWorld.run]
    cases op with
    | readLine =>
      rw [Spec.asked, List.filter_cons, if_neg (by simp)]
      refine keep _ ?_
      unfold LineWorld.step; simp only; cases w.rest <;> exact hg
    | iterWith p => rw [Spec.asked, List.filter_cons, if_neg (by simp)]; exact keep _ (app _)
    | iterAuto =>
      rw [Spec.asked, List.filter_cons, if_neg (by simp)]
      refine keep _ ?_
      unfold LineWorld.step
      simp only
      cases w.rest with
      | nil => exact hg
      | cons h ls => simp only; cases detectFormat h with
        | error e => exact hg
        | ok f => exact app _
    | iterCoded => rw [Spec.asked, List.filter_cons, if_neg (by simp)]; exact keep _ (app _)
    | iterComments => rw [Spec.asked, List.filter_cons, if_neg (by simp)]; exact keep _ (app _)
    | next j =>
      by_cases hj : j = i
      · subst hj
        rw [Spec.asked, List.filter_cons, if_pos (by simp), List.map_cons, LineGen.drive]
        have hs : w.step (.next j) = (⟨(g.next w.rest).2.2, w.gens.set j (g.next w.rest).1⟩, (g.next w.rest).2.1) := by
          simp only [LineWorld.step, hg]
        simp only [hs, List.cons.injEq, true_and]
        exact ih _ _ (by simp [hlt])
      · rw [Spec.asked, List.filter_cons, if_neg (by simpa using hj)]
        refine keep _ ?_
        simp only [LineWorld.step]
        cases w.gens[j]? with
        | none => exact hg
        | some g' => simp only; rw [List.getElem?_set_ne hj]; exact hg

theorem drive_finished (i : Nat) (bs : List (List Str)) :
    (LineGen.drive i .finished bs).map LineEvent.seen = List.replicate bs.length LineSeen.stop ∧ (LineGen.drive i .finished bs).flatMap Spec.linesTaken = [] := by
  induction bs with
  | nil => exact ⟨rfl, rfl⟩
  | cons b bs ih =>
    rw [LineGen.drive]
    simp only [LineGen.next, List.map_cons, List.flatMap_cons, ih, Spec.linesTaken]
    simp [List.replicate_succ]

theorem handedOut_zero (a b : List LineSeen) : Spec.handedOut 0 a b = [] := by simp [Spec.handedOut]

theorem handedOut_cons (n : Nat) (x : LineSeen) (a b : List LineSeen) : Spec.handedOut (n + 1) (x :: a) b = x :: Spec.handedOut n a b := by
  simp only [Spec.handedOut, List.cons_append, List.take_succ_cons, List.cons.injEq, true_and]
  rw [List.replicate_succ', ← List.append_assoc, List.take_append_of_le_length]
  simp only [List.length_append, List.length_replicate]
  omega

theorem handedOut_raise (n : Nat) (x : LineSeen) : Spec.handedOut (n + 1) [] [x] = x :: List.replicate n LineSeen.stop := by
  simp [Spec.handedOut, List.replicate_succ']

theorem handedOut_end (n : Nat) : Spec.handedOut n [] [] = List.replicate n LineSeen.stop := by simp [Spec.handedOut]

theorem taken_cons (l : Str) (ls : List Str) (op : LineOp) (s : LineSeen) : Spec.linesTaken ⟨op, l :: ls, ls, s⟩ = [l] :=
  taken_append (t := [l]) rfl

theorem taken_nil (ls : List Str) (op : LineOp) (s : LineSeen) : Spec.linesTaken ⟨op, ls, ls, s⟩ = [] :=
  taken_append (t := []) rfl

theorem entries_drive (i : Nat) (p : Str → Except PyErr Entry) (sh : Entry → LineSeen) (g : LineGen) (hg : ∀ ls, g.next ls = nextEntry p sh g ls)
    (bs : List (List Str)) :
    (g.drive i bs).map LineEvent.seen = Spec.handedOut bs.length ((iterEntries p ((g.drive i bs).flatMap Spec.linesTaken)).1.map sh)
      ((iterEntries p ((g.drive i bs).flatMap Spec.linesTaken)).2.toList.map .raised) := by
  induction bs with
  | nil => simp [LineGen.drive, handedOut_zero]
  | cons b bs ih =>
    rw [LineGen.drive, hg]
    cases b with
    | nil =>
      simp only [nextEntry, List.map_cons, List.flatMap_cons, drive_finished, taken_nil, List.append_nil, List.length_cons]
      simp [iterEntries, handedOut_end, List.replicate_succ]
    | cons l ls =>
      rw [nextEntry]
      cases hp : p l with
      | error e =>
        simp only [List.map_cons, List.flatMap_cons, drive_finished, taken_cons, List.append_nil, List.length_cons]
        simp [iterEntries, hp, handedOut_raise]
      | ok x =>
        simp only [List.map_cons, List.flatMap_cons, taken_cons, List.singleton_append, iterEntries, hp, List.length_cons, handedOut_cons]
        rw [← ih]

/-- What the next line that is no comment is. -/
theorem nextUncommented_cases (ls : List Str) :
    ((nextUncommented ls).1 = .comments ∧ ∃ t l, (nextUncommented ls).2.1 = .text l ∧ ls = t ++ l :: (nextUncommented ls).2.2 ∧ filterComments t = [] ∧
      startsWith l u!"#" = false) ∨
    ((nextUncommented ls).1 = .finished ∧ (nextUncommented ls).2 = (.stop, []) ∧ filterComments ls = []) := by
  induction ls with
  | nil => exact Or.inr ⟨rfl, rfl, rfl⟩
  | cons l ls ih =>
    rw [nextUncommented]
    by_cases h : startsWith l u!"#" = true
    · rw [if_pos h]
      rcases ih with ⟨h1, t, m, h2, h3, h4, h5⟩ | ⟨h1, h2, h3⟩
      · refine Or.inl ⟨h1, l :: t, m, h2, by rw [List.cons_append, ← h3], ?_, h5⟩
        rw [filterComments, if_pos h, h4]
      · exact Or.inr ⟨h1, h2, by rw [filterComments, if_pos h, h3]⟩
    · rw [if_neg h]
      exact Or.inl ⟨rfl, [], l, rfl, rfl, rfl, by simpa using h⟩

theorem comments_drive (i : Nat) (bs : List (List Str)) :
    (LineGen.comments.drive i bs).map LineEvent.seen =
      Spec.handedOut bs.length ((filterComments ((LineGen.comments.drive i bs).flatMap Spec.linesTaken)).map .text) [] := by
  have happ : ∀ s t : List Str, filterComments (s ++ t) = filterComments s ++ filterComments t := by
    intro s t
    induction s with
    | nil => rfl
    | cons l s ih =>
      rw [List.cons_append, filterComments, filterComments, ih]
      by_cases h : startsWith l u!"#" = true
      · rw [if_pos h, if_pos h]
      · rw [if_neg h, if_neg h]; rfl
  induction bs with
  | nil => simp [LineGen.drive, handedOut_zero]
  | cons b bs ih =>
    rw [LineGen.drive]
    simp only [LineGen.next]
    rcases nextUncommented_cases b with ⟨h1, t, l, h2, h3, h4, h5⟩ | ⟨h1, h2, h3⟩
    · have ht : ∀ op s, Spec.linesTaken ⟨op, b, (nextUncommented b).2.2, s⟩ = t ++ [l] := fun _ _ => taken_append (by rw [List.append_assoc]; exact h3)
      rw [h1, h2]
      simp only [List.map_cons, List.flatMap_cons, ht, happ, h4, List.nil_append, List.length_cons]
      rw [filterComments, if_neg (by simp [h5])]
      simp only [filterComments, List.singleton_append, List.map_cons, handedOut_cons]
      rw [← ih]
    · have ht : ∀ op s, Spec.linesTaken ⟨op, b, [], s⟩ = b := fun _ _ => taken_append (t := b) (by simp)
      rw [h1, h2]
      simp only [List.map_cons, List.flatMap_cons, drive_finished, ht, List.append_nil, h3, List.length_cons]
      simp [handedOut_end, List.replicate_succ]

theorem coded_drive (i : Nat) (bs : List (List Str)) :
    (LineGen.codedStart.drive i bs).map LineEvent.seen =
      match iterCodedEntries ((LineGen.codedStart.drive i bs).flatMap Spec.linesTaken) with
      | .error e => Spec.handedOut bs.length [] [if e = .stopIteration then .runtimeError else .raised e]
      | .ok (es, e) => Spec.handedOut bs.length (es.map (fun x => .codes x.1 x.2)) (e.toList.map .raised) := by
  cases bs with
  | nil =>
    simp only [LineGen.drive, List.map_nil, List.length_nil, handedOut_zero]
    split <;> rfl
  | cons b bs =>
    rw [LineGen.drive]
    cases b with
    | nil =>
      simp only [LineGen.next, List.map_cons, List.flatMap_cons, drive_finished, taken_nil, List.append_nil, List.length_cons]
      have : iterCodedEntries [] = .error .stopIteration := rfl
      simp [this, handedOut_raise]
    | cons h ls =>
      simp only [LineGen.next]
      cases hd : detectFormat h with
      | error e =>
        have he : iterCodedEntries [h] = .error e := by
          show (do let r ← (do let f ← detectFormat h; Except.ok (iterEntries f.parseLine [])); Except.ok _) = _
          rw [hd]; rfl
        have hne : e ≠ .stopIteration := by
          rintro rfl
          unfold detectFormat detectIn at hd
          split at hd <;> cases hd
        simp only [List.map_cons, List.flatMap_cons, drive_finished, taken_cons, List.append_nil, List.length_cons]
        simp [he, hne, handedOut_raise]
      | ok f =>
        have key := entries_drive i f.parseLine (fun x => .codes x (entryCodes x)) (.coded f.parseLine) (fun _ => rfl) (ls :: bs)
        rw [LineGen.drive] at key
        simp only [LineGen.next] at key
        obtain ⟨t, ht⟩ := nextEntry_suffix f.parseLine (fun x => .codes x (entryCodes x)) (.coded f.parseLine) ls
        have e1 : ∀ op s, Spec.linesTaken ⟨op, ls, (nextEntry f.parseLine (fun x => .codes x (entryCodes x)) (.coded f.parseLine) ls).2.2, s⟩ = t :=
          fun _ _ => taken_append ht
        have e2 : ∀ op s, Spec.linesTaken ⟨op, h :: ls, (nextEntry f.parseLine (fun x => .codes x (entryCodes x)) (.coded f.parseLine) ls).2.2, s⟩ = h :: t :=
          fun _ _ => taken_append (by rw [List.cons_append, ← ht])
        have hi : ∀ xs : List Str, iterCodedEntries (h :: xs) =
            .ok ((iterEntries f.parseLine xs).1.map (fun e => (e, entryCodes e)), (iterEntries f.parseLine xs).2) := by
          intro xs
          show (do let r ← (do let f ← detectFormat h; Except.ok (iterEntries f.parseLine xs)); Except.ok _) = _
          rw [hd]; rfl
        simp only [List.flatMap_cons, List.cons_append, e1, e2, hi, List.map_map, List.map_cons, List.length_cons] at key ⊢
        exact key

/-- C133: what a generator shows, however the program asks it and others and reads lines itself, is what the eager reader makes of the lines that the
generator took: the entries, then the exception, then the end. -/
theorem C133_generators (w : LineWorld) (ops : List LineOp) (i : Nat) :
    (∀ p, w.gens[i]? = some (.entries p) → (Spec.asked i (w.run ops)).map LineEvent.seen =
      Spec.handedOut (Spec.asked i (w.run ops)).length ((iterEntries p ((Spec.asked i (w.run ops)).flatMap Spec.linesTaken)).1.map .entry)
        ((iterEntries p ((Spec.asked i (w.run ops)).flatMap Spec.linesTaken)).2.toList.map .raised)) ∧
    (w.gens[i]? = some .comments → (Spec.asked i (w.run ops)).map LineEvent.seen =
      Spec.handedOut (Spec.asked i (w.run ops)).length ((filterComments ((Spec.asked i (w.run ops)).flatMap Spec.linesTaken)).map .text) []) ∧
    (w.gens[i]? = some .codedStart → (Spec.asked i (w.run ops)).map LineEvent.seen =
      match iterCodedEntries ((Spec.asked i (w.run ops)).flatMap Spec.linesTaken) with
      | .error e => Spec.handedOut (Spec.asked i (w.run ops)).length [] [if e = .stopIteration then .runtimeError else .raised e]
      | .ok (es, e) => Spec.handedOut (Spec.asked i (w.run ops)).length (es.map (fun x => .codes x.1 x.2)) (e.toList.map .raised)) := by
  have hlen : (Spec.asked i (w.run ops)).length = ((Spec.asked i (w.run ops)).map LineEvent.before).length := by simp
  refine ⟨fun p hg => ?_, fun hg => ?_, fun hg => ?_⟩
  · have h1 := asked_drive i ops w _ hg
    have h2 := entries_drive i p .entry (.entries p) (fun _ => rfl) ((Spec.asked i (w.run ops)).map LineEvent.before)
    rw [← h1, ← hlen] at h2
    exact h2
  · have h1 := asked_drive i ops w _ hg
    have h2 := comments_drive i ((Spec.asked i (w.run ops)).map LineEvent.before)
    rw [← h1, ← hlen] at h2
    exact h2
  · have h1 := asked_drive i ops w _ hg
    have h2 := coded_drive i ((Spec.asked i (w.run ops)).map LineEvent.before)
    rw [← h1, ← hlen] at h2
    exact h2

/-- A step that handed something out. -/
def Spec.handsOut : LineSeen → Bool
  | .entry _ | .codes _ _ | .text _ => true
  | _ => false

theorem drive_at (i : Nat) (g : LineGen) (hg : ∀ ls, Spec.handsOut (g.next ls).2.1 = true → (g.next ls).1 = g) (pre : List LineEvent) :
    ∀ (bs : List (List Str)) (e : LineEvent) (post : List LineEvent), g.drive i bs = pre ++ e :: post → (∀ x ∈ pre, Spec.handsOut x.seen = true) →
      e.after = (g.next e.before).2.2 ∧ e.seen = (g.next e.before).2.1 := by
  induction pre with
  | nil =>
    intro bs e post h _
    cases bs with
    | nil => simp [LineGen.drive] at h
    | cons b bs =>
      rw [LineGen.drive, List.nil_append, List.cons.injEq] at h
      rw [← h.1]
      exact ⟨rfl, rfl⟩
  | cons x pre ih =>
    intro bs e post h hy
    cases bs with
    | nil => simp [LineGen.drive] at h
    | cons b bs =>
      rw [LineGen.drive, List.cons_append, List.cons.injEq] at h
      have hx := hy x (by simp)
      rw [← h.1] at hx
      rw [hg b hx] at h
      exact ih bs e post h.2 (fun y hy' => hy y (by simp [hy']))

/-- C133: a generator that has not come to its end takes no more lines than it needs for one result, and comes to its end only if the stream does: an iterator
over entries takes one line; `filter_comments` takes the comments in front of the next line and this line; `iter_coded_entries` takes the header as well when
it is asked for the first time. -/
theorem C133_no_lookahead (w : LineWorld) (ops : List LineOp) (i : Nat) (pre post : List LineEvent) (e : LineEvent)
    (he : Spec.asked i (w.run ops) = pre ++ e :: post) (hpre : ∀ x ∈ pre, Spec.handsOut x.seen = true) :
    (∀ p, w.gens[i]? = some (.entries p) → (e.before = [] ∧ e.after = [] ∧ e.seen = .stop) ∨ ∃ l, e.before = l :: e.after) ∧
    (w.gens[i]? = some .comments → ∃ cs, (∀ c ∈ cs, ∃ t, c = u!"#" ++ t) ∧
      ((e.before = cs ∧ e.after = [] ∧ e.seen = .stop) ∨ ∃ l, e.before = cs ++ l :: e.after ∧ e.seen = .text l)) ∧
    (w.gens[i]? = some .codedStart → pre = [] → (e.before = [] ∧ e.after = [] ∧ e.seen = .runtimeError) ∨
      (∃ h x, e.before = h :: e.after ∧ detectFormat h = .error x ∧ e.seen = .raised x) ∨
      ∃ h f, detectFormat h = .ok f ∧ ((e.before = [h] ∧ e.after = [] ∧ e.seen = .stop) ∨ ∃ l, e.before = h :: l :: e.after)) ∧
    (w.gens[i]? = some .codedStart → pre ≠ [] → (e.before = [] ∧ e.after = [] ∧ e.seen = .stop) ∨ ∃ l, e.before = l :: e.after) := by
  have hentry : ∀ p sh g ls, (ls = [] ∧ nextEntry p sh g ls = (.finished, .stop, [])) ∨ ∃ l, ls = l :: (nextEntry p sh g ls).2.2 := by
    intro p sh g ls
    cases ls with
    | nil => exact Or.inl ⟨rfl, rfl⟩
    | cons l ls =>
      refine Or.inr ⟨l, ?_⟩
      rw [nextEntry]
      cases p l <;> rfl
  have hagain : ∀ p sh g ls, Spec.handsOut (nextEntry p sh g ls).2.1 = true → (nextEntry p sh g ls).1 = g := by
    intro p sh g ls
    cases ls with
    | nil => intro h; cases h
    | cons l ls =>
      rw [nextEntry]
      cases p l with
      | error e => intro h; cases h
      | ok x => intro _; rfl
  refine ⟨fun p hg => ?_, fun hg => ?_, fun hg hp => ?_, fun hg hp => ?_⟩
  · rw [asked_drive i ops w _ hg] at he
    obtain ⟨h1, h2⟩ := drive_at i (.entries p) (fun ls h => hagain p .entry (.entries p) ls h) pre _ e post he hpre
    simp only [LineGen.next] at h1 h2
    rcases hentry p .entry (.entries p) e.before with ⟨h3, h4⟩ | ⟨l, h3⟩
    · rw [h4] at h1 h2; exact Or.inl ⟨h3, h1, h2⟩
    · rw [← h1] at h3; exact Or.inr ⟨l, h3⟩
  · have hnone : ∀ cs, filterComments cs = [] → ∀ c ∈ cs, ∃ t, c = u!"#" ++ t := by
      intro cs
      induction cs with
      | nil => simp
      | cons c cs ih =>
        intro h
        rw [filterComments] at h
        by_cases hc : startsWith c u!"#" = true
        · rw [if_pos hc] at h
          intro d hd
          rcases List.mem_cons.1 hd with rfl | hd
          · obtain ⟨t, ht⟩ := List.isPrefixOf_iff_prefix.1 hc
            exact ⟨t, ht.symm⟩
          · exact ih h d hd
        · rw [if_neg hc] at h; cases h
    rw [asked_drive i ops w _ hg] at he
    obtain ⟨h1, h2⟩ := drive_at i _ (fun ls h => by
      simp only [LineGen.next] at h ⊢
      rcases nextUncommented_cases ls with h' | ⟨_, h', _⟩
      · exact h'.1
      · rw [h'] at h; cases h) pre _ e post he hpre
    simp only [LineGen.next] at h1 h2
    rcases nextUncommented_cases e.before with ⟨_, t, l, h3, h4, h5, _⟩ | ⟨_, h3, h4⟩
    · exact ⟨t, hnone t h5, Or.inr ⟨l, by rw [h1]; exact h4, by rw [h2, h3]⟩⟩
    · rw [h3] at h1 h2
      exact ⟨e.before, hnone _ h4, Or.inl ⟨rfl, h1, h2⟩⟩
  · subst hp
    rw [asked_drive i ops w _ hg] at he
    generalize (Spec.asked i (w.run ops)).map LineEvent.before = bs at he
    cases bs with
    | nil => simp [LineGen.drive] at he
    | cons b bs =>
      rw [LineGen.drive, List.nil_append, List.cons.injEq] at he
      rw [← he.1]
      cases b with
      | nil => exact Or.inl ⟨rfl, rfl, rfl⟩
      | cons h ls =>
        refine Or.inr ?_
        simp only [LineGen.next]
        cases hd : detectFormat h with
        | error x => exact Or.inl ⟨h, x, rfl, hd, rfl⟩
        | ok f =>
          refine Or.inr ⟨h, f, hd, ?_⟩
          simp only
          rcases hentry f.parseLine (fun x => .codes x (entryCodes x)) (.coded f.parseLine) ls with ⟨h3, h4⟩ | ⟨l, h3⟩
          · rw [h4, h3]; exact Or.inl ⟨rfl, rfl, rfl⟩
          · exact Or.inr ⟨l, by rw [← h3]⟩
  · rw [asked_drive i ops w _ hg] at he
    generalize (Spec.asked i (w.run ops)).map LineEvent.before = bs at he
    cases pre with
    | nil => exact absurd rfl hp
    | cons x pre =>
      cases bs with
      | nil => simp [LineGen.drive] at he
      | cons b bs =>
        rw [LineGen.drive, List.cons_append, List.cons.injEq] at he
        have hx := hpre x (by simp)
        rw [← he.1] at hx
        cases b with
        | nil => simp [LineGen.next, Spec.handsOut] at hx
        | cons h ls =>
          simp only [LineGen.next] at hx he
          cases hd : detectFormat h with
          | error x => simp [hd, Spec.handsOut] at hx
          | ok f =>
            simp only [hd] at hx he
            rw [hagain f.parseLine _ _ ls hx] at he
            obtain ⟨h1, h2⟩ := drive_at i (.coded f.parseLine) (fun ls h => hagain f.parseLine (fun x => .codes x (entryCodes x)) _ ls h) pre _ e post he.2
              (fun y hy => hpre y (by simp [hy]))
            simp only [LineGen.next] at h1 h2
            rcases hentry f.parseLine (fun x => .codes x (entryCodes x)) (.coded f.parseLine) e.before with ⟨h3, h4⟩ | ⟨l, h3⟩
            · rw [h4] at h1 h2; exact Or.inl ⟨h3, h1, h2⟩
            · rw [← h1] at h3; exact Or.inr ⟨l, h3⟩

/-- C133: `iter_entries` reads the header when it is called, also if nothing is ever asked of the iterator.  An unknown header raises then, and the program goes
on with the lines behind it; if the format is known, the entries are those of the lines that the iterator takes later. -/
theorem C133_header (w : LineWorld) (h : Str) (ls : List Str) (hr : w.rest = h :: ls) (ops : List LineOp) :
    ∃ e es, w.run (.iterAuto :: ops) = e :: es ∧ Spec.linesTaken e = [h] ∧
      (∀ x, detectFormat h = .error x → e.seen = .raised x ∧ es = LineWorld.run ⟨ls, w.gens⟩ ops) ∧
      ∀ f, detectFormat h = .ok f → (Spec.asked w.gens.length es).map LineEvent.seen =
        Spec.handedOut (Spec.asked w.gens.length es).length ((iterEntries f.parseLine ((Spec.asked w.gens.length es).flatMap Spec.linesTaken)).1.map .entry)
          ((iterEntries f.parseLine ((Spec.asked w.gens.length es).flatMap Spec.linesTaken)).2.toList.map .raised) := by
  refine ⟨_, _, rfl, ?_, ?_, ?_⟩
  · have : (w.step .iterAuto).1.rest = ls := by
      unfold LineWorld.step
      simp only [hr]
      cases detectFormat h <;> rfl
    unfold Spec.linesTaken
    simp only [this, hr]
    exact taken_append (t := [h]) rfl
  · intro x hx
    have : w.step .iterAuto = (⟨ls, w.gens⟩, .raised x) := by simp only [LineWorld.step, hr, hx]
    rw [this]
    exact ⟨rfl, rfl⟩
  · intro f hf
    have : w.step .iterAuto = (⟨ls, w.gens ++ [.entries f.parseLine]⟩, .nothing) := by simp only [LineWorld.step, hr, hf]
    rw [this]
    exact (C133_generators ⟨ls, w.gens ++ [.entries f.parseLine]⟩ ops w.gens.length).1 f.parseLine (by simp)

/-- C133: the other calls take no line and show nothing, and the iterator that they make is the one asked for; a program that reads a line gets the next one. -/
theorem C133_calls (w : LineWorld) (ops : List LineOp) :
    (∀ p, ∃ e es, w.run (.iterWith p :: ops) = e :: es ∧ e.after = w.rest ∧ e.seen = .nothing ∧ (Spec.asked w.gens.length es).map LineEvent.seen =
      Spec.handedOut (Spec.asked w.gens.length es).length ((iterEntries p ((Spec.asked w.gens.length es).flatMap Spec.linesTaken)).1.map .entry)
        ((iterEntries p ((Spec.asked w.gens.length es).flatMap Spec.linesTaken)).2.toList.map .raised)) ∧
    (∃ e es, w.run (.iterComments :: ops) = e :: es ∧ e.after = w.rest ∧ e.seen = .nothing ∧ (Spec.asked w.gens.length es).map LineEvent.seen =
      Spec.handedOut (Spec.asked w.gens.length es).length ((filterComments ((Spec.asked w.gens.length es).flatMap Spec.linesTaken)).map .text) []) ∧
    (∃ e es, w.run (.iterCoded :: ops) = e :: es ∧ e.after = w.rest ∧ e.seen = .nothing ∧ (Spec.asked w.gens.length es).map LineEvent.seen =
      match iterCodedEntries ((Spec.asked w.gens.length es).flatMap Spec.linesTaken) with
      | .error e => Spec.handedOut (Spec.asked w.gens.length es).length [] [if e = .stopIteration then .runtimeError else .raised e]
      | .ok (xs, e) => Spec.handedOut (Spec.asked w.gens.length es).length (xs.map (fun x => .codes x.1 x.2)) (e.toList.map .raised)) ∧
    (∃ e es, w.run (.readLine :: ops) = e :: es ∧ e.after = w.rest.drop 1 ∧ e.seen = (w.rest.head?.map LineSeen.text).getD .stop) ∧
    (w.rest = [] → w.run (.iterAuto :: ops) = ⟨.iterAuto, [], [], .stop⟩ :: w.run ops) := by
  refine ⟨fun p => ⟨_, _, rfl, rfl, rfl, ?_⟩, ⟨_, _, rfl, rfl, rfl, ?_⟩, ⟨_, _, rfl, rfl, rfl, ?_⟩, ⟨_, _, rfl, ?_, ?_⟩, fun h => ?_⟩
  · exact (C133_generators ⟨w.rest, w.gens ++ [.entries p]⟩ ops w.gens.length).1 p (by simp)
  · exact (C133_generators ⟨w.rest, w.gens ++ [.comments]⟩ ops w.gens.length).2.1 (by simp)
  · exact (C133_generators ⟨w.rest, w.gens ++ [.codedStart]⟩ ops w.gens.length).2.2 (by simp)
  · cases h : w.rest <;> simp [LineWorld.step, h]
  · cases h : w.rest <;> simp [LineWorld.step, h]
  · have : w.step .iterAuto = (w, .stop) := by simp only [LineWorld.step, h]
    rw [LineWorld.run, this, h]

/-! Two iterators over one stream and a program that reads a line in between. -/

example : (LineWorld.run ⟨[u!"#a", u!"b", u!"c", u!"#d", u!"e"], []⟩ [.iterComments, .iterComments, .next 0, .readLine, .next 1, .next 0, .next 1, .next 0]).map
    (fun e => (e.seen, e.after.length)) =
    [(.nothing, 5), (.nothing, 5), (.text u!"b", 3), (.text u!"c", 2), (.text u!"e", 0), (.stop, 0), (.stop, 0), (.stop, 0)] := by decide +kernel

example : (Spec.asked 1 (LineWorld.run ⟨[u!"#a", u!"b", u!"c", u!"#d", u!"e"], []⟩ [.iterComments, .iterComments, .next 0, .readLine, .next 1, .next 0, .next 1])).flatMap
    Spec.linesTaken = [u!"#d", u!"e"] := by decide +kernel

end Cjk
