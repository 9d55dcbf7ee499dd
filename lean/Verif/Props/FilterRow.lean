import Verif.Model.FilterRow
import Verif.Props.FilterLoad
/-!
# C123: overriding `filter_row`
-/

namespace Cjk
open Py

theorem sentRowsHook_filter {D : Type} (strptime : Str → Except PyErr D) (p : List Str → Bool) (languages : Option (List Str))
    (rows : List (List Str)) (a : SentData D) :
    sentRowsHook strptime p languages a rows = sentRows strptime languages a (rows.filter (fun r => !p r)) := by
  induction rows generalizing a with
  | nil => rfl
  | cons r rows ih =>
    simp only [sentRowsHook, sentRowHook]
    cases hp : p r with
    | true => simp only [if_true, List.filter_cons, hp, Bool.not_true, Bool.false_eq_true, if_false]; exact ih a
    | false =>
      simp only [Bool.false_eq_true, if_false, List.filter_cons, hp, Bool.not_false, if_true, sentRows]
      cases sentRow strptime languages a r with
      | error e => rfl
      | ok a' => exact ih a'

/-- C123: the reader with the `filter_row` of its class, which keeps every row. -/
theorem C123_filter_row_default {D : Type} (strptime : Str → Except PyErr D) (languages : Option (List Str)) (rows : Rows) :
    sentLoadHook strptime (fun _ => false) languages rows = sentLoad strptime languages rows := by
  obtain ⟨rows, e⟩ := rows
  cases rows with
  | nil => rfl
  | cons first rest =>
    simp only [sentLoadHook, sentLoad, sentRowsHook_filter]
    simp
    rfl

/-- C123: a reader with another `filter_row` is a reader of the file without the rows that it drops, exceptions included, if some row is left and the
first row of the file has as many columns as the first one left; the rows dropped can have any form. -/
theorem C123_filter_row {D : Type} (strptime : Str → Except PyErr D) (p : List Str → Bool) (languages : Option (List Str))
    (rows : List (List Str)) (e : Option PyErr) (first kept : List Str) (h1 : rows.head? = some first)
    (h2 : (rows.filter (fun r => !p r)).head? = some kept) (hlen : first.length = kept.length) :
    sentLoadHook strptime p languages (rows, e) = sentLoad strptime languages (rows.filter (fun r => !p r), e) := by
  cases rows with
  | nil => cases h1
  | cons r rest =>
    simp only [List.head?_cons, Option.some.injEq] at h1
    subst h1
    cases hk : (r :: rest).filter (fun r => !p r) with
    | nil => rw [hk] at h2; cases h2
    | cons k ks =>
      rw [hk] at h2
      simp only [List.head?_cons, Option.some.injEq] at h2
      subst h2
      simp only [sentLoadHook, sentLoad, sentRowsHook_filter, hk, hlen]
      rfl

/-- C123: a first row with another number of columns, such as a line of comment, cannot be filtered out this way: whatever `filter_row` is, the file is
refused, or read with or without details according to a row that was dropped. -/
theorem C123_filter_row_first {D : Type} (strptime : Str → Except PyErr D) (p : List Str → Bool) (languages : Option (List Str))
    (first : List Str) (rest : List (List Str)) (e : Option PyErr) :
    (first.length ≠ 3 → first.length ≠ 6 → sentLoadHook strptime p languages (first :: rest, e) = .error .invalidFileError) ∧
    (∀ a, sentLoadHook strptime p languages (first :: rest, e) = .ok a → (a.info.isSome ↔ first.length = 6)) := by
  have keep : ∀ (rows : List (List Str)) (a b : SentData D), sentRows strptime languages a rows = .ok b → (b.info.isSome ↔ a.info.isSome) := by
    intro rows
    induction rows with
    | nil => intro a b h; cases h; rfl
    | cons r rows ih =>
      intro a b h
      simp only [sentRows] at h
      split at h
      · cases h
      · rename_i a' ha
        rw [ih a' b h]
        unfold sentRow at ha
        split at ha
        · split at ha
          · cases ha; rfl
          · split at ha
            · cases ha
            · unfold sentDetails at ha
              split at ha
              · cases ha; simp_all
              · split at ha
                · cases ha
                · cases ha; simp_all
        · cases ha
  constructor
  · intro h3 h6
    simp only [sentLoadHook]
    rw [if_neg (by omega)]
  · intro a h
    simp only [sentLoadHook] at h
    split at h
    · split at h
      · cases h
      · rename_i b hb
        rw [sentRowsHook_filter] at hb
        have := keep _ _ _ hb
        split at h
        · cases h
        · cases h
          rw [this]
          split <;> simp_all
    · cases h

/-- A reader that drops the rows of a user, on a file with details. -/
example : (sentLoadHook (D := Unit) (fun _ => .ok ()) (fun r => r.getD 3 [] == u!"bob") none
    ([[u!"1", u!"eng", u!"a", u!"bob", u!"\\N", u!"\\N"], [u!"2", u!"eng", u!"b", u!"eve", u!"\\N", u!"\\N"]], none)).toOption.map SentData.ids = some [2] := by
  rw [C123_filter_row _ _ _ _ _ [u!"1", u!"eng", u!"a", u!"bob", u!"\\N", u!"\\N"] [u!"2", u!"eng", u!"b", u!"eve", u!"\\N", u!"\\N"] rfl (by decide) rfl]
  decide +kernel

/-- A line of comment is refused even if it would be dropped. -/
example : ∀ p, sentLoadHook (D := Unit) (fun _ => .ok ()) p none ([[u!"# sentences"], [u!"2", u!"eng", u!"b"]], none) = .error .invalidFileError :=
  fun p => (C123_filter_row_first _ p _ _ _ _).1 (by decide) (by decide)

end Cjk
