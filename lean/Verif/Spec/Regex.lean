import Verif.Py.Pattern
/-!
# Specification: what a regular expression describes

The textbook reading of a pattern, without any search order: which texts it matches, in which surroundings, and which groups it
sets on the way.
-/

namespace Cjk.Spec
open Py

/-- The character before the position behind `u`, if `prev` is the one before `u`. -/
def lastOf (prev : Option Nat) (u : Str) : Option Nat := u.getLast?.or prev

/-- `Matches p prev u t ev`: between the character `prev` (none at the beginning of the text) and the rest `t`, the pattern `p`
matches `u`; `ev` lists the groups that are set, in order, with their texts.  A repetition is a sequence of pieces that are not
empty (the patterns here do not repeat anything that can match the empty text). -/
inductive Matches : Pat → Option Nat → Str → Str → List (Nat × Str) → Prop
  | eps {prev t} : Matches .eps prev [] t []
  | chr {k prev x t} : k.has x = true → Matches (.chr k) prev [x] t []
  | cat {a b prev u v t e e'} : Matches a prev u (v ++ t) e → Matches b (lastOf prev u) v t e' →
      Matches (.cat a b) prev (u ++ v) t (e ++ e')
  | altL {a b prev u t e} : Matches a prev u t e → Matches (.alt a b) prev u t e
  | altR {a b prev u t e} : Matches b prev u t e → Matches (.alt a b) prev u t e
  | starNil {g a prev t} : Matches (.star g a) prev [] t []
  | starCons {g a prev u v t e e'} : u ≠ [] → Matches a prev u (v ++ t) e → Matches (.star g a) (lastOf prev u) v t e' →
      Matches (.star g a) prev (u ++ v) t (e ++ e')
  | plus {g a prev u v t e e'} : Matches a prev u (v ++ t) e → Matches (.star g a) (lastOf prev u) v t e' →
      Matches (.plus g a) prev (u ++ v) t (e ++ e')
  | optNil {g a prev t} : Matches (.opt g a) prev [] t []
  | opt {g a prev u t e} : Matches a prev u t e → Matches (.opt g a) prev u t e
  | group {i a prev u t e} : Matches a prev u t e → Matches (.group i a) prev u t (e ++ [(i, u)])
  | bol {t} : Matches .bol none [] t []
  | eol {prev t} : t = [] ∨ t = [0x0a] → Matches .eol prev [] t []
  | behind {k x t} : k.has x = true → Matches (.behind k) (some x) [] t []

/-- The text of a group: that of the last time it was set. -/
def groupText (ev : List (Nat × Str)) (i : Nat) : Option Str := (ev.reverse.find? (fun e => e.1 = i)).map Prod.snd

/-- Some match begins here. -/
def Begins (p : Pat) (prev : Option Nat) (s : Str) : Prop := ∃ u t ev, s = u ++ t ∧ Matches p prev u t ev

/-- Some match begins here; one that is not empty if `more` is true. -/
def Begins' (p : Pat) (more : Bool) (prev : Option Nat) (s : Str) : Prop :=
  ∃ u t ev, s = u ++ t ∧ Matches p prev u t ev ∧ (more = true → u ≠ [])

/-- A left-to-right listing of matches that do not overlap: each begins at the first position behind the one before where a match
begins, and behind the last no match begins any more.  Directly behind an empty match only one that is not empty counts; the flag says that the
text begins behind an empty match. -/
inductive Occurrences (p : Pat) : Bool → Option Nat → Str → List (Str × List (Nat × Str)) → Prop
  | nil {after prev s} : (∀ u t, s = u ++ t → ¬ Begins' p (after && u.isEmpty) (lastOf prev u) t) → Occurrences p after prev s []
  | cons {after prev u v w ev rest} :
      (∀ u1 u2, u = u1 ++ u2 → u2 ≠ [] → ¬ Begins' p (after && u1.isEmpty) (lastOf prev u1) (u2 ++ (v ++ w))) →
      Matches p (lastOf prev u) v w ev → ((after && u.isEmpty) = true → v ≠ []) → Occurrences p v.isEmpty (lastOf prev (u ++ v)) w rest →
      Occurrences p after prev (u ++ (v ++ w)) ((v, ev) :: rest)

end Cjk.Spec
