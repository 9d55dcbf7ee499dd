import Verif.Spec.Regex
import Verif.Spec.DictFormat
/-!
# Specification: the entry that the patterns of a format find in a line
-/

namespace Cjk.Spec
open Py

/-- The text of a named group in a match; none if there is no such group or it took no part. -/
def nameText (r : Compiled) (ev : List (Nat × Str)) (n : Str) : Option Str := (Dict.get? r.names n).bind (groupText ev)

/-- `line` describes a beginning of `s` with the text `senses` in the group of that name; the group `word`, without spaces, is
`word`; so is `reading`, which is the word if there is no group of that name or it is empty. -/
def Described (line : Compiled) (s word reading senses : Str) : Prop :=
  ∃ u t ev w, s = u ++ t ∧ Matches line.pat none u t ev ∧ nameText line ev u!"word" = some w ∧ word = noSpaces w ∧
    (∀ r, nameText line ev u!"reading" = some r → r ≠ [] → reading = noSpaces r) ∧
    ((∀ r, nameText line ev u!"reading" = some r → r = []) → reading = word) ∧
    nameText line ev u!"senses" = some senses

/-- Somewhere in `s` a match of the pattern begins. -/
def Inside (r : Compiled) (s : Str) : Prop := ∃ u t, s = u ++ t ∧ Begins r.pat (lastOf none u) t

/-- The patterns of a format have the groups that the documentation of `RegexFormat` asks for: every line that matches has a word
and senses, and every match of the sense pattern has a sense. -/
structure WellMade (line sense : Compiled) : Prop where
  word : ∀ u t ev, Matches line.pat none u t ev → nameText line ev u!"word" ≠ none
  senses : ∀ u t ev, Matches line.pat none u t ev → nameText line ev u!"senses" ≠ none
  gloss : ∃ k, Dict.get? sense.names u!"sense" = some k ∧ ∀ prev u t ev, Matches sense.pat prev u t ev → groupText ev k ≠ none

end Cjk.Spec
