import Verif.Model.Tatoeba
/-!
# Exports of Tatoeba as text

What stands in a file is described by records, not by rows of texts; a record is written as one line with its values between tabs.
-/

namespace Cjk.Spec
open Py

/-- Values between tabs. -/
def tabbed : List Str → Str
  | [] => []
  | [f] => f
  | f :: g :: fs => f ++ u!"\t" ++ tabbed (g :: fs)

/-- A sentence. -/
structure SentRec where
  id : Int
  lang : Str
  text : Str

/-- Its values. -/
def SentRec.fields (r : SentRec) : List Str := [showInt r.id, r.lang, r.text]

/-- The last sentence with an id among those in the given languages. -/
def lastSent (languages : Option (List Str)) (recs : List SentRec) (i : Int) : Option SentRec :=
  recs.reverse.find? (fun r => decide (r.id = i ∧ ∀ ls, languages = some ls → r.lang ∈ ls))

/-- A sentence with details: who added it, when, and when it was changed last. -/
structure DetailRec (D : Type) extends SentRec where
  user : Option Str
  added : Option D
  modified : Option D

/-- The values of a sentence with details: missing ones are written as `\N`, dates with `format`. -/
def DetailRec.values {D : Type} (format : D → Str) (r : DetailRec D) : List Str :=
  r.fields ++ [r.user.getD u!"\\N", (r.added.map format).getD u!"\\N", (r.modified.map format).getD u!"\\N"]

/-- The last sentence with an id among those in the given languages. -/
def lastDetail {D : Type} (languages : Option (List Str)) (recs : List (DetailRec D)) (i : Int) : Option (DetailRec D) :=
  recs.reverse.find? (fun r => decide (r.id = i ∧ ∀ ls, languages = some ls → r.lang ∈ ls))

/-- The values of a link. -/
def linkFields (p : Int × Int) : List Str := [showInt p.1, showInt p.2]

/-- A Japanese sentence in the index, with the id of its translation and its words. -/
structure IndexRec where
  id : Int
  meaning : Int
  words : List Tanaka

/-- Words with spaces between them. -/
def spaced : List Str → Str
  | [] => []
  | [f] => f
  | f :: g :: fs => f ++ u!" " ++ spaced (g :: fs)

/-- Its values. -/
def IndexRec.fields (r : IndexRec) : List Str := [showInt r.id, showInt r.meaning, spaced (r.words.map Tanaka.toText)]

/-- The last sentence in the index with an id, if the id is among the given ones. -/
def lastIndex (subset : Option (List Int)) (recs : List IndexRec) (i : Int) : Option IndexRec :=
  if ∀ ids, subset = some ids → i ∈ ids then recs.reverse.find? (fun r => decide (r.id = i)) else none

end Cjk.Spec
