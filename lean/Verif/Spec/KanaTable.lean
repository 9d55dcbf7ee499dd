import Verif.Py.Base
/-! # Specification vocabulary for the kana table -/

namespace Cjk.Spec
open Py

/-- The syllabary as a grid: one line per consonant, one column per vowel. -/
def grid : List Str :=
  [ u!"あいうえお", u!"かきくけこ", u!"がぎぐげご", u!"さしすせそ", u!"ざじずぜぞ", u!"たちつてと",
    u!"だぢづでど", u!"まみむめも", u!"はひふへほ", u!"ばびぶべぼ", u!"ぱぴぷぺぽ", u!"なにぬねの",
    u!"らりるれろ" ]

/-- `k` stands at line `i`, column `j` of the grid. -/
def At (i j : Nat) (k : Chr) : Prop := ∃ row, grid[i]? = some row ∧ row[j]? = some k

/-- The first kana of line `i`. -/
def lineHead (i : Nat) : Chr := (grid.getD i []).getD 0 0

/-- The vowel of column `j`. -/
def columnVowel (j : Nat) : Chr := u!"あいうえお".getD j 0

end Cjk.Spec
