import Verif.Model.Dates
/-!
# Specification of the dates in detailed Tatoeba exports

The calendar, the fixed form in which the exports write a time, and the texts that are accepted as times.
-/

namespace Cjk.Spec
open Py

/-- The lengths of the months of a year that is not a leap year. -/
def monthLengths : List Int := [31, 28, 31, 30, 31, 30, 31, 31, 30, 31, 30, 31]

/-- A leap year of the Gregorian calendar. -/
def LeapYear (y : Int) : Prop := (4 ∣ y ∧ ¬ 100 ∣ y) ∨ 400 ∣ y

/-- A date and time that exists, in the years 1 to 9999. -/
structure RealTime (t : DateTime) : Prop where
  year : 1 ≤ t.year ∧ t.year ≤ 9999
  month : 1 ≤ t.month ∧ t.month ≤ 12
  day : 1 ≤ t.day ∧ (t.day ≤ monthLengths.getD (t.month.toNat - 1) 0 ∨ (t.month = 2 ∧ LeapYear t.year ∧ t.day = 29))
  hour : 0 ≤ t.hour ∧ t.hour ≤ 23
  minute : 0 ≤ t.minute ∧ t.minute ≤ 59
  second : 0 ≤ t.second ∧ t.second ≤ 59

/-- The decimal digit for a number below ten. -/
def digit (n : Nat) : Chr := 0x30 + n % 10

/-- Two digits. -/
def two (n : Nat) : Str := [digit (n / 10), digit n]

/-- The form in which a time is written in an export, `2010-04-23 07:05:09`. -/
def fixedForm (y mo d h mi s : Nat) : Str :=
  two (y / 100) ++ two y ++ u!"-" ++ two mo ++ u!"-" ++ two d ++ u!" " ++ two h ++ u!":" ++ two mi ++ u!":" ++ two s

/-- A time in the form of an export. -/
def stamp (t : DateTime) : Str :=
  fixedForm t.year.toNat t.month.toNat t.day.toNat t.hour.toNat t.minute.toNat t.second.toNat

/-- An ASCII digit between two others. -/
def Among (lo hi : Chr) (c : Chr) : Prop := lo ≤ c ∧ c ≤ hi

/-- The texts taken as a month: one or two ASCII digits for 1 to 12. -/
def MonthText (s : Str) : Prop :=
  (∃ b, s = [c!"1", b] ∧ Among c!"0" c!"2" b) ∨ (∃ b, s = [c!"0", b] ∧ Among c!"1" c!"9" b) ∨ (∃ b, s = [b] ∧ Among c!"1" c!"9" b)

/-- The texts taken as a day: one or two digits for 1 to 31, or a space and a digit. -/
def DayText (s : Str) : Prop :=
  (∃ b, s = [c!"3", b] ∧ Among c!"0" c!"1" b) ∨ (∃ a b, s = [a, b] ∧ Among c!"1" c!"2" a ∧ isDigit b = true) ∨
  (∃ b, s = [c!"0", b] ∧ Among c!"1" c!"9" b) ∨ (∃ b, s = [b] ∧ Among c!"1" c!"9" b) ∨ (∃ b, s = [c!" ", b] ∧ Among c!"1" c!"9" b)

/-- The texts taken as an hour: one or two digits for 0 to 23. -/
def HourText (s : Str) : Prop :=
  (∃ b, s = [c!"2", b] ∧ Among c!"0" c!"3" b) ∨ (∃ a b, s = [a, b] ∧ Among c!"0" c!"1" a ∧ isDigit b = true) ∨ (∃ b, s = [b] ∧ isDigit b = true)

/-- The texts taken as minutes or seconds: one or two digits for 0 to 59. -/
def SixtyText (s : Str) : Prop :=
  (∃ a b, s = [a, b] ∧ Among c!"0" c!"5" a ∧ isDigit b = true) ∨ (∃ b, s = [b] ∧ isDigit b = true)

/-- The text `s` is accepted and means the time `t`. -/
def TimeText (s : Str) (t : DateTime) : Prop :=
  ∃ y mo d w h mi sec : Str,
    s = y ++ u!"-" ++ mo ++ u!"-" ++ d ++ w ++ h ++ u!":" ++ mi ++ u!":" ++ sec ∧
    (y.length = 4 ∧ ∀ c ∈ y, isDigit c = true) ∧ MonthText mo ∧ DayText d ∧ (w ≠ [] ∧ ∀ c ∈ w, isSpace c = true) ∧
    HourText h ∧ SixtyText mi ∧ SixtyText sec ∧
    pyInt 10 y = .ok t.year ∧ pyInt 10 mo = .ok t.month ∧ pyInt 10 d = .ok t.day ∧
    pyInt 10 h = .ok t.hour ∧ pyInt 10 mi = .ok t.minute ∧ pyInt 10 sec = .ok t.second ∧ RealTime t

end Cjk.Spec
