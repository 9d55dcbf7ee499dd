import Verif.Model.Tatoeba
/-!
# Model of `datetime.strptime(s, '%Y-%m-%d %H:%M:%S')`, which reads the dates of detailed Tatoeba exports (tatoeba.py:254-262)

`tatoeba.py` calls the standard library here.  CPython 3.7-3.9 (`Lib/_strptime.py`, `TimeRE` and `_strptime`) turns the format into the regular
expression

    (?P<Y>\d\d\d\d)-(?P<m>1[0-2]|0[1-9]|[1-9])-(?P<d>3[0-1]|[1-2]\d|0[1-9]|[1-9]| [1-9])\s+
    (?P<H>2[0-3]|[0-1]\d|\d):(?P<M>[0-5]\d|\d):(?P<S>6[0-1]|[0-5]\d|\d)

takes the first match at the start of the text, raises ValueError if there is none or if text is left over, applies `int` to the groups and calls the
constructor of `datetime`, which checks the ranges.  A matcher is modelled by the list of all its matches, in the order in which the backtracking
engine tries them; a match is the text matched and the text left.
-/

namespace Cjk
open Py

/-- A `datetime` without time zone and microseconds. -/
structure DateTime where
  year : Int
  month : Int
  day : Int
  hour : Int
  minute : Int
  second : Int
deriving DecidableEq, Repr

/-- The matches of a part of a regular expression. -/
abbrev Matcher := Str → List (Str × Str)

/-- One character. -/
def oneChr (p : Chr → Bool) : Matcher
  | a :: t => if p a then [([a], t)] else []
  | [] => []

/-- Two characters. -/
def twoChr (p q : Chr → Bool) : Matcher
  | a :: b :: t => if p a && q b then [([a, b], t)] else []
  | _ => []

/-- `[lo-hi]` -/
def inRange (lo hi : Chr) (c : Chr) : Bool := decide (lo ≤ c ∧ c ≤ hi)

/-- `\d\d\d\d` -/
def yearM : Matcher
  | a :: b :: c :: d :: t => if isDigit a && isDigit b && isDigit c && isDigit d then [([a, b, c, d], t)] else []
  | _ => []

/-- `1[0-2]|0[1-9]|[1-9]` -/
def monthM (s : Str) : List (Str × Str) :=
  twoChr (inRange c!"1" c!"1") (inRange c!"0" c!"2") s ++ twoChr (inRange c!"0" c!"0") (inRange c!"1" c!"9") s ++ oneChr (inRange c!"1" c!"9") s

/-- `3[0-1]|[1-2]\d|0[1-9]|[1-9]| [1-9]` -/
def dayM (s : Str) : List (Str × Str) :=
  twoChr (inRange c!"3" c!"3") (inRange c!"0" c!"1") s ++ twoChr (inRange c!"1" c!"2") isDigit s ++
    twoChr (inRange c!"0" c!"0") (inRange c!"1" c!"9") s ++ oneChr (inRange c!"1" c!"9") s ++
    twoChr (inRange c!" " c!" ") (inRange c!"1" c!"9") s

/-- `\s+`, the longest match first. -/
def spacesM : Matcher
  | a :: t => if isSpace a then (spacesM t).map (fun m => (a :: m.1, m.2)) ++ [([a], t)] else []
  | [] => []

/-- `2[0-3]|[0-1]\d|\d` -/
def hourM (s : Str) : List (Str × Str) :=
  twoChr (inRange c!"2" c!"2") (inRange c!"0" c!"3") s ++ twoChr (inRange c!"0" c!"1") isDigit s ++ oneChr isDigit s

/-- `[0-5]\d|\d` -/
def minuteM (s : Str) : List (Str × Str) :=
  twoChr (inRange c!"0" c!"5") isDigit s ++ oneChr isDigit s

/-- `6[0-1]|[0-5]\d|\d` -/
def secondM (s : Str) : List (Str × Str) :=
  twoChr (inRange c!"6" c!"6") (inRange c!"0" c!"1") s ++ twoChr (inRange c!"0" c!"5") isDigit s ++ oneChr isDigit s

/-- A group followed by the character `sep`. -/
def followed (sep : Chr) (m : Matcher) (s : Str) : List (Str × Str) :=
  (m s).filterMap (fun x => match x.2 with
    | c :: t => if c = sep then some (x.1, t) else none
    | [] => none)

/-- The matches of the part before the seconds: the groups year, month, day, hour, minute, and the text left. -/
def stampPrefixes (s : Str) : List ((Str × Str × Str × Str × Str) × Str) :=
  (followed c!"-" yearM s).flatMap fun y =>
  (followed c!"-" monthM y.2).flatMap fun mo =>
  (dayM mo.2).flatMap fun d =>
  (spacesM d.2).flatMap fun w =>
  (followed c!":" hourM w.2).flatMap fun h =>
  (followed c!":" minuteM h.2).map fun mi => ((y.1, mo.1, d.1, h.1, mi.1), mi.2)

/-- All matches of the regular expression at the start of the text. -/
def stampMatches (s : Str) : List (((Str × Str × Str × Str × Str) × Str) × Str) :=
  (stampPrefixes s).flatMap fun p => (secondM p.2).map fun sec => ((p.1, sec.1), sec.2)

/-- `calendar.isleap` -/
def isLeap (y : Int) : Bool := decide (y % 4 = 0 ∧ (y % 100 ≠ 0 ∨ y % 400 = 0))

/-- The number of days in a month (`_days_in_month` of `datetime.py`). -/
def daysInMonth (y m : Int) : Int :=
  if m = 2 then (if isLeap y then 29 else 28) else if m = 4 ∨ m = 6 ∨ m = 9 ∨ m = 11 then 30 else 31

/-- `datetime(y, m, d, h, mi, s)` -/
def DateTime.new (y m d h mi s : Int) : Except PyErr DateTime :=
  if 1 ≤ y ∧ y ≤ 9999 then
    if 1 ≤ m ∧ m ≤ 12 then
      if 1 ≤ d ∧ d ≤ daysInMonth y m then
        if 0 ≤ h ∧ h ≤ 23 then
          if 0 ≤ mi ∧ mi ≤ 59 then
            if 0 ≤ s ∧ s ≤ 59 then .ok ⟨y, m, d, h, mi, s⟩
            else .error .valueError
          else .error .valueError
        else .error .valueError
      else .error .valueError
    else .error .valueError
  else .error .valueError

/-- `datetime.strptime(s, '%Y-%m-%d %H:%M:%S')` (tatoeba.py:254, 262) -/
def strptime (s : Str) : Except PyErr DateTime :=
  match (stampMatches s).head? with
  | none => .error .valueError
  | some (((y, mo, d, h, mi), sec), rest) =>
    if rest ≠ [] then .error .valueError
    else do
      let y ← pyInt 10 y
      let mo ← pyInt 10 mo
      let d ← pyInt 10 d
      let h ← pyInt 10 h
      let mi ← pyInt 10 mi
      let sec ← pyInt 10 sec
      DateTime.new y mo d h mi sec

end Cjk
