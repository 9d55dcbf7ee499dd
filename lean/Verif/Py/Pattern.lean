import Verif.Py.Re
import Verif.Py.Num
/-!
# Pattern texts: `re.compile`

`Py.Re` describes what a compiled pattern does.  This file goes one level down: a pattern is the *text* that the code hands to
`re.compile`.  `Pattern.parse` reads such a text the way CPython's `sre_parse.py` does, and `Pat.run` lists all ways to match in
the order in which the backtracking engine tries them, with numbered groups and with the character before the current position
(for `^` and look-behind).

The fragment: literals, `.`, `^`, `$`, classes with ranges, negation and `\d`, the escapes `\d`, `\t`, `\n`, `\uXXXX` and
`\` + punctuation, `a|b`, `*`, `+`, `?` and their lazy forms, groups `( )`, `(?: )`, `(?P<name> )` and look-behind `(?<=[..])`
for one character.  `parse` answers `none` for a text that `re.compile` rejects and also for a text outside this fragment
(counted repetition, look-ahead, back references, flags, other escapes, and repetition of something that can match the empty
text).  Flags: `re.UNICODE`, which is the default for text patterns.
-/

namespace Py

/-- A part of a character class. -/
inductive ClsItem where
  /-- one character -/
  | one (c : Nat)
  /-- `a-z` -/
  | range (lo hi : Nat)
  /-- `\d` -/
  | digit
deriving DecidableEq

/-- Is the character in this part of the class? -/
def ClsItem.has : ClsItem → Nat → Bool
  | .one a, c => c == a
  | .range lo hi, c => decide (lo ≤ c) && decide (c ≤ hi)
  | .digit, c => isDigit c

/-- A character class. -/
structure Cls where
  /-- `[^..]` -/
  neg : Bool
  items : List ClsItem
deriving DecidableEq

/-- Is the character in the class? -/
def Cls.has (k : Cls) (c : Nat) : Bool := (k.items.any (fun i => i.has c)) != k.neg

/-- The class of one character. -/
def Cls.lit (c : Nat) : Cls := ⟨false, [.one c]⟩

/-- `.` -/
def Cls.dot : Cls := ⟨true, [.one 0x0a]⟩

/-- The syntax tree of a pattern. -/
inductive Pat where
  | eps
  | chr (k : Cls)
  | cat (a b : Pat)
  | alt (a b : Pat)
  /-- `a*` (greedy) and `a*?` -/
  | star (greedy : Bool) (a : Pat)
  /-- `a+` and `a+?` -/
  | plus (greedy : Bool) (a : Pat)
  /-- `a?` and `a??` -/
  | opt (greedy : Bool) (a : Pat)
  /-- group number `i` -/
  | group (i : Nat) (a : Pat)
  /-- `^` (without MULTILINE) -/
  | bol
  /-- `$` (without MULTILINE) -/
  | eol
  /-- `(?<=[..])` -/
  | behind (k : Cls)
deriving DecidableEq

/-- Captured groups by number. -/
abbrev GCaps := Dict Nat Str

/-- Where the engine is: the character before (none at the beginning of the text), the text ahead, and the groups so far. -/
structure MState where
  prev : Option Nat
  rest : Str
  caps : GCaps
deriving DecidableEq

/-- Repetitions of `f`, at most as many as the first argument says.  Every repetition has to consume something. -/
def repsOf (f : MState → List MState) (greedy : Bool) : Nat → MState → List MState
  | 0, m => [m]
  | n + 1, m =>
    let more := (f m).flatMap (fun m' => if m'.rest.length < m.rest.length then repsOf f greedy n m' else [])
    if greedy then more ++ [m] else m :: more

/-- All matches, in the order of the backtracking engine. -/
def Pat.run : Pat → MState → List MState
  | .eps, m => [m]
  | .chr k, m =>
    match m.rest with
    | [] => []
    | x :: t => if k.has x then [⟨some x, t, m.caps⟩] else []
  | .cat a b, m => (a.run m).flatMap b.run
  | .alt a b, m => a.run m ++ b.run m
  | .star g a, m => repsOf a.run g m.rest.length m
  | .plus g a, m => (a.run m).flatMap (fun m' => repsOf a.run g m'.rest.length m')
  | .opt g a, m => if g then a.run m ++ [m] else m :: a.run m
  | .group i a, m =>
    (a.run m).map (fun m' => ⟨m'.prev, m'.rest, m'.caps.set i (m.rest.take (m.rest.length - m'.rest.length))⟩)
  | .bol, m => if m.prev = none then [m] else []
  | .eol, m => if m.rest = [] ∨ m.rest = [0x0a] then [m] else []
  | .behind k, m => match m.prev with
    | none => []
    | some x => if k.has x then [m] else []

/-- Can the pattern match the empty text?  (Over-approximation: true for everything that need not consume.) -/
def Pat.nullable : Pat → Bool
  | .eps => true
  | .chr _ => false
  | .cat a b => a.nullable && b.nullable
  | .alt a b => a.nullable || b.nullable
  | .star _ _ => true
  | .plus _ a => a.nullable
  | .opt _ _ => true
  | .group _ a => a.nullable
  | .bol => true
  | .eol => true
  | .behind _ => true

/-- A compiled pattern: the tree, and the names of the named groups (`groupindex`). -/
structure Compiled where
  pat : Pat
  names : Dict Str Nat
deriving DecidableEq

/-! ### Reading a pattern text -/

/-- The state of the parser: the text ahead, the number of the next group, and the names so far. -/
structure PState where
  rest : Str
  next : Nat
  names : Dict Str Nat
deriving DecidableEq

/-- ASCII letters and digits. -/
def isAlnumA (c : Nat) : Bool :=
  (decide (0x30 ≤ c) && decide (c ≤ 0x39)) || (decide (0x41 ≤ c) && decide (c ≤ 0x5a)) || (decide (0x61 ≤ c) && decide (c ≤ 0x7a))

/-- The value of a hexadecimal digit. -/
def hexVal (c : Nat) : Option Nat :=
  if 0x30 ≤ c ∧ c ≤ 0x39 then some (c - 0x30)
  else if 0x41 ≤ c ∧ c ≤ 0x46 then some (c - 0x41 + 10)
  else if 0x61 ≤ c ∧ c ≤ 0x66 then some (c - 0x61 + 10)
  else none

/-- What follows a backslash (`sre_parse._escape`, `_class_escape`). -/
def parseEscape : Str → Option (ClsItem × Str)
  | [] => none
  | c :: r =>
    if c = c!"d" then some (.digit, r)
    else if c = c!"t" then some (.one 0x09, r)
    else if c = c!"n" then some (.one 0x0a, r)
    else if c = c!"u" then
      match r with
      | h1 :: h2 :: h3 :: h4 :: r' =>
        match hexVal h1, hexVal h2, hexVal h3, hexVal h4 with
        | some a, some b, some c, some d => some (.one (((a * 16 + b) * 16 + c) * 16 + d), r')
        | _, _, _, _ => none
      | _ => none
    else if isAlnumA c then none
    else some (.one c, r)

/-- One character or escape in a class. -/
def parseClsChar : Str → Option (ClsItem × Str)
  | [] => none
  | c :: r => if c = c!"\\" then parseEscape r else some (.one c, r)

/-- The parts of a class up to its `]`; the second argument says whether this is the first part, where `]` stands for itself. -/
def parseClsItems : Nat → Bool → Str → Option (List ClsItem × Str)
  | 0, _, _ => none
  | n + 1, isFirst, s =>
    match s with
    | [] => none
    | c :: r =>
      if c = c!"]" ∧ isFirst = false then some ([], r)
      else
        match parseClsChar (c :: r) with
        | none => none
        | some (lo, r1) =>
          match r1 with
          | 0x2d :: 0x5d :: r2 => some ([lo, .one 0x2d], r2)
          | 0x2d :: r2 =>
            match lo, parseClsChar r2 with
            | .one a, some (.one b, r3) =>
              if b < a then none
              else match parseClsItems n false r3 with
                | none => none
                | some (is, r4) => some (.range a b :: is, r4)
            | _, _ => none
          | _ =>
            match parseClsItems n false r1 with
            | none => none
            | some (is, r4) => some (lo :: is, r4)

/-- A class behind its `[`. -/
def parseCls (s : Str) : Option (Cls × Str) :=
  match s with
  | 0x5e :: r => (parseClsItems (r.length + 1) true r).map (fun x => (⟨true, x.1⟩, x.2))
  | _ => (parseClsItems (s.length + 1) true s).map (fun x => (⟨false, x.1⟩, x.2))

/-- A group name up to its `>`: ASCII letters, digits and `_`. -/
def parseName : Str → Option (Str × Str)
  | [] => none
  | c :: r =>
    if c = c!">" then some ([], r)
    else if isAlnumA c || c == c!"_" then (parseName r).map (fun x => (c :: x.1, x.2))
    else none

/-- Is this a quantifier?  The quantifier (by its character) and whether it is greedy. -/
def parseQuant : Str → Option (Nat × Bool) × Str
  | [] => (none, [])
  | c :: r =>
    if c = c!"*" ∨ c = c!"+" ∨ c = c!"?" then
      match r with
      | 0x3f :: r' => (some (c, false), r')
      | _ => (some (c, true), r)
    else (none, c :: r)

/-- Does a quantifier come next? -/
def quantNext : Str → Bool
  | [] => false
  | c :: _ => c == c!"*" || c == c!"+" || c == c!"?"

/-- Is the expression something a quantifier cannot be applied to (`^`, `$`, look-behind)?  (`sre_parse` rejects some of these
and accepts others; all are outside the fragment.) -/
def Pat.isAt : Pat → Bool
  | .bol => true
  | .eol => true
  | .behind _ => true
  | _ => false

/-- Apply the quantifier that comes next, if any. -/
def applyQuant (a : Pat) (s : Str) : Option (Pat × Str) :=
  match parseQuant s with
  | (none, _) => some (a, s)
  | (some (q, g), r) =>
    if a.isAt || quantNext r then none
    else if q = c!"?" then some (.opt g a, r)
    else if a.nullable then none
    else if q = c!"*" then some (.star g a, r)
    else some (.plus g a, r)

/-- What the parser is reading: alternatives, or a sequence. -/
inductive PMode where
  | alts
  | seq

/-- After the item `a`: its quantifier, then the rest of the sequence (read by `sq`). -/
def parseMore (sq : PState → Option (Pat × PState)) (a : Pat) (st : PState) : Option (Pat × PState) :=
  match applyQuant a st.rest with
  | none => none
  | some (a', r) =>
    match sq ⟨r, st.next, st.names⟩ with
    | none => none
    | some (b, st2) => some (.cat a' b, st2)

/-- The inside of a group (read by `alts`) up to its `)`, then the rest of the sequence. -/
def parseGroup (alts sq : PState → Option (Pat × PState)) (wrap : Pat → Pat) (st : PState) : Option (Pat × PState) :=
  match alts st with
  | none => none
  | some (a, st2) =>
    match st2.rest with
    | 0x29 :: r => parseMore sq (wrap a) ⟨r, st2.next, st2.names⟩
    | _ => none

/-- What begins with `(`: the kinds of groups. -/
def parseParen (alts sq : PState → Option (Pat × PState)) (r : Str) (next : Nat) (names : Dict Str Nat) : Option (Pat × PState) :=
  match r with
  | 0x3f :: 0x3a :: r1 => parseGroup alts sq id ⟨r1, next, names⟩
  | 0x3f :: 0x50 :: 0x3c :: r1 =>
    match parseName r1 with
    | none => none
    | some (name, r2) =>
      if name = [] ∨ names.contains name = true ∨ (0x30 ≤ name.headD 0 ∧ name.headD 0 ≤ 0x39) then none
      else parseGroup alts sq (.group next) ⟨r2, next + 1, names.set name next⟩
  | 0x3f :: 0x3c :: 0x3d :: 0x5b :: r1 =>
    match parseCls r1 with
    | some (k, 0x29 :: r2) => parseMore sq (.behind k) ⟨r2, next, names⟩
    | _ => none
  | 0x3f :: _ => none
  | _ => parseGroup alts sq (.group next) ⟨r, next + 1, names⟩

/-- Reads alternatives up to `)` or the end, or a sequence up to `|`, `)` or the end.  The first argument bounds the number of
steps. -/
def parsePat : Nat → PMode → PState → Option (Pat × PState)
  | 0, _, _ => none
  | n + 1, .alts, st =>
    match parsePat n .seq st with
    | none => none
    | some (a, st1) =>
      match st1.rest with
      | 0x7c :: r =>
        match parsePat n .alts ⟨r, st1.next, st1.names⟩ with
        | none => none
        | some (b, st2) => some (.alt a b, st2)
      | _ => some (a, st1)
  | n + 1, .seq, st =>
    match st.rest with
    | [] => some (.eps, st)
    | c :: r =>
      if c = c!"|" ∨ c = c!")" then some (.eps, st)
      else if c = c!"." then parseMore (parsePat n .seq) (.chr .dot) ⟨r, st.next, st.names⟩
      else if c = c!"^" then parseMore (parsePat n .seq) .bol ⟨r, st.next, st.names⟩
      else if c = c!"$" then parseMore (parsePat n .seq) .eol ⟨r, st.next, st.names⟩
      else if c = c!"*" ∨ c = c!"+" ∨ c = c!"?" then none
      else if c = c!"{" then
        match r with
        | [] => parseMore (parsePat n .seq) (.chr (.lit c)) ⟨r, st.next, st.names⟩
        | d :: _ =>
          if d = c!"," ∨ (0x30 ≤ d ∧ d ≤ 0x39) then none
          else parseMore (parsePat n .seq) (.chr (.lit c)) ⟨r, st.next, st.names⟩
      else if c = c!"\\" then
        match parseEscape r with
        | none => none
        | some (i, r1) => parseMore (parsePat n .seq) (.chr ⟨false, [i]⟩) ⟨r1, st.next, st.names⟩
      else if c = c!"[" then
        match parseCls r with
        | none => none
        | some (k, r1) => parseMore (parsePat n .seq) (.chr k) ⟨r1, st.next, st.names⟩
      else if c = c!"(" then parseParen (parsePat n .alts) (parsePat n .seq) r st.next st.names
      else parseMore (parsePat n .seq) (.chr (.lit c)) ⟨r, st.next, st.names⟩

/-- `re.compile(text)`. -/
def compile (text : Str) : Option Compiled :=
  match parsePat (2 * text.length + 2) .alts ⟨text, 1, []⟩ with
  | some (p, st) => if st.rest = [] then some ⟨p, st.names⟩ else none
  | none => none

/-! ### Using a compiled pattern -/

/-- A match object: where it begins, the text it covers, and its groups. -/
structure MatchObj where
  start : Nat
  text : Str
  caps : GCaps
deriving DecidableEq

/-- `m.group(i)` for a group number -/
def MatchObj.group (m : MatchObj) (i : Nat) : Option Str := Dict.get? m.caps i

/-- `m.groupdict()[name]`; the outer `none` stands for a name that the pattern does not have. -/
def Compiled.named (r : Compiled) (m : MatchObj) (name : Str) : Option (Option Str) :=
  (Dict.get? r.names name).map (fun i => m.group i)

/-- The match at one position. -/
def Compiled.matchAt (r : Compiled) (i : Nat) (prev : Option Nat) (s : Str) : Option (MatchObj × MState) :=
  (r.pat.run ⟨prev, s, []⟩).head?.map (fun m => (⟨i, s.take (s.length - m.rest.length), m.caps⟩, m))

/-- `pattern.match(s)` -/
def Compiled.pyMatch (r : Compiled) (s : Str) : Option MatchObj := (r.matchAt 0 none s).map Prod.fst

/-- The first match at one position that is not empty. -/
def Compiled.matchMore (r : Compiled) (i : Nat) (prev : Option Nat) (s : Str) : Option (MatchObj × MState) :=
  ((r.pat.run ⟨prev, s, []⟩).find? (fun m => m.rest.length < s.length)).map
    (fun m => (⟨i, s.take (s.length - m.rest.length), m.caps⟩, m))

/-- Worker of `finditer`; the first argument bounds the number of steps.  After an empty match one that is not empty is looked for, first at the
same place (since Python 3.7). -/
def Compiled.finditerAux (r : Compiled) : Nat → Nat → Option Nat → Str → List MatchObj
  | 0, _, _, _ => []
  | fuel + 1, i, prev, s =>
    match r.matchAt i prev s with
    | some (m, st) =>
      if st.rest.length < s.length then m :: r.finditerAux fuel (i + (s.length - st.rest.length)) st.prev st.rest
      else m :: (match r.matchMore i prev s with
        | some (m', st') => m' :: r.finditerAux fuel (i + (s.length - st'.rest.length)) st'.prev st'.rest
        | none =>
          match s with
          | [] => []
          | x :: s' => r.finditerAux fuel (i + 1) (some x) s')
    | none =>
      match s with
      | [] => []
      | x :: s' => r.finditerAux fuel (i + 1) (some x) s'

/-- `pattern.finditer(s)` -/
def Compiled.finditer (r : Compiled) (s : Str) : List MatchObj := r.finditerAux (s.length + 1) 0 none s

end Py
