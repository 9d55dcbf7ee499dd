import Verif.Model.Scripts
import Verif.Model.KanaTable
import Verif.Model.Maps
/-!
# Model of `cjktools/alternations.py`

One-character strings used as dictionary keys (`to_voiced`, `from_voiced`) are represented by the
character.
-/

namespace Cjk
open Py

/-- `_sokuon_map` (alternations.py:24-25). -/
def sokuonMap : Dict Script Chr := [(.hiragana, c!"っ"), (.katakana, c!"ッ")]

/-- `_onbin_map` (alternations.py:27-28). -/
def onbinMap : Dict Script Str := [(.hiragana, u!"いちりきつく"), (.katakana, u!"イチリキツク")]

/-- `_create_voicing_map` (alternations.py:121-146).  `kana in voiced_line` is a substring test; `chr`
cannot fail on hiragana code points plus at most two. -/
def createVoicingMap : Except PyErr (Dict Chr (List Chr)) := do
  let ka ← Dict.getItem kanaTable.table u!"か"
  let sa ← Dict.getItem kanaTable.table u!"さ"
  let ta ← Dict.getItem kanaTable.table u!"た"
  let ha ← Dict.getItem kanaTable.table u!"は"
  let hira ← getScript .hiragana
  let vm : Dict Chr (List Chr) := Dict.ofList (hira.map (fun k =>
    (k, if isInfix [k] (ka ++ sa ++ ta) then [k + 1]
        else if isInfix [k] ha then [k + 1, k + 2] else [])))
  let kata : Dict Chr (List Chr) := Dict.ofList (vm.flatMap (fun kv =>
    (toKatakana [kv.1]).map (fun k => (k, toKatakana kv.2))))
  .ok (vm.update kata)

/-- `to_voiced` (alternations.py:148); the construction does not raise (`Cjk.createVoicingMap_ok`). -/
def toVoiced : Dict Chr (List Chr) :=
  match createVoicingMap with
  | .ok d => d
  | .error _ => []

/-- `from_voiced` (alternations.py:149-150).  The lists of `invert_mapping` are never empty. -/
def fromVoiced : Dict Chr Chr := (invertMapping toVoiced).map (fun kv => (kv.1, kv.2.headD 0))

/-- `from_voiced[v[0]] + v[1:]` (alternations.py:79). -/
def devoiceHead : Str → Except PyErr Str
  | [] => .error .indexError
  | c :: s => do
    let k ← fromVoiced.getItem c
    .ok (k :: s)

/-- `[f(v) for v in vs]` where `f` may raise. -/
def mapE {α β : Type} (f : α → Except PyErr β) : List α → Except PyErr (List β)
  | [] => .ok []
  | a :: as => do
    let b ← f a
    let bs ← mapE f as
    .ok (b :: bs)

/-- `canonical_segment_forms` (alternations.py:56-81).  The result is a set. -/
def canonicalSegmentForms (segment : Str) (left right : Bool) : Except PyErr (List Str) :=
  let stype := scriptType segment
  match sokuonMap.get? stype, onbinMap.get? stype with
  | some sokuon, some onbin =>
    let v1 := [segment]
    let v2 :=
      if right && decide (segment.length > 1) && endsWith segment [sokuon] then
        dedup (v1 ++ onbin.map (fun c => segment.dropLast ++ [c]))
      else v1
    if left then
      match segment with
      | [] => .error .indexError
      | c :: _ =>
        if isVoiced c then do
          let extra ← mapE devoiceHead v2
          .ok (dedup (v2 ++ extra))
        else .ok v2
    else .ok v2
  | _, _ => .error .valueError

/-- `list(product(*sets))` (alternations.py:53, 96). -/
def product {α : Type} : List (List α) → List (List α)
  | [] => [[]]
  | s :: ss => s.flatMap (fun a => (product ss).map (fun r => a :: r))

/-- The loop of `canonical_forms` (alternations.py:44-51); `i` is the index, `n` the number of segments. -/
def canonicalSets (n : Nat) : Nat → List Str → Except PyErr (List (List Str))
  | _, [] => .ok []
  | i, seg :: segs => do
    let v ← canonicalSegmentForms seg (decide (i > 0)) (decide ((i : Int) < (n : Int) - 1))
    let rest ← canonicalSets n (i + 1) segs
    .ok (v :: rest)

/-- `canonical_forms` (alternations.py:31-53). -/
def canonicalForms (segs : List Str) : Except PyErr (List (List Str)) := do
  let sets ← canonicalSets segs.length 0 segs
  .ok (product sets)

/-- `rendaku_variants` (alternations.py:99-106). -/
def rendakuVariants : Str → Except PyErr (List Str)
  | [] => .error .indexError
  | c :: s => do
    let vs ← toVoiced.getItem c
    .ok (dedup ((c :: s) :: vs.map (fun k => k :: s)))

/-- `onbin_variants` (alternations.py:109-118). -/
def onbinVariants (seg : Str) : Except PyErr (List Str) :=
  if seg.length > 1 then do
    let sokuon ← sokuonMap.getItem (scriptType seg)
    .ok (dedup [seg, seg.dropLast ++ [sokuon]])
  else .ok [seg]

/-- `surface_forms` (alternations.py:84-96). -/
def surfaceForms : List Str → Except PyErr (List (List Str))
  | [] => .error .indexError
  | seg :: segs => do
    let s0 ← onbinVariants seg
    let rest ← mapE rendakuVariants segs
    .ok (product (s0 :: rest))

/-- The `while` loop of `insert_duplicate_kanji` (alternations.py:162-168), run for at most the given
number of tests of the loop condition; `none` means that the loop is still running. -/
def insertDuplicateLoop : Nat → Str → Option Str
  | 0, _ => none
  | fuel + 1, s =>
    match findChr c!"々" s with
    | none => some s
    | some 0 => some s
    | some (i + 1) =>
      -- `dup = kanji_string[loc-1]`
      insertDuplicateLoop fuel (s.take (i + 1) ++ [s.getD i 0] ++ s.drop (i + 2))

/-- Matches of `_long_finder` = `(?<=[ぁ-ゖ])ー` (alternations.py:171): start positions, by a
scan that remembers the previous character. -/
def longPositions : Nat → Option Chr → Str → List Nat
  | _, _, [] => []
  | i, prev, c :: s =>
    let rest := longPositions (i + 1) (some c) s
    match prev with
    | some p => if c = c!"ー" ∧ 0x3041 ≤ p ∧ p ≤ 0x3096 then i :: rest else rest
    | none => rest

/-- The loop over the matches (alternations.py:202-205).  Concatenating `None` is a `TypeError`. -/
def expandMatches : List Nat → Str → Except PyErr Str
  | [], seg => .ok seg
  | i :: is, seg => do
    let p ← getItemI seg ((i : Int) - 1)
    match kanaTable.toVowelLine [p] with
    | none => .error .typeError
    | some v => expandMatches is (seg.take i ++ v ++ seg.drop (i + 1))

/-- One iteration of the loop over the segments (alternations.py:190-207): what is added to the output. -/
def expandSegment (seg : Str) : Except PyErr Str :=
  if seg.isEmpty then .ok []
  else match scriptType seg with
    | .hiragana => do
      let h := toHiragana seg
      expandMatches (longPositions 0 none h) h
    | .katakana => do
      let h := toHiragana seg
      let r ← expandMatches (longPositions 0 none h) h
      .ok (toKatakana r)
    | _ => .ok seg

/-- `expand_long_vowels` (alternations.py:174-209). -/
def expandLongVowels (s : Str) : Except PyErr Str := do
  let parts ← mapE expandSegment (scriptBoundaries s)
  .ok parts.flatten

end Cjk
