import Verif.Model.SplitByCodes
import Verif.Spec.DictFormat
/-!
# Specifications for `split_by_codes.py`
-/

namespace Cjk
open Py

/-- ASCII letter, ASCII digit, comma or hyphen. -/
def Spec.codeSymbol (c : Chr) : Prop :=
  (c!"a" ≤ c ∧ c ≤ c!"z") ∨ (c!"A" ≤ c ∧ c ≤ c!"Z") ∨ (c!"0" ≤ c ∧ c ≤ c!"9") ∨ c = c!"," ∨ c = c!"-"

/-- `p` is one of the comma-separated parts of `g`. -/
def Spec.IsPart (p g : Str) : Prop :=
  c!"," ∉ p ∧ ∃ pre post, g = pre ++ p ++ post ∧ (pre = [] ∨ pre.getLast? = some c!",") ∧ (post = [] ∨ post.head? = some c!",")

/-- Parts of speech, except the godan verbs. -/
def Spec.speechCodes : List Str :=
  [u!"adj", u!"adj-f", u!"adj-i", u!"adj-na", u!"adj-no", u!"adj-pn", u!"adj-t", u!"adv", u!"adv-n", u!"adv-to", u!"aux",
   u!"aux-adj", u!"aux-v", u!"conj", u!"ctr", u!"exp", u!"int", u!"iv", u!"n", u!"n-adv", u!"n-pref", u!"n-suf", u!"n-t",
   u!"num", u!"pn", u!"pref", u!"prt", u!"suf", u!"v1", u!"vi", u!"vk", u!"vn", u!"vs", u!"vs-i", u!"vs-s", u!"vt", u!"vz"]

/-- What can follow `v5` in the code of a godan verb: the ending of the dictionary form, with the irregular ones. -/
def Spec.godanEndings : List Str :=
  [[], u!"aru", u!"b", u!"g", u!"k", u!"k-s", u!"m", u!"n", u!"r", u!"r-i", u!"s", u!"t", u!"u", u!"u-s", u!"uru", u!"z"]

/-- Fields of application. -/
def Spec.fieldCodes : List Str :=
  [u!"Buddh", u!"MA", u!"comp", u!"food", u!"geom", u!"gram", u!"ling", u!"math", u!"mil", u!"physics"]

/-- Remarks on usage and writing. -/
def Spec.usageCodes : List Str :=
  [u!"X", u!"abbr", u!"arch", u!"ateji", u!"chn", u!"col", u!"derog", u!"eK", u!"ek", u!"fam", u!"fem", u!"gikun", u!"hon",
   u!"hum", u!"iK", u!"id", u!"io", u!"m-sl", u!"male", u!"male-sl", u!"ng", u!"oK", u!"obs", u!"obsc", u!"ok", u!"on-mim",
   u!"poet", u!"pol", u!"rare", u!"sens", u!"sl", u!"uK", u!"uk", u!"vulg"]

/-- Kinds of proper names. -/
def Spec.nameCodes : List Str :=
  [u!"s", u!"p", u!"u", u!"g", u!"f", u!"m", u!"h", u!"pr", u!"co", u!"st"]

/-- The codes of EDICT and ENAMDICT (documentation of 2010-07-28, as listed in split_by_codes.py:67-79), by kind. -/
def Spec.KnownCode (c : Str) : Prop :=
  c ∈ Spec.speechCodes ∨ (∃ e ∈ Spec.godanEndings, c = u!"v5" ++ e) ∨ c ∈ Spec.fieldCodes ∨ c ∈ Spec.usageCodes ∨ c ∈ Spec.nameCodes

/-- The sense contains the known code `c` in parentheses, possibly next to others. -/
def Spec.HasCode (s c : Str) : Prop :=
  Spec.KnownCode c ∧ ∃ pre g post, s = pre ++ u!"(" ++ g ++ u!")" ++ post ∧ g ≠ [] ∧ (∀ x ∈ g, Spec.codeSymbol x) ∧ Spec.IsPart c g

/-- `coded[c][w]` is the entry object number `ref`. -/
def Spec.Filed (st : Coded) (c w : Str) (ref : Nat) : Prop :=
  ∃ d, Dict.get? st.coded c = some d ∧ Dict.get? d w = some ref

end Cjk
