import Verif.Model.BilingualDict
import Verif.Model.Place
import Verif.Model.Tree
import Verif.Py.Set
/-!
# The texts that stand for objects: `__str__` and `__repr__` of dictionary entries, tree nodes, places and readers

Not modelled: an alias for Python 2 (`__unicode__`).
-/

namespace Cjk
open Py

/-- `DictionaryEntry.__str__`, which `__repr__` returns as well (bilingual_dict.py:97-105). -/
def Entry.show (e : Entry) : Str :=
  u!"<DictionaryEntry: " ++ e.word ++ u!" (" ++ showNat (dedup e.readings).length ++ u!" readings, " ++ showNat e.senses.length ++ u!" senses)>"

/-- `TreeNode.__str__` and `__repr__` (tree.py:167-174). -/
def showNode (h : Heap) (r : Nat) : Str :=
  u!"<TreeNode: " ++ (h.node r).label ++ u!" (" ++ showNat (h.node r).children.length ++ u!" children)>"

/-- `self.reading and ' /%s/' % self.reading or ''` (place.py:56): an empty reading is not shown. -/
def shownReading : Option Str → Str
  | none => []
  | some [] => []
  | some r => u!" /" ++ r ++ u!"/"

/-- `Place.__str__` and `__repr__` (place.py:50-58). -/
def Place.show (p : Place) : Str :=
  u!"<Place: " ++ p.label ++ shownReading p.reading ++ u!" " ++ showNat p.kids.items.length ++ u!" children>"

/-- A source of a Tatoeba reader: the name of a file, which has no `read`, or an object with `read`, with the text of its attribute `filename`, if it has
one, and its `repr`. -/
inductive SrcObj where
  | name (s : Str)
  | stream (filename : Option Str) (repr : Str)

/-- `_get_src_repr` (tatoeba.py:86-91). -/
def srcRepr : SrcObj → Str
  | .name s => s
  | .stream filename repr => filename.getD repr

/-- `TatoebaSentenceReader.__repr__` (tatoeba.py:267-269); `cls` is the name of the class, which may be a subclass. -/
def showSentReader (cls : Str) (src : SrcObj) : Str := cls ++ u!"(sentences='" ++ srcRepr src ++ u!"')"

/-- `TatoebaLinksReader.__repr__` (tatoeba.py:410-411). -/
def showLinkReader (cls : Str) (src : SrcObj) : Str := cls ++ u!"(links='" ++ srcRepr src ++ u!"')"

/-- `KanaTable.__repr__` (kana_table.py:120-121). -/
def showKanaTable : Str := u!"KanaTable()"

end Cjk
