import Verif.Model.Encoding
import Verif.Spec.Place

/-!
# What a text encoding promises
-/

namespace Cjk.Spec
open Py Cjk

/-- What was encoded can be decoded. -/
def Lossless (c : TextCodec) : Prop := ∀ s b, c.encode s = .ok b → c.decode b = .ok s

/-- An encoding with one byte for each character: ASCII is part of it, and the two tables belong together.  All the one-byte encodings of locales are like this. -/
structure OneByte (T : ByteTable) : Prop where
  ascii : ∀ b, b < 0x80 → T.toChr b = some b
  inverse : ∀ b c, T.toByte c = some b ↔ T.toChr b = some c

/-- The character has a byte. -/
def HasByte (T : ByteTable) (c : Chr) : Prop := ∃ b, T.toChr b = some c

/-- The disk after the bytes have been written to the file. -/
def writtenBytes (d : ByteDisk) (f : Str) (b : List Nat) : ByteDisk := { d with file := fun g => if g = f then .ok b else d.file g }

/-- The characters in the labels and readings of a hierarchy. -/
def PlaceChar (p : Place) (c : Chr) : Prop := ∃ dp ∈ p.preorder 0, c ∈ dp.2.label ∨ c ∈ dp.2.reading.getD []

end Cjk.Spec
