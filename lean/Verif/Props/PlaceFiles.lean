import Verif.Props.Sources
import Verif.Props.PlaceText
/-!
# C41: `dump` to a file and `from_file` of that file
-/

namespace Cjk
open Py

/-- The disk after a file got a new text. -/
def Spec.written (d : DataDisk) (f text : Str) : DataDisk := { d with file := fun g => if g = f then .ok text else d.file g }

/-- C41, on files: `dump` of a place to a plain file that can be opened opens this file only and raises nothing, and `from_file` of it then
gives the place back if and only if the place can be stored.  What the file held before is gone. -/
theorem C41_files (d : DataDisk) (r : Str → Str) (hr : ReprOk r) (p : Place) (f old : Str) (hf : Spec.PlainName f) (ho : d.file f = .ok old) :
    ∃ text, dumpPlace d r p f = (some text, none, [.plain f u!"w"]) ∧
      (loadPlace (Spec.written d f text) f).2 = [.plain f u!"r"] ∧
      ((∃ st, (loadPlace (Spec.written d f text) f).1 = .ok st ∧ Spec.Holds st 0 p) ↔ p.storable) := by
  refine ⟨placeDumpText r p, ?_, ?_, ?_⟩
  · unfold dumpPlace
    rw [sopen_plain d.fails [] f u!"w" hf (by decide)]
    simp only [openFile, DataDisk.fails, OpenCall.filename, ho, List.nil_append]
    rfl
  · unfold loadPlace
    rw [sopenLines_plain _ f hf]
    simp only [Spec.written, if_true, Except.map, Load.parse]
  · rw [← C41_exact r hr p]
    unfold loadPlace
    rw [sopenLines_plain _ f hf]
    simp only [Spec.written, if_true, Except.map, Load.parse, placeFromText]

example : Spec.PlainName u!"places.txt" := ⟨by decide, by decide, by decide⟩

end Cjk
