import Verif.Props.Sources
import Verif.Py.Num
/-!
# C103: which exceptions a compressed place file gives
-/

namespace Cjk
open Py

/-- A field of a line: not empty and without ASCII white space. -/
def Spec.ByteField (s : Str) : Prop := s ≠ [] ∧ ∀ c ∈ s, c ≠ 0x20 ∧ ¬ (0x09 ≤ c ∧ c ≤ 0x0d)

theorem utf8Char_small {c : Nat} (h : c < 0x80) : utf8Char c = [c] := by simp [utf8Char, h]

theorem utf8Char_large {c : Nat} (h : ¬ c < 0x80) : ∀ b ∈ utf8Char c, 0x80 ≤ b := by
  intro b hb
  unfold utf8Char at hb
  rw [if_neg h] at hb
  split at hb <;> [skip; split at hb] <;> simp only [List.mem_cons, List.not_mem_nil, or_false] at hb <;> omega

theorem utf8Char_ne (c : Nat) : utf8Char c ≠ [] := by
  unfold utf8Char
  split <;> [skip; split <;> [skip; split]] <;> simp

theorem utf8_append (s t : Str) : utf8 (s ++ t) = utf8 s ++ utf8 t := by simp [utf8]

theorem isByteSpace_iff (c : Nat) : isByteSpace c = true ↔ c = 0x20 ∨ (0x09 ≤ c ∧ c ≤ 0x0d) := by
  unfold isByteSpace
  simp only [Bool.or_eq_true, Bool.and_eq_true, decide_eq_true_eq, beq_iff_eq]
  omega

theorem byteField_utf8 {s : Str} (h : Spec.ByteField s) : utf8 s ≠ [] ∧ ∀ b ∈ utf8 s, isByteSpace b = false := by
  refine ⟨fun e => h.1 ((utf8_nil s).1 e), fun b hb => ?_⟩
  obtain ⟨c, hc, hb⟩ := List.mem_flatMap.1 hb
  rw [Bool.eq_false_iff, Ne, isByteSpace_iff]
  by_cases hs : c < 0x80
  · rw [utf8Char_small hs] at hb
    have := (h.2 c hc)
    simp only [List.mem_singleton] at hb
    subst hb
    omega
  · have := utf8Char_large hs b hb
    omega

theorem splitBytesAux_word (w : List Nat) (hw : ∀ b ∈ w, isByteSpace b = false) (cur rest : List Nat) :
    splitBytesAux cur (w ++ rest) = splitBytesAux (cur ++ w) rest := by
  induction w generalizing cur with
  | nil => simp
  | cons b w ih =>
    rw [List.cons_append, splitBytesAux, if_neg (by rw [hw b (by simp)]; simp), ih (fun c hc => hw c (by simp [hc]))]
    simp

theorem splitBytes_fields (x : Nat) (hx : isByteSpace x = true) (fields : List Str) (h : ∀ s ∈ fields, Spec.ByteField s) :
    splitBytesAux [] (utf8 (join u!" " fields) ++ [x]) = fields.map utf8 := by
  have h0 : splitBytesAux [] [x] = [] := by simp [splitBytesAux, hx]
  induction fields with
  | nil => simpa [join, utf8] using h0
  | cons s ss ih =>
    obtain ⟨h1, h2⟩ := byteField_utf8 (h s (by simp))
    cases ss with
    | nil =>
      rw [show join u!" " [s] = s by simp [join], splitBytesAux_word _ h2, List.nil_append, splitBytesAux, if_pos hx, if_neg h1]
      simp [splitBytesAux]
    | cons t ts =>
      have hj : join u!" " (s :: t :: ts) = s ++ 0x20 :: join u!" " (t :: ts) := by simp [join]
      rw [hj, show s ++ 0x20 :: join u!" " (t :: ts) = s ++ ([0x20] ++ join u!" " (t :: ts)) from rfl, utf8_append, utf8_append, List.append_assoc,
        splitBytesAux_word _ h2, List.nil_append, show utf8 [0x20] = [0x20] from rfl, List.append_assoc, List.singleton_append, splitBytesAux,
        if_pos (by decide), if_neg h1, ih (fun u hu => h u (by simp [hu]))]
      rfl

theorem byteLinesAux_line (l rest acc : List Nat) (hl : 0x0a ∉ l) : byteLinesAux acc (l ++ 0x0a :: rest) = (acc ++ l ++ [0x0a]) :: byteLinesAux [] rest := by
  induction l generalizing acc with
  | nil => simp [byteLinesAux]
  | cons c l ih =>
    rw [List.cons_append, byteLinesAux, if_neg (fun e => hl (by simp [e])), ih _ (fun hc => hl (by simp [hc]))]
    simp

theorem utf8_newline {s : Str} (h : 0x0a ∉ s) : 0x0a ∉ utf8 s := by
  intro hb
  obtain ⟨c, hc, hb⟩ := List.mem_flatMap.1 hb
  by_cases hs : c < 0x80
  · rw [utf8Char_small hs, List.mem_singleton] at hb
    exact h (hb ▸ hc)
  · have := utf8Char_large hs _ hb
    omega

theorem join_noNewline (fields : List Str) (h : ∀ s ∈ fields, Spec.ByteField s) : 0x0a ∉ join u!" " fields := by
  induction fields with
  | nil => simp [join]
  | cons s ss ih =>
    have hs : 0x0a ∉ s := fun hc => ((h s (by simp)).2 _ hc).2 (by omega)
    cases ss with
    | nil => simpa [join] using hs
    | cons t ts =>
      have hj : join u!" " (s :: t :: ts) = s ++ 0x20 :: join u!" " (t :: ts) := by simp [join]
      rw [hj]
      have := ih (fun u hu => h u (by simp [hu]))
      simp only [List.mem_append, List.mem_cons, not_or]
      exact ⟨hs, by decide, this⟩

theorem utf8_ascii {s : Str} (h : ∀ c ∈ s, c < 0x80) : utf8 s = s := by
  induction s with
  | nil => rfl
  | cons c s ih =>
    rw [show utf8 (c :: s) = utf8Char c ++ utf8 s from rfl, utf8Char_small (h c (by simp)), ih (fun d hd => h d (by simp [hd]))]
    rfl

/-- C103, exactly how `Place.from_file` fails on a compressed file.  An empty file raises `StopIteration`.  Otherwise all depends on the fields of the first line:
with another number of fields than three or four, or with a depth that is not written in ASCII, it raises `ValueError`; a first line that is right for an
uncompressed file, with a depth written in decimal, raises `TypeError`. -/
theorem C103_from_file_exact (d : DataDisk) (f text : Str) (hc : Spec.Compressed f) (hf : d.file f = .ok text) :
    (text = [] → (loadPlace d f).1 = .error .stopIteration) ∧
    ∀ fields rest, (∀ s ∈ fields, Spec.ByteField s) → text = join u!" " fields ++ 0x0a :: rest →
      ((fields.length ≠ 3 → fields.length ≠ 4 → (loadPlace d f).1 = .error .valueError) ∧
       (∀ depth more, fields = depth :: more → (∃ c ∈ depth, 0x80 ≤ c) → (loadPlace d f).1 = .error .valueError) ∧
       (∀ n more, fields = showNat n :: more → (fields.length = 3 ∨ fields.length = 4) → (loadPlace d f).1 = .error .typeError)) := by
  obtain ⟨call, h⟩ := sopenLines_compressed d f text hc hf
  refine ⟨?_, ?_⟩
  · rintro rfl
    simp only [loadPlace, h, Load.parse]
    rfl
  · intro fields rest hfl ht
    have hline : (loadPlace d f).1 = .error (placeFromBytes (utf8 (join u!" " fields) ++ [0x0a])) := by
      simp only [loadPlace, h, Load.parse]
      rw [ht, show join u!" " fields ++ 0x0a :: rest = join u!" " fields ++ ([0x0a] ++ rest) from rfl, utf8_append, utf8_append,
        show utf8 [0x0a] = [0x0a] from rfl, byteLines, List.singleton_append, byteLinesAux_line _ _ _ (utf8_newline (join_noNewline fields hfl))]
      rfl
    rw [hline]
    unfold placeFromBytes
    rw [splitBytes_fields 0x0a (by decide) fields hfl]
    refine ⟨?_, ?_, ?_⟩
    · intro h3 h4
      rcases fields with _ | ⟨a, _ | ⟨b, _ | ⟨c, _ | ⟨e, _ | ⟨g, r⟩⟩⟩⟩⟩
      · rfl
      · rfl
      · rfl
      · exact absurd rfl h3
      · exact absurd rfl h4
      · rfl
    · rintro depth more rfl ⟨c, hc, hge⟩
      have hany : (utf8 depth).any (fun c => decide (0x80 ≤ c) || (decide (0x1c ≤ c) && decide (c ≤ 0x1f))) = true := by
        rw [List.any_eq_true]
        obtain ⟨b, hb⟩ := List.exists_mem_of_ne_nil _ (utf8Char_ne c)
        exact ⟨b, List.mem_flatMap.2 ⟨c, hc, hb⟩, by simp [utf8Char_large (by omega) b hb]⟩
      have hbi : bytesInt (utf8 depth) = .error .valueError := by unfold bytesInt; rw [if_pos hany]
      rcases more with _ | ⟨b, _ | ⟨c, _ | ⟨e, _ | ⟨g, r⟩⟩⟩⟩ <;> simp [hbi]
    · rintro n more rfl hlen
      have hd := showNat_digits n
      have hu : utf8 (showNat n) = showNat n := utf8_ascii (fun c hc => by have := hd c hc; unfold AsciiDigit at this; omega)
      have hbi : bytesInt (utf8 (showNat n)) = .ok (n : Int) := by
        unfold bytesInt
        rw [hu, if_neg, pyInt_showNat]
        rw [Bool.not_eq_true, List.any_eq_false]
        intro c hc
        have := hd c hc
        unfold AsciiDigit at this
        simp only [Bool.or_eq_true, Bool.and_eq_true, decide_eq_true_eq]
        omega
      rcases more with _ | ⟨b, _ | ⟨c, _ | ⟨e, _ | ⟨g, r⟩⟩⟩⟩
      · simp at hlen
      · simp at hlen
      · simp [hbi]
      · simp [hbi]
      · simp at hlen

/-- C103: `dump` to a file that cannot be opened, compressed or not, writes nothing and raises the exception of the opening. -/
theorem C103_dump_unopened (d : DataDisk) (r : Str → Str) (p : Place) (f : Str) (e : PyErr) (hc : Spec.Compressed f ∨ Spec.PlainName f)
    (hf : d.file f = .error e) : ∃ log, dumpPlace d r p f = (none, some e, log) := by
  rcases hc with hc | hp
  · unfold dumpPlace sopen
    rw [if_neg (by decide)]
    by_cases h1 : endsWith f u!".bz2" = true
    · rw [if_pos h1]
      refine ⟨[.bz2 f u!"w"], ?_⟩
      simp only [openFile, DataDisk.fails, OpenCall.filename, hf, List.nil_append]
    · have h2 : endsWith f u!".gz" = true := by
        rcases hc with hc | hc
        · exact absurd ((suffix_iff _ _).2 hc) h1
        · exact (suffix_iff _ _).2 hc
      rw [if_neg h1, if_pos h2]
      refine ⟨[.gzip f u!"w"], ?_⟩
      simp only [openFile, DataDisk.fails, OpenCall.filename, hf, List.nil_append]
  · unfold dumpPlace
    rw [sopen_plain d.fails [] f u!"w" hp (by decide)]
    refine ⟨[.plain f u!"w"], ?_⟩
    simp only [openFile, DataDisk.fails, OpenCall.filename, hf, List.nil_append]

example : Spec.ByteField u!"東京" := ⟨by decide, by decide⟩

/-- A first line that is right: three fields. -/
example : ∀ s ∈ [showNat 0, u!"東京", u!"とうきょう"], Spec.ByteField s := by
  intro s hs
  simp only [List.mem_cons, List.not_mem_nil, or_false] at hs
  rcases hs with rfl | rfl | rfl
  · exact ⟨by decide +kernel, by decide +kernel⟩
  · exact ⟨by decide, by decide⟩
  · exact ⟨by decide, by decide⟩

end Cjk
