import Verif.Model.Convert
/-!
# C127: converting a text file for the documentation
-/

namespace Cjk
open Py

namespace Spec

/-- What is in the file, with all line endings written as `\n`: the text itself if it has no `\r`. -/
def FileHolds (d : TextDisk) (f text : Str) : Prop :=
  ∃ t, d.at_ f = some (.file t) ∧ d.unreadable f = none ∧
    ((c!"\r" ∉ t ∧ text = t) ∨ ∃ ls : List Str, ∃ e : Str, (∀ l ∈ ls, NoEol l) ∧ (e = u!"\n" ∨ e = u!"\r\n" ∨ e = u!"\r") ∧
      t = ls.flatMap (· ++ e) ∧ text = ls.flatMap (· ++ u!"\n"))

end Spec

theorem fileLinesAux_flatten : ∀ (s : Str), c!"\r" ∉ s → ∀ acc : Str, (fileLinesAux acc s).flatten = acc ++ s := by
  intro s
  induction s with
  | nil =>
    intro _ acc
    simp only [fileLinesAux]
    split
    · rename_i h; simp [h]
    · simp
  | cons c s ih =>
    intro h acc
    have hc : c ≠ 0x0d := fun e => h (by rw [e]; exact List.mem_cons_self)
    have hs : c!"\r" ∉ s := fun e => h (List.mem_cons_of_mem _ e)
    rw [fileLinesAux]
    · by_cases hn : c = 0x0a
      · subst hn
        simp [ih hs]
      · rw [if_neg (by simp [hc, hn]), ih hs]
        simp
    · intro r e _
      exact hc e

theorem readText_flatten (s : Str) (h : c!"\r" ∉ s) : (fileLines s).flatten = s := by
  unfold fileLines
  rw [fileLinesAux_flatten s h []]
  rfl

theorem fileHolds_read {d : TextDisk} {f text : Str} (h : Spec.FileHolds d f text) : d.read f = .ok text := by
  obtain ⟨t, h1, h2, h3⟩ := h
  simp only [TextDisk.read, h1, h2]
  rcases h3 with ⟨hr, rfl⟩ | ⟨ls, e, hl, he, rfl, rfl⟩
  · rw [readText_flatten _ hr]
  · rw [fileLines_uniform e he ls hl]
    simp [List.flatMap_def]

/-- C127: with a file to write to, `convert` does the same as without one and then stores what it would have returned, with one newline behind it; no other
file changes.  If it raises, no file changes at all. -/
theorem C127_output (pandoc : Pandoc) (d : TextDisk) (src : Option Str) (out : Str) (preamble : Option Str) (strict : Bool) :
    (∀ e, (convertRst pandoc d src none preamble strict).1 = .error e → convertRst pandoc d src (some out) preamble strict = (.error e, d)) ∧
    (∀ x, (convertRst pandoc d src none preamble strict).1 = .ok x → ∃ text, x = some text ∧
      ((d.at_ out ≠ some .directory ∧ d.unwritable out = none → ∃ d', convertRst pandoc d src (some out) preamble strict = (.ok none, d') ∧
        d'.at_ out = some (.file (text ++ u!"\n")) ∧ (∀ p, p ≠ out → d'.at_ p = d.at_ p) ∧ d'.unreadable = d.unreadable ∧ d'.unwritable = d.unwritable) ∧
      (d.at_ out = some .directory ∨ d.unwritable out ≠ none → ∃ e, convertRst pandoc d src (some out) preamble strict = (.error e, d)))) ∧
    (convertRst pandoc d src none preamble strict).2 = d := by
  unfold convertRst
  cases h : convertText pandoc d src preamble strict with
  | error e => exact ⟨fun e' h' => (by cases h'; rfl), fun x h' => (by cases h'), rfl⟩
  | ok text =>
    refine ⟨fun e' h' => (by cases h'), fun x h' => ?_, rfl⟩
    cases h'
    refine ⟨text, rfl, ?_, ?_⟩
    · rintro ⟨h1, h2⟩
      have : d.write out (text ++ u!"\n") = .ok { d with at_ := fun p => if p = out then some (.file (text ++ u!"\n")) else d.at_ p } := by
        unfold TextDisk.write
        split
        · rename_i e; exact absurd e h1
        · rw [h2]
      simp only [this]
      refine ⟨_, rfl, by simp, fun p hp => by simp [hp], rfl, rfl⟩
    · intro h1
      have : ∃ e, d.write out (text ++ u!"\n") = .error e := by
        unfold TextDisk.write
        split
        · exact ⟨_, rfl⟩
        · rename_i hd
          rcases h1 with h1 | h1
          · exact absurd h1 hd
          · cases h2 : d.unwritable out with
            | none => exact absurd h2 h1
            | some e => exact ⟨_, rfl⟩
      obtain ⟨e, he⟩ := this
      exact ⟨e, by simp only [he]⟩

/-- C127: what `convert` returns.  If `pypandoc` converts the file, the preamble, a newline and what `pypandoc` made of it.  If `pypandoc` cannot be imported or
fails for want of `pandoc`, the text of the file takes that place, or `strict` asks for an ImportError. -/
theorem C127_returns (pandoc : Pandoc) (d : TextDisk) (src : Str) (preamble : Option Str) (strict : Bool) (hx : d.at_ src ≠ none) :
    (∀ conv text, pandoc = some conv → conv d src = .ok text →
      (convertRst pandoc d (some src) none preamble strict).1 = .ok (some (preamble.getD [] ++ u!"\n" ++ text))) ∧
    ((pandoc = none ∨ ∃ conv e, pandoc = some conv ∧ conv d src = .error e ∧ (e = .importError ∨ e = .py .osError)) →
      (strict = true → (convertRst pandoc d (some src) none preamble strict).1 = .error .importError) ∧
      (strict = false → ∀ text, Spec.FileHolds d src text →
        (convertRst pandoc d (some src) none preamble strict).1 = .ok (some (preamble.getD [] ++ u!"\n" ++ text)))) ∧
    (∀ conv e, pandoc = some conv → conv d src = .error e → e ≠ .importError → e ≠ .py .osError →
      (convertRst pandoc d (some src) none preamble strict).1 = .error e) := by
  obtain ⟨n, hn⟩ := Option.ne_none_iff_exists'.1 hx
  have key : ∀ r, loadRstText pandoc d src strict = r → (convertRst pandoc d (some src) none preamble strict).1 =
      r.map (fun text => some (preamble.getD [] ++ u!"\n" ++ text)) := by
    rintro r rfl
    unfold convertRst convertText
    simp only [hn]
    cases loadRstText pandoc d src strict with
    | error e => rfl
    | ok t => rfl
  refine ⟨?_, ?_, ?_⟩
  · rintro conv text rfl hc
    exact key (.ok text) (by simp only [loadRstText, hc])
  · intro hp
    have hf : loadRstText pandoc d src strict = fallbackLoad d src strict := by
      rcases hp with rfl | ⟨conv, e, rfl, hc, rfl | rfl⟩
      · rfl
      · simp only [loadRstText, hc]
      · simp only [loadRstText, hc]
    constructor
    · rintro rfl
      exact key (.error .importError) hf
    · rintro rfl text ht
      refine key (.ok text) (hf.trans ?_)
      exact fileHolds_read ht
  · rintro conv e rfl hc h1 h2
    refine key (.error e) ?_
    simp only [loadRstText, hc]

/-- C127, refuted: "without a preamble the converted text is returned": there is always an empty line before it. -/
theorem C127_refuted (pandoc : Pandoc) (d : TextDisk) (src : Str) (strict : Bool) (text : Str)
    (h : loadRstText pandoc d src strict = .ok text) (hx : d.at_ src ≠ none) :
    (convertRst pandoc d (some src) none none strict).1 = .ok (some (u!"\n" ++ text)) ∧
    (convertRst pandoc d (some src) none none strict).1 ≠ .ok (some text) := by
  obtain ⟨n, hn⟩ := Option.ne_none_iff_exists'.1 hx
  have : (convertRst pandoc d (some src) none none strict).1 = .ok (some (u!"\n" ++ text)) := by
    unfold convertRst convertText
    simp only [hn, h]
    rfl
  refine ⟨this, ?_⟩
  rw [this]
  intro e
  have := congrArg List.length (Option.some.inj (Except.ok.inj e))
  simp only [List.length_append] at this
  exact absurd this (by simp)

/-- C127: a missing file name and a missing file. -/
theorem C127_missing (pandoc : Pandoc) (d : TextDisk) (out preamble : Option Str) (strict : Bool) (src : Str) :
    convertRst pandoc d none out preamble strict = (.error (.py .valueError), d) ∧
    (d.at_ src = none → convertRst pandoc d (some src) out preamble strict = (.error (.py .osError), d)) := by
  constructor
  · rfl
  · intro h
    unfold convertRst convertText
    simp only [h]

/-- Converting a file onto itself, `n` times. -/
def convertTimes (pandoc : Pandoc) (f : Str) (preamble : Option Str) : Nat → TextDisk → Except ScriptErr TextDisk
  | 0, d => .ok d
  | n + 1, d =>
    match convertRst pandoc d (some f) (some f) preamble false with
    | (.error e, _) => .error e
    | (.ok _, d') => convertTimes pandoc f preamble n d'

theorem replicate_flatten_comm (n : Nat) (a : Str) : (List.replicate n a).flatten ++ a = a ++ (List.replicate n a).flatten := by
  induction n with
  | zero => simp
  | succ n ih => rw [List.replicate_succ, List.flatten_cons, List.append_assoc, ih]

/-- C127: a file may be converted onto itself.  Without `pypandoc` each time adds the preamble, and a newline at both ends. -/
theorem C127_in_place (f : Str) (preamble : Option Str) (hp : c!"\r" ∉ preamble.getD []) : ∀ (n : Nat) (d : TextDisk) (text : Str),
    d.at_ f = some (.file text) → c!"\r" ∉ text → d.unreadable f = none → d.unwritable f = none →
    ∃ d', convertTimes none f preamble n d = .ok d' ∧
      d'.at_ f = some (.file ((List.replicate n (preamble.getD [] ++ u!"\n")).flatten ++ text ++ List.replicate n c!"\n")) ∧
      ∀ p, p ≠ f → d'.at_ p = d.at_ p := by
  intro n
  induction n with
  | zero =>
    intro d text h1 h2 h3 h4
    exact ⟨d, rfl, by simpa using h1, fun _ _ => rfl⟩
  | succ n ih =>
    intro d text h1 h2 h3 h4
    have hx : d.at_ f ≠ none := by rw [h1]; simp
    have hr := ((C127_returns none d f preamble false hx).2.1 (.inl rfl)).2 rfl text ⟨text, h1, h3, .inl ⟨h2, rfl⟩⟩
    obtain ⟨t, ht, hw, -⟩ := (C127_output none d (some f) f preamble false).2.1 _ hr
    cases ht
    obtain ⟨d1, e1, e2, e3, e4, e5⟩ := hw ⟨by rw [h1]; simp, h4⟩
    have hcr : c!"\r" ∉ preamble.getD [] ++ u!"\n" ++ text ++ u!"\n" := by
      simp only [List.mem_append, not_or]
      exact ⟨⟨⟨hp, by decide⟩, h2⟩, by decide⟩
    obtain ⟨d2, g1, g2, g3⟩ := ih d1 _ e2 hcr (by rw [e4]; exact h3) (by rw [e5]; exact h4)
    refine ⟨d2, ?_, ?_, fun p hpne => (g3 p hpne).trans (e3 p hpne)⟩
    · simp only [convertTimes, e1]
      exact g1
    · rw [g2]
      congr 2
      have hrep : List.replicate (n + 1) c!"\n" = u!"\n" ++ List.replicate n c!"\n" := rfl
      have hrep2 : (List.replicate (n + 1) (preamble.getD [] ++ u!"\n")).flatten =
          (List.replicate n (preamble.getD [] ++ u!"\n")).flatten ++ (preamble.getD [] ++ u!"\n") := by
        rw [replicate_flatten_comm, List.replicate_succ, List.flatten_cons]
      rw [hrep, hrep2]
      simp only [List.append_assoc]

/-! A readme with Windows line endings, without `pypandoc`. -/

/-- One file. -/
def readmeDisk : TextDisk := ⟨fun p => if p = u!"README.md" then some (.file u!"Title\r\n=====\r\n") else none, fun _ => none, fun _ => none⟩

example : Spec.FileHolds readmeDisk u!"README.md" u!"Title\n=====\n" :=
  ⟨_, rfl, rfl, .inr ⟨[u!"Title", u!"====="], u!"\r\n", by decide, by decide, rfl, rfl⟩⟩

example : (convertRst none readmeDisk (some u!"README.md") none (some u!".. made") false).1 = .ok (some u!".. made\nTitle\n=====\n") :=
  ((C127_returns none readmeDisk u!"README.md" (some u!".. made") false (by decide)).2.1 (.inl rfl)).2 rfl u!"Title\n=====\n"
    ⟨_, rfl, rfl, .inr ⟨[u!"Title", u!"====="], u!"\r\n", by decide, by decide, rfl, rfl⟩⟩

example : ∃ d', convertTimes none u!"a" none 2 ⟨fun p => if p = u!"a" then some (.file u!"x") else none, fun _ => none, fun _ => none⟩ = .ok d' ∧
    d'.at_ u!"a" = some (.file u!"\n\nx\n\n") := by
  obtain ⟨d', h1, h2, -⟩ := C127_in_place u!"a" none (by decide) 2
    ⟨fun p => if p = u!"a" then some (.file u!"x") else none, fun _ => none, fun _ => none⟩ u!"x" rfl (by decide) rfl rfl
  exact ⟨d', h1, h2⟩

end Cjk
