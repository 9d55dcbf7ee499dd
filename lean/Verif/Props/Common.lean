import Verif.Model.KanjiList
import Verif.Props.Maps
import Verif.Props.Scripts
/-!
# Streams, data files, kanji lists and language codes (C71 to C74, C76)
-/

namespace Cjk
open Py

/-! ### `sopen` (C71) -/

/-- A string ends in another. -/
def Spec.Ends (s e : Str) : Prop := ∃ u, s = u ++ e

/-- The call that should be made for a name: by its suffix. -/
inductive Spec.Chosen (filename mode : Str) : OpenCall → Prop
  | bz2 : Spec.Ends filename u!".bz2" → Spec.Chosen filename mode (.bz2 filename mode)
  | gzip : Spec.Ends filename u!".gz" → Spec.Chosen filename mode (.gzip filename mode)
  | plain : ¬ Spec.Ends filename u!".bz2" → ¬ Spec.Ends filename u!".gz" → filename ≠ u!"-" → Spec.Chosen filename mode (.plain filename mode)

theorem endsWith_iff (s e : Str) : endsWith s e = true ↔ Spec.Ends s e := by
  unfold endsWith Spec.Ends
  rw [List.isSuffixOf_iff_suffix]
  constructor <;> rintro ⟨u, h⟩ <;> exact ⟨u, h.symm⟩

theorem ends_exclusive (s : Str) : ¬ (Spec.Ends s u!".bz2" ∧ Spec.Ends s u!".gz") := by
  rintro ⟨⟨u, rfl⟩, v, hv⟩
  have h := congrArg List.getLast? hv
  simp at h

/-- C71: with both `r` and `w` in the mode, `sopen` raises and nothing is opened. -/
theorem C71_refuses (os : OpenCall → Option PyErr) (log : List OpenCall) (filename mode : Str) (hr : 0x72 ∈ mode) (hw : 0x77 ∈ mode) :
    sopen os log filename mode = (.error .genericException, log) := by
  unfold sopen
  simp [hr, hw]

/-- C71: otherwise the name `-` gives standard input exactly in read mode and standard output otherwise, without opening anything. -/
theorem C71_standard (os : OpenCall → Option PyErr) (log : List OpenCall) (mode : Str) (h : ¬ (0x72 ∈ mode ∧ 0x77 ∈ mode)) :
    sopen os log u!"-" mode = (.ok (if 0x72 ∈ mode then .stdin else .stdout), log) := by
  unfold sopen
  rw [if_neg (by simpa using h), if_neg (by decide), if_neg (by decide), if_pos rfl]
  by_cases hr : 0x72 ∈ mode <;> simp [hr]

/-- C71: for every other name exactly one call is made, chosen by the suffix, with the name and mode given; its result is the result. -/
theorem C71_opens (os : OpenCall → Option PyErr) (log : List OpenCall) (filename mode : Str) (h : ¬ (0x72 ∈ mode ∧ 0x77 ∈ mode))
    (hn : filename ≠ u!"-") :
    ∃ call, Spec.Chosen filename mode call ∧ (∀ call', Spec.Chosen filename mode call' → call' = call) ∧
      sopen os log filename mode = ((match os call with | some e => .error e | none => .ok (.opened call)), log ++ [call]) := by
  have key : ∀ call, openFile os log call = ((match os call with | some e => .error e | none => .ok (.opened call)), log ++ [call]) := by
    intro call
    unfold openFile
    cases os call <;> rfl
  have hex := ends_exclusive filename
  unfold sopen
  rw [if_neg (by simpa using h)]
  by_cases h1 : Spec.Ends filename u!".bz2"
  · refine ⟨_, .bz2 h1, ?_, by rw [if_pos ((endsWith_iff _ _).2 h1)]; exact key _⟩
    intro call' hc
    cases hc with
    | bz2 _ => rfl
    | gzip h2 => exact absurd ⟨h1, h2⟩ hex
    | plain h2 _ _ => exact absurd h1 h2
  · rw [if_neg (fun e => h1 ((endsWith_iff _ _).1 e))]
    by_cases h2 : Spec.Ends filename u!".gz"
    · refine ⟨_, .gzip h2, ?_, by rw [if_pos ((endsWith_iff _ _).2 h2)]; exact key _⟩
      intro call' hc
      cases hc with
      | bz2 h1' => exact absurd h1' h1
      | gzip _ => rfl
      | plain _ h3 _ => exact absurd h2 h3
    · rw [if_neg (fun e => h2 ((endsWith_iff _ _).1 e)), if_neg hn]
      refine ⟨_, .plain h1 h2 hn, ?_, key _⟩
      intro call' hc
      cases hc with
      | bz2 h1' => exact absurd h1' h1
      | gzip h2' => exact absurd h2' h2
      | plain _ _ _ => rfl

example : (sopen (fun _ => none) [] u!"words.bz2" u!"rb").1 = .ok (.opened (.bz2 u!"words.bz2" u!"rb")) := by decide +kernel
example : sopen (fun _ => none) [] u!"words.bz2" u!"rw" = (.error .genericException, []) := by decide +kernel

/-! ### `filter_comments` (C72) -/

/-- C72: exactly the lines that do not begin with `#`, in order. -/
theorem C72_filter (lines : List Str) : filterComments lines = lines.filter (fun l => l.head? ≠ some 0x23) := by
  induction lines with
  | nil => rfl
  | cons l lines ih =>
    rw [filterComments, List.filter_cons, ih]
    cases l with
    | nil => rfl
    | cons c l =>
      by_cases h : c = 0x23
      · subst h; rfl
      · have h2 : ((0x23 : Nat) == c) = false := by simpa using fun e : 0x23 = c => h e.symm
        simp [startsWith, List.isPrefixOf, h2, h]

/-- C72: filtering twice is filtering once. -/
theorem C72_idempotent (lines : List Str) : filterComments (filterComments lines) = filterComments lines := by
  rw [C72_filter, C72_filter, List.filter_filter]
  simp

example : filterComments [u!"# a", u!"b # c", u!"", u!" # d"] = [u!"b # c", u!"", u!" # d"] := by decide +kernel

/-! ### The data path (C73) -/

/-- The directories searched, for a home directory without a trailing slash. -/
def Spec.candidates (home : Str) : List Str := [home ++ u!"/.cjkdata", u!"/usr/share/data/cjkdata", u!"/usr/local/share/data/cjkdata"]

/-- C73: the environment variable wins, whatever exists. -/
theorem C73_variable (env : DataEnv) (p : Str) (h : env.cjkdata = some p) : findPath env = .ok p := by
  unfold findPath; rw [h]

theorem expand_home (h : Str) (hs : ∀ c, h.getLast? = some c → c ≠ 0x2f) :
    expandUser (some h) u!"~/.cjkdata" = h ++ u!"/.cjkdata" := by
  have : (h.reverse.dropWhile (fun c => c == c!"/")).reverse = h := by
    cases hr : h.reverse with
    | nil => rw [List.reverse_eq_nil_iff] at hr; subst hr; rfl
    | cons c l =>
      have e : h = l.reverse ++ [c] := by
        have := congrArg List.reverse hr
        simpa using this
      have hc : (c == c!"/") = false := by
        have := hs c (by rw [e]; simp)
        simpa using this
      rw [List.dropWhile_cons_of_neg (by simp [hc]), e]
      simp
  unfold expandUser
  rw [if_pos (by decide)]
  simp only [this]
  rfl

/-- C73: without it, the result is the first existing directory of the candidates; MissingCJKDataError iff none exists. -/
theorem C73_search (env : DataEnv) (home : Str) (hv : env.cjkdata = none) (hh : env.home = some home)
    (hs : ∀ c, home.getLast? = some c → c ≠ 0x2f) :
    (∀ p, findPath env = .ok p ↔ ∃ a b, Spec.candidates home = a ++ p :: b ∧ env.isDir p = true ∧ ∀ q ∈ a, env.isDir q = false) ∧
    (∀ e, findPath env = .error e ↔ e = .missingCJKDataError ∧ ∀ q ∈ Spec.candidates home, env.isDir q = false) := by
  have key : searchLoop env searchPaths = (Spec.candidates home).find? env.isDir := by
    have e1 := expand_home home hs
    have e2 : expandUser (some home) u!"/usr/share/data/cjkdata" = u!"/usr/share/data/cjkdata" := rfl
    have e3 : expandUser (some home) u!"/usr/local/share/data/cjkdata" = u!"/usr/local/share/data/cjkdata" := rfl
    simp only [searchPaths, searchLoop, hh, e1, e2, e3, Spec.candidates, List.find?]
    cases env.isDir (home ++ u!"/.cjkdata") <;> cases env.isDir u!"/usr/share/data/cjkdata" <;>
      cases env.isDir u!"/usr/local/share/data/cjkdata" <;> rfl
  unfold findPath
  rw [hv, key]
  cases hf : (Spec.candidates home).find? env.isDir with
  | none =>
    rw [List.find?_eq_none] at hf
    refine ⟨?_, ?_⟩
    · intro p
      simp only [reduceCtorEq, false_iff]
      rintro ⟨a, b, h1, h2, _⟩
      exact hf p (by rw [h1]; simp) h2
    · intro e
      simp only [Except.error.injEq]
      constructor
      · rintro rfl; exact ⟨rfl, fun q hq => by simpa using hf q hq⟩
      · rintro ⟨rfl, _⟩; rfl
  | some x =>
    rw [List.find?_eq_some_iff_append] at hf
    obtain ⟨hx, a, b, hab, ha⟩ := hf
    refine ⟨?_, ?_⟩
    · intro p
      simp only [Except.ok.injEq]
      constructor
      · rintro rfl
        exact ⟨a, b, hab, hx, fun q hq => by simpa using ha q hq⟩
      · rintro ⟨a', b', h1, h2, h3⟩
        have hfind : (Spec.candidates home).find? env.isDir = some p := by
          rw [List.find?_eq_some_iff_append]
          exact ⟨h2, a', b', h1, fun q hq => by simp [h3 q hq]⟩
        have hfind2 : (Spec.candidates home).find? env.isDir = some x := by
          rw [List.find?_eq_some_iff_append]
          exact ⟨hx, a, b, hab, ha⟩
        rw [hfind] at hfind2
        simpa using hfind2.symm
    · intro e
      simp only [reduceCtorEq, false_iff, not_and]
      intro _ h
      have := h x (by rw [hab]; simp)
      rw [hx] at this
      cases this

/-- C73: slashes behind the name of the home directory do not matter; without a home directory `~` is taken as a name. -/
theorem C73_home (env : DataEnv) :
    (∀ home slashes, (∀ c ∈ slashes, c = 0x2f) → findPath { env with home := some (home ++ slashes) } = findPath { env with home := some home }) ∧
    findPath { env with home := none } = findPath { env with home := some u!"~" } := by
  have key : ∀ h h' : Option Str, expandUser h u!"~/.cjkdata" = expandUser h' u!"~/.cjkdata" → findPath { env with home := h } = findPath { env with home := h' } := by
    intro h h' he
    have e : searchLoop { env with home := h } searchPaths = searchLoop { env with home := h' } searchPaths := by
      simp only [searchPaths, searchLoop, he]
      rfl
    unfold findPath
    rw [e]
  refine ⟨fun home slashes hsl => key _ _ ?_, key _ _ ?_⟩
  · unfold expandUser
    rw [if_pos (by decide), if_pos (by decide)]
    simp only
    congr 2
    rw [List.reverse_append]
    have : ∀ l : Str, (∀ c ∈ l, c = 0x2f) → ∀ m : Str, (l ++ m).dropWhile (fun c => c == c!"/") = m.dropWhile (fun c => c == c!"/") := by
      intro l hl m
      induction l with
      | nil => rfl
      | cons c l ih =>
        rw [List.cons_append, List.dropWhile_cons_of_pos (by rw [hl c (by simp)]; rfl)]
        exact ih (fun x hx => hl x (List.mem_cons_of_mem _ hx))
    exact this _ (by simpa using hsl) _
  · decide

/-- C73: a resource with a relative name lies below that path, with exactly one separator added unless the path ends in one. -/
theorem C73_resource (env : DataEnv) (base name : Str) (h : findPath env = .ok base) (hb : base ≠ []) (hn : name.head? ≠ some 0x2f) :
    getResource env name = .ok (if base.getLast? = some 0x2f then base ++ name else base ++ [0x2f] ++ name) := by
  unfold getResource
  rw [h]
  simp only
  congr 1
  unfold pathJoin
  have h1 : startsWith name u!"/" = false := by
    cases name with
    | nil => rfl
    | cons c name =>
      have : ((0x2f : Nat) == c) = false := by simpa using fun e : 0x2f = c => hn (by rw [← e]; rfl)
      simp [startsWith, List.isPrefixOf, this]
  have h2 : endsWith base u!"/" = true ↔ base.getLast? = some 0x2f := by
    rw [endsWith_iff, List.getLast?_eq_some_iff]
    exact Iff.rfl
  rw [h1]
  simp only [Bool.false_eq_true, if_false, hb, false_or, h2]

/-- C73: and the exception of a missing data directory is passed on. -/
theorem C73_missing (env : DataEnv) (name : Str) (e : PyErr) (h : findPath env = .error e) : getResource env name = .error e := by
  unfold getResource; rw [h]

example : findPath ⟨none, some u!"/home/x", fun p => p == u!"/usr/share/data/cjkdata" || p == u!"/usr/local/share/data/cjkdata"⟩ =
    .ok u!"/usr/share/data/cjkdata" := by decide +kernel
example : getResource ⟨some u!"/data", none, fun _ => false⟩ u!"lists/char" = .ok u!"/data/lists/char" := by decide +kernel

/-! ### Language codes (C74) -/

/-- C74: the inverse tables exist and are exactly the inverses. -/
theorem C74_inverse : ∃ one two, fromOneCharCode = .ok one ∧ fromTwoCharCode = .ok two ∧
    (∀ name code, Dict.get? one code = some name ↔ Dict.get? toOneCharCode name = some code) ∧
    (∀ name code, Dict.get? two code = some name ↔ Dict.get? toTwoCharCode name = some code) := by
  have gen : ∀ (d : Dict Str Str), d.WF → d.values.Nodup → ∃ inv, invertInjectiveMapping d = .ok inv ∧
      ∀ name code, Dict.get? inv code = some name ↔ Dict.get? d name = some code := by
    intro d hwf hv
    refine ⟨_, invertInjectiveLoop_ok [] d hv (by simp [Dict.keys]), ?_⟩
    intro name code
    have hwf2 : Dict.WF ([] ++ d.map (fun kv => (kv.2, kv.1)) : Dict Str Str) := by
      show ((d.map (fun kv => (kv.2, kv.1))).map Prod.fst).Nodup
      rw [List.map_map]
      exact hv
    rw [Dict.get?_eq_some_iff hwf2, Dict.get?_eq_some_iff hwf, List.nil_append, List.mem_map]
    constructor
    · rintro ⟨⟨a, b⟩, h, he⟩; cases he; exact h
    · intro h; exact ⟨(name, code), h, rfl⟩
  obtain ⟨one, h1, h2⟩ := gen toOneCharCode (by unfold Dict.WF; decide +kernel) (by decide +kernel)
  obtain ⟨two, h3, h4⟩ := gen toTwoCharCode (by unfold Dict.WF; decide +kernel) (by decide +kernel)
  exact ⟨one, two, h1, h3, h2, h4⟩

/-- C74: the codes of a table are pairwise different strings of the length that the name of the table says. -/
theorem C74_lengths : (∀ name code, Dict.get? toOneCharCode name = some code → code.length = 1) ∧
    (∀ name code, Dict.get? toTwoCharCode name = some code → code.length = 2) := by
  refine ⟨fun name code h => ?_, fun name code h => ?_⟩
  · have := Dict.mem_of_get?_eq_some h
    have key : ∀ kv ∈ toOneCharCode, kv.2.length = 1 := by decide +kernel
    exact key _ this
  · have := Dict.mem_of_get?_eq_some h
    have key : ∀ kv ∈ toTwoCharCode, kv.2.length = 2 := by decide +kernel
    exact key _ this

/-- C74: the code of one letter is the initial of the English name in lower case; the names are those of seven languages. -/
theorem C74_initials (name code : Str) : Dict.get? toOneCharCode name = some code ↔
    name ∈ [u!"English", u!"Chinese", u!"Japanese", u!"German", u!"French", u!"Spanish", u!"Portugese"] ∧ code = (name.take 1).map (· + 0x20) := by
  rw [Dict.get?_eq_some_iff (by unfold Dict.WF; decide +kernel)]
  constructor
  · intro h
    have key : ∀ kv ∈ toOneCharCode, kv.1 ∈ [u!"English", u!"Chinese", u!"Japanese", u!"German", u!"French", u!"Spanish", u!"Portugese"] ∧
        kv.2 = (kv.1.take 1).map (· + 0x20) := by decide +kernel
    exact key _ h
  · rintro ⟨h, rfl⟩
    have key : ∀ n ∈ [u!"English", u!"Chinese", u!"Japanese", u!"German", u!"French", u!"Spanish", u!"Portugese"],
        (n, (n.take 1).map (· + 0x20)) ∈ toOneCharCode := by decide +kernel
    exact key name h

/-- C74: the codes of two letters. -/
theorem C74_pairs (name code : Str) : Dict.get? toTwoCharCode name = some code ↔
    (name = u!"English" ∧ code = u!"en") ∨ (name = u!"Chinese" ∧ code = u!"cn") ∨ (name = u!"Japanese" ∧ code = u!"jp") := by
  rw [Dict.get?_eq_some_iff (by unfold Dict.WF; decide +kernel)]
  simp [toTwoCharCode]

/-! ### Kanji lists (C76) -/

/-- C76: `get_list(name)` is the set of the kanji of the file `lists/char/name` below the data path, each once; it fails iff the data
path is missing or the file cannot be read. -/
theorem C76_list (env : DataEnv) (read : Str → Except PyErr Str) (name base : Str) (hp : findPath env = .ok base) (hb : base ≠ [])
    (hsep : base.getLast? ≠ some 0x2f) :
    (∀ content, read (base ++ u!"/lists/char/" ++ name) = .ok content → ∃ l, getKanjiList env read name = .ok l ∧ l.Nodup ∧
      ∀ c, c ∈ l ↔ c ∈ content ∧ 0x4e00 ≤ c ∧ c ≤ 0x9fa5) ∧
    (∀ e, read (base ++ u!"/lists/char/" ++ name) = .error e → getKanjiList env read name = .error e) := by
  have hr : getResource env (u!"lists/char/" ++ name) = .ok (base ++ u!"/lists/char/" ++ name) := by
    rw [C73_resource env base _ hp hb (by simp), if_neg hsep]
    simp
  unfold getKanjiList
  rw [hr]
  refine ⟨?_, ?_⟩
  · intro content hc
    simp only [hc]
    exact ⟨_, rfl, (C06_unique_kanji_exact content).2, (C06_unique_kanji_exact content).1⟩
  · intro e he
    simp only [he]

/-- C76: `get_lists()` lists the directory that `get_list` reads from: it gives exactly the directory listing of `lists/char` below the
data path, and fails iff the data path is missing or the directory cannot be listed. -/
theorem C76_lists (env : DataEnv) (listdir : Str → Except PyErr (List Str)) :
    (∀ base, findPath env = .ok base → base ≠ [] → base.getLast? ≠ some 0x2f →
      getKanjiLists env listdir = listdir (base ++ u!"/lists/char")) ∧
    (∀ e, findPath env = .error e → getKanjiLists env listdir = .error e) := by
  refine ⟨?_, ?_⟩
  · intro base hp hb hsep
    have hr : getResource env u!"lists/char" = .ok (base ++ u!"/lists/char") := by
      rw [C73_resource env base _ hp hb (by decide), if_neg hsep]
      simp
    simp only [getKanjiLists, hr]
  · intro e he
    simp only [getKanjiLists, C73_missing env _ e he]

example : getKanjiLists ⟨some u!"/data", none, fun _ => false⟩
    (fun f => if f = u!"/data/lists/char" then .ok [u!"jp_jouyou", u!"gp_jlpt"] else .error .osError) =
    .ok [u!"jp_jouyou", u!"gp_jlpt"] := by decide +kernel

example : getKanjiList ⟨some u!"/data", none, fun _ => false⟩
    (fun f => if f = u!"/data/lists/char/jp_jouyou" then .ok u!"亜亜 哀\n愛a" else .error .osError) u!"jp_jouyou" =
    .ok u!"亜哀愛" := by decide +kernel

end Cjk
