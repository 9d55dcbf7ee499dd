import Verif.Model.Alternations
import Verif.Model.KanaVoiced
import Verif.Model.Kanjidic
import Verif.Model.SplitByCodes
import Verif.Model.Radkdict
import Verif.Model.Zhuyin
import Verif.Model.Pinyin
import Verif.Model.PatternText
import Verif.Model.PlaceText
import Verif.Model.Readers
import Verif.Model.FilterRow
import Verif.Model.Dates
import Verif.Model.TreeEqual
import Verif.Model.SmartCache
/-!
# The unit tests of the repository, replayed on the model

These are tests of the model, not theorems: every `#guard` evaluates the model on the input of a test in cjktools/tests and compares with what the test expects.  No property depends on them.
They support the claim that the model computes what the code computes (the tests pass on the code, at least according to its authors).  Each check cites its test.

Not replayed: tests that need files of the cjkdata package (test_kanji_list.py, test_kanjidic.py, `test_get_cached` of test_radkdict.py, `from_hanzi` in test_pinyin_table.py), tests
skipped on Python 3, tests of `repr` and of stored fields, tests that give an argument of a wrong type.  For the pinyin tests the syllables of the table are those that occur.
-/

namespace Cjk.Checks
open Py Cjk

/-- Text as code points. -/
def str (s : String) : Str := s.toList.map Char.toNat

/-- The lines of a text, with their line ends. -/
def linesOf (s : String) : List Str :=
  let rec go (cur : Str) : Str → List Str
    | [] => if cur = [] then [] else [cur.reverse]
    | 10 :: s => (10 :: cur).reverse :: go [] s
    | c :: s => go (c :: cur) s
  go [] (str s)

/-- The result is this value. -/
def gives {α : Type} [DecidableEq α] (x : Except PyErr α) (a : α) : Bool :=
  match x with
  | .ok b => decide (b = a)
  | .error _ => false

/-- The result is a value of which this holds. -/
def givesSuch {α : Type} (x : Except PyErr α) (p : α → Bool) : Bool :=
  match x with
  | .ok b => p b
  | .error _ => false

/-- The exception is this one. -/
def raises {α : Type} (x : Except PyErr α) (e : PyErr) : Bool :=
  match x with
  | .ok _ => false
  | .error e' => decide (e' = e)

/-- Equality of sets. -/
def sameSet {α : Type} [DecidableEq α] (a b : List α) : Bool := a.all (fun x => decide (x ∈ b)) && b.all (fun x => decide (x ∈ a))


/-! ### test_scripts.py -/

-- test_fetch_scripts (test_scripts.py:28-38)
#guard gives (getScript .hiragana) (str "ぁあぃいぅうぇえぉおかがきぎくぐけげこごさざしじすずせぜそぞただちぢっつづてでとどなにぬねのはばぱひびぴふぶぷへべぺほぼぽまみむめもゃやゅゆょよらりるれろゎわゐゑをんゔゕゖ")
#guard gives (getScript .katakana) (str "ァアィイゥウェエォオカガキギクグケゲコゴサザシジスズセゼソゾタダチヂッツヅテデトドナニヌネノハバパヒビピフブプヘベペホボポマミムメモャヤュユョヨラリルレロヮワヰヱヲンヴヵヶ")
#guard toHiragana (str "ァアィイゥウェエォオカガキギクグケゲコゴサザシジスズセゼソゾタダチヂッツヅテデトドナニヌネノハバパヒビピフブプヘベペホボポマミムメモャヤュユョヨラリルレロヮワヰヱヲンヴヵヶ") = (str "ぁあぃいぅうぇえぉおかがきぎくぐけげこごさざしじすずせぜそぞただちぢっつづてでとどなにぬねのはばぱひびぴふぶぷへべぺほぼぽまみむめもゃやゅゆょよらりるれろゎわゐゑをんゔゕゖ")
#guard toKatakana (str "ぁあぃいぅうぇえぉおかがきぎくぐけげこごさざしじすずせぜそぞただちぢっつづてでとどなにぬねのはばぱひびぴふぶぷへべぺほぼぽまみむめもゃやゅゆょよらりるれろゎわゐゑをんゔゕゖ") = (str "ァアィイゥウェエォオカガキギクグケゲコゴサザシジスズセゼソゾタダチヂッツヅテデトドナニヌネノハバパヒビピフブプヘベペホボポマミムメモャヤュユョヨラリルレロヮワヰヱヲンヴヵヶ")
-- test_script_type, test_script_type_empty (test_scripts.py:40-48, 89-90)
#guard scriptType (str "AＡあア亜") = .ascii
#guard scriptType (str "Ａ") = .fullAscii
#guard scriptType (str "あ") = .hiragana
#guard scriptType (str "ア") = .katakana
#guard scriptType (str "亜") = .kanji
#guard scriptType [] = .unknown
-- test_contains_script (test_scripts.py:50-61)
#guard containsScript .hiragana (str "AＡあア亜")
#guard containsScript .kanji (str "AＡあア亜")
#guard containsScript .ascii (str "AＡあア亜")
#guard containsScript .katakana (str "AＡあア亜")
#guard !containsScript .ascii (str "Ａあア亜")
#guard !containsScript .kanji (str "AＡあア")
-- test_compare_kana (test_scripts.py:63-68)
#guard compareKana (str "Aあア亜") (str "Aアあ亜") = 0
#guard compareKana (str "あAア亜") (str "アあ亜A") ≠ 0
-- test_normalize_ascii, test_normalize_kana, test_normalize (test_scripts.py:70-81, 83-84, 86-87)
#guard normalizeAscii (str "ｋｌｉｎｇｏｎｓ　ｏｎ　ｔｈｅ　ｓｔａｒｂｏａｒｄ　ｂｏｗ！＠＃＆＊（）？，。；＋＝\"") = (str "klingons on the starboard bow!@#&*()?,.;+=\"")
#guard gives (normalizeKana (str "ｶｷｸｹｺ")) (str "カキクケコ")
#guard gives (normalize (str "Aあア阿ｱＡ")) (str "Aあア阿アA")
-- README.md:9-15
#guard sameSet (scriptTypes (str "素晴らしい")) [.kanji, .hiragana]
#guard scriptBoundaries (str "素晴らしい") = [(str "素晴"), (str "らしい")]

/-! ### test_alternations.py -/

-- test_canonical_forms, test_canonical_segment_forms, test_canonical_segment_forms_doubling, test_surface_forms, test_expand_long_vowels (test_alternations.py:25-31, 33-40, 42-48, 50-58, 60-67, 72-78, 80-87, 89-95, 97-104, 106-113)
#guard givesSuch (canonicalForms [(str "ゆっ"), (str "ぐり")]) (sameSet · [[(str "ゆい"), (str "くり")], [(str "ゆい"), (str "ぐり")], [(str "ゆち"), (str "くり")], [(str "ゆち"), (str "ぐり")], [(str "ゆり"), (str "くり")], [(str "ゆり"), (str "ぐり")], [(str "ゆき"), (str "くり")], [(str "ゆき"), (str "ぐり")], [(str "ゆつ"), (str "くり")], [(str "ゆつ"), (str "ぐり")], [(str "ゆく"), (str "くり")], [(str "ゆく"), (str "ぐり")], [(str "ゆっ"), (str "くり")], [(str "ゆっ"), (str "ぐり")]])
#guard givesSuch (canonicalSegmentForms (str "ばり") true false) (sameSet · [(str "ばり"), (str "はり")])
#guard givesSuch (canonicalSegmentForms (str "わ") true true) (sameSet · [(str "わ")])
#guard givesSuch (canonicalSegmentForms (str "さっ") true true) (sameSet · [(str "さい"), (str "さき"), (str "さく"), (str "さち"), (str "さっ"), (str "さつ"), (str "さり")])
#guard givesSuch (surfaceForms [(str "けい"), (str "かく")]) (sameSet · [[(str "けい"), (str "がく")], [(str "けい"), (str "かく")], [(str "けっ"), (str "がく")], [(str "けっ"), (str "かく")]])
#guard gives (expandLongVowels (str "すー")) (str "すう")
#guard gives (expandLongVowels (str "しー")) (str "しい")
#guard gives (expandLongVowels (str "かー")) (str "かあ")
-- test_canonical_forms, test_canonical_segment_forms, test_canonical_segment_forms_doubling, test_surface_forms, test_expand_long_vowels (test_alternations.py:25-31, 33-40, 42-48, 50-58, 60-67, 72-78, 80-87, 89-95, 97-104, 106-113)
#guard givesSuch (canonicalForms [(str "ユッ"), (str "グリ")]) (sameSet · [[(str "ユイ"), (str "クリ")], [(str "ユイ"), (str "グリ")], [(str "ユチ"), (str "クリ")], [(str "ユチ"), (str "グリ")], [(str "ユリ"), (str "クリ")], [(str "ユリ"), (str "グリ")], [(str "ユキ"), (str "クリ")], [(str "ユキ"), (str "グリ")], [(str "ユツ"), (str "クリ")], [(str "ユツ"), (str "グリ")], [(str "ユク"), (str "クリ")], [(str "ユク"), (str "グリ")], [(str "ユッ"), (str "クリ")], [(str "ユッ"), (str "グリ")]])
#guard givesSuch (canonicalSegmentForms (str "バリ") true false) (sameSet · [(str "バリ"), (str "ハリ")])
#guard givesSuch (canonicalSegmentForms (str "ワ") true true) (sameSet · [(str "ワ")])
#guard givesSuch (canonicalSegmentForms (str "サッ") true true) (sameSet · [(str "サイ"), (str "サキ"), (str "サク"), (str "サチ"), (str "サッ"), (str "サツ"), (str "サリ")])
#guard givesSuch (surfaceForms [(str "ケイ"), (str "カク")]) (sameSet · [[(str "ケイ"), (str "ガク")], [(str "ケイ"), (str "カク")], [(str "ケッ"), (str "ガク")], [(str "ケッ"), (str "カク")]])
#guard gives (expandLongVowels (str "スー")) (str "スウ")
#guard gives (expandLongVowels (str "シー")) (str "シイ")
#guard gives (expandLongVowels (str "カー")) (str "カア")
-- test_insert_duplicate_kanji, test_expand_long_vowels_mixed, test_expand_long_vowels_empty (test_alternations.py:117-122, 130-136, 138-144)
#guard insertDuplicateLoop 10 (str "孜々") = some (str "孜孜")
#guard gives (expandLongVowels (str "ABCキーさー白い")) (str "ABCキイさあ白い")
#guard gives (expandLongVowels []) []

/-! ### test_kana_table.py -/

-- test_get_coords, test_vowel_line, test_consonant_line, test_from_coords (test_kana_table.py:25-31, 33-43, 45-46, 48-52)
#guard gives (kanaTable.getCoords (str "ち")) ((str "た"), (str "い"))
#guard gives (kanaTable.getCoords (str "ぷ")) ((str "ぱ"), (str "う"))
#guard gives (kanaTable.getCoords (str "お")) ((str "あ"), (str "お"))
#guard kanaTable.toVowelLine (str "ご") = some (str "お")
#guard kanaTable.toVowelLine (str "も") = some (str "お")
#guard kanaTable.toVowelLine (str "さ") = some (str "あ")
#guard kanaTable.toVowelLine (str "あ") = some (str "あ")
#guard kanaTable.toVowelLine (str "ぎ") = some (str "い")
#guard kanaTable.toVowelLine (str "わ") = some (str "あ")
#guard kanaTable.toConsonantLine (str "わ") = none
#guard gives (kanaTable.fromCoords (str "か") (str "お")) (str "こ")
#guard gives (kanaTable.fromCoords (str "ぱ") (str "え")) (str "ぺ")
/-- The decompositions (Unicode character database) of the characters that occur in the tests, and the classes of the two voicing marks. -/
def ucd : Ucd where
  decomp := fun c => match c with
    | 0xe7 => [0x63, 0x327]
    | 0x3056 => [0x3055, 0x3099]
    | 0x3058 => [0x3057, 0x3099]
    | 0x3060 => [0x305f, 0x3099]
    | 0x3070 => [0x306f, 0x3099]
    | 0x3071 => [0x306f, 0x309a]
    | 0x3073 => [0x3072, 0x3099]
    | 0x3074 => [0x3072, 0x309a]
    | 0x3077 => [0x3075, 0x309a]
    | 0x307a => [0x3078, 0x309a]
    | 0x307c => [0x307b, 0x3099]
    | 0x307d => [0x307b, 0x309a]
    | 0x3094 => [0x3046, 0x3099]
    | 0x30ba => [0x30b9, 0x3099]
    | 0x30d1 => [0x30cf, 0x309a]
    | 0x30d4 => [0x30d2, 0x309a]
    | 0x30d7 => [0x30d5, 0x309a]
    | 0x30da => [0x30d8, 0x309a]
    | 0x30dd => [0x30db, 0x309a]
    | _ => [c]
  ccc := fun c => if c = 0x3099 ∨ c = 0x309a then 8 else if c = 0x327 then 202 else 0
-- test_is_voiced (test_kana_table.py:54-72)
#guard isVoicedText ucd (str "ば")
#guard isVoicedText ucd (str "だ")
#guard isVoicedText ucd (str "ゔ")
#guard isVoicedText ucd (str "ざ")
#guard isVoicedText ucd (str "ぱ")
#guard isVoicedText ucd (str "ぽ")
#guard isVoicedText ucd (str "ゔ")
#guard isVoicedText ucd (str "じ")
#guard isVoicedText ucd (str "ま゙")
#guard !isVoicedText ucd (str "は")
#guard !isVoicedText ucd (str "し")
#guard !isVoicedText ucd (str "も")
#guard !isVoicedText ucd (str "に")
#guard !isVoicedText ucd (str "ち")
#guard !isVoicedText ucd (str "ゃ")
-- test_is_semivoiced (test_kana_table.py:74-81)
#guard isSemivoicedText ucd (str "ぱ")
#guard isSemivoicedText ucd (str "ぽ")
#guard isSemivoicedText ucd (str "ぺ")
#guard isSemivoicedText ucd (str "ぴ")
#guard isSemivoicedText ucd (str "ぷ")
#guard isSemivoicedText ucd (str "パ")
#guard isSemivoicedText ucd (str "ペ")
#guard isSemivoicedText ucd (str "ピ")
#guard isSemivoicedText ucd (str "プ")
#guard isSemivoicedText ucd (str "ポ")
#guard isSemivoicedText ucd (str "ぽ")
#guard !isSemivoicedText ucd (str "ま")
#guard !isSemivoicedText ucd (str "か")
#guard !isSemivoicedText ucd (str "に")
#guard !isSemivoicedText ucd (str "じ")
#guard !isSemivoicedText ucd (str "ば")
#guard !isSemivoicedText ucd (str "ぼ")
#guard !isSemivoicedText ucd (str "び")
#guard !isSemivoicedText ucd (str "サ")
#guard !isSemivoicedText ucd (str "ツ")
#guard !isSemivoicedText ucd (str "ズ")
#guard !isSemivoicedText ucd (str "シ")
#guard !isSemivoicedText ucd (str "ホ")
#guard !isSemivoicedText ucd (str "ハ")
#guard !isSemivoicedText ucd (str "A")
#guard !isSemivoicedText ucd (str "B")
#guard !isSemivoicedText ucd (str "C")
#guard !isSemivoicedText ucd (str "ç")
#guard !isSemivoicedText ucd (str "ぼ")

/-! ### test_maps.py -/

-- test_chain_dicts (test_maps.py:22-32); floats as tenths
#guard let r := chainMapping [[(1, 10), (2, 20), (3, 30)], [(10, 15), (20, 35), (30, 15)]] [0, 1]; givesSuch r.2 (fun i => decide (r.1[i]? = some [(1, 15), (2, 35), (3, 15)]))
-- test_invert_dict (test_maps.py:34-41)
#guard invertMapping ([(1, [1, 2, 3]), (2, [1, 3])] : Dict Nat (List Nat)) = [(1, [1, 2]), (2, [1]), (3, [1, 2])]
#guard gives (invertInjectiveMapping ([(1, (str "a")), (2, (str "b")), (3, (str "c"))] : Dict Nat Str)) [((str "a"), 1), ((str "b"), 2), ((str "c"), 3)]
-- test_map_dict (test_maps.py:43-51)
#guard gives (mapDict (fun x : Nat => .ok (x * x)) [((str "a"), 1), ((str "b"), 2), ((str "c"), 3)]) [((str "a"), 1), ((str "b"), 4), ((str "c"), 9)]
#guard mapDictInPlace (fun x : Nat => .ok (x * x)) [((str "a"), 1), ((str "b"), 2), ((str "c"), 3)] = ([((str "a"), 1), ((str "b"), 4), ((str "c"), 9)], none)
-- test_merge_dicts (test_maps.py:53-70)
/-- The merged dictionary of the test. -/
def merged : Dict Nat Str := mergeDicts [[(1, (str "cat")), (2, (str "dog"))], [(1, (str "canine")), (3, (str "bird"))]]
#guard sameSet ((Dict.get? merged 1).getD []) (str "catine")
#guard sameSet ((Dict.get? merged 2).getD []) (str "dog")
#guard sameSet ((Dict.get? merged 3).getD []) (str "bird")
#guard mergeDicts [([(1, (str "cat")), (2, (str "dog"))] : Dict Nat Str), ([(1, (str "cat")), (2, (str "dog"))] : Dict Nat Str), ([(1, (str "cat")), (2, (str "dog"))] : Dict Nat Str)] = ([(1, (str "cat")), (2, (str "dog"))] : Dict Nat Str)
-- PartialMapTestCase (test_maps.py:73-115)
#guard gives (partialMap (fun b : Option Nat => b.isSome && decide (b ≠ some 0)) (fun _ => .ok none) (List.range 10)) ([], List.range 10)
#guard gives (partialMap (fun b : Nat => decide (b ≠ 0)) .ok ((List.range 10).map (· + 1))) ((List.range 10).map (· + 1), [])
#guard gives (partialMap (fun b : Option Nat => b.isSome && decide (b ≠ some 0)) (fun x => .ok (if x % 2 = 0 then none else some (x * 10))) ((List.range 10).map (· + 10))) ([some 110, some 130, some 150, some 170, some 190], [10, 12, 14, 16, 18])
-- test_multi_dict (test_maps.py:119-125)
#guard multiDict [((str "a"), 2), ((str "b"), 3), ((str "a"), 4)] = [((str "a"), [2, 4]), ((str "b"), [3])]
#guard multiDict ([] : List (Nat × Nat)) = []

/-! ### test_auto_format.py -/

/-- EDICT_SAMPLE, JPLACES_SAMPLE (test_auto_format.py:23-28, 30-34). -/
def edictSample : List Str := linesOf "　？？？ /EDICT, EDICT_SUB(P), EDICT2 Japanese-English Electronic Dictionary Files/Copyright Electronic Dictionary Research & Development Group - 2011/Created: 2011-07-03/\n齧歯目 [げっしもく] /(n) (1) Rodentia/(adj-no) (2) rat-like/rodential/\n齲歯 [うし] /(n,adj-no) cavity/tooth decay/decayed tooth/caries/\n齲歯 [むしば] /(n,adj-no) cavity/tooth decay/decayed tooth/caries/\n"
/-- EDICT_SAMPLE, JPLACES_SAMPLE (test_auto_format.py:23-28, 30-34). -/
def jplacesSample : List Str := linesOf "？？？？ /J_PLACES  A file of Japanese place names compiled from the files from the www.postal.mpt.go.jp site, Dec 1998 version/\n秋葉原 [あきはばら] /Akihabara (loc)/\n上野 [うえの] /Ueno (loc)/\n"
-- test_formats, test_edict, test_edict_senses (test_auto_format.py:44-56, 58-79, 81-94)
#guard givesSuch (detectFormat edictSample.head!) (fun f => f.name = (str "edict"))
#guard givesSuch (detectFormat jplacesSample.head!) (fun f => f.name = (str "edict"))
#guard (match detectFormat (str "BAD HEADER は BAD HEADER") with | .error e => e = .unknownFormatError | .ok _ => false)
#guard givesSuch (loadDictionary edictSample) (fun d => d.length = 2)
#guard givesSuch (loadDictionary edictSample) (fun d => match Dict.get? d (str "齧歯目") with | some e => decide (e.readings = [(str "げっしもく")] ∧ e.senses = [(str "(n) (1) Rodentia"), (str "(adj-no) (2) rat-like"), (str "rodential")]) | none => false)
#guard givesSuch (loadDictionary edictSample) (fun d => match Dict.get? d (str "齲歯") with | some e => decide (e.readings = [(str "うし"), (str "うし"), (str "うし"), (str "うし"), (str "むしば"), (str "むしば"), (str "むしば"), (str "むしば")] ∧ e.senses = [(str "(n,adj-no) cavity"), (str "tooth decay"), (str "decayed tooth"), (str "caries"), (str "(n,adj-no) cavity"), (str "tooth decay"), (str "decayed tooth"), (str "caries")]) | none => false)
#guard givesSuch (loadDictionary edictSample) (fun d => match Dict.get? d (str "齧歯目") with | some e => gives e.sensesByReading [((str "げっしもく"), [(str "(n) (1) Rodentia"), (str "(adj-no) (2) rat-like"), (str "rodential")])] | none => false)

/-! ### test_bilingual_dict.py -/

-- testUpdateDefaultPolicy, testClashPolicyOverwrite, testClashPolicyMerge (test_bilingual_dict.py:25-34, 36-45, 47-55), with entries instead of numbers
#guard gives (bilingualUpdate [((str "a"), ⟨(str "2"), [], []⟩)] [((str "a"), ⟨(str "4"), [], []⟩), ((str "b"), ⟨(str "1"), [], []⟩)] .overwrite) [((str "a"), ⟨(str "4"), [], []⟩), ((str "b"), ⟨(str "1"), [], []⟩)]
#guard raises (bilingualUpdate [((str "a"), ⟨(str "2"), [], []⟩)] [((str "a"), ⟨(str "4"), [], []⟩), ((str "b"), ⟨(str "1"), [], []⟩)] .merge) .notYetImplementedError

/-! ### test_split_by_codes.py -/

/-- ENAMDICT_SAMPLE, EDICT_SAMPLE (test_split_by_codes.py:22-26, 28-32). -/
def enamdictSample : List Str := linesOf "？？？？ /ENAMDICT - Japanese Proper Name Dictionary File/Copyright Electronic Dictionary Research & Development Group, Monash University, 2007/Created: 2011-07-03/\n秋葉橋 [あきはばし] /Akihabashi (p)/\n秋葉橋 [あきばばし] /Akibabashi (p)/\n"
/-- ENAMDICT_SAMPLE, EDICT_SAMPLE (test_split_by_codes.py:22-26, 28-32). -/
def codedSample : List Str := linesOf "　？？？ /EDICT, EDICT_SUB(P), EDICT2 Japanese-English Electronic Dictionary Files/Copyright Electronic Dictionary Research & Development Group - 2011/Created: 2011-07-03/\n素晴らしい [すばらしい] /(adj-i) wonderful/splendid/magnificent/(P)/\n素晴らしい [すんばらしい] /(adj-i) wonderful/splendid/magnificent/\n"
-- test_enamdict, test_edict (test_split_by_codes.py:36-43, 45-57)
#guard givesSuch (loadCodedDictionary id enamdictSample) (fun c => ((Dict.get? c.coded (str "p")).bind (Dict.get? · (str "秋葉橋"))).isSome && (Dict.get? ((Dict.get? c.coded (str "s")).getD []) (str "秋葉橋")).isNone)
#guard givesSuch (loadCodedDictionary id codedSample) (fun c => match (Dict.get? c.coded (str "adj-i")).bind (Dict.get? · (str "素晴らしい")) with | some r => (match c.store[r]? with | some e => decide (e.readings.head? = some (str "すばらしい") ∧ e.readings.getLast? = some (str "すんばらしい")) | none => false) | none => false)

/-! ### test_radkdict.py -/

-- test_fetch_radicals (test_radkdict.py:39-45)
#guard givesSuch (radkDict (linesOf "\n$ 一 1\n偏\n$ ｜ 1\n偏\n$ 化 2 js01\n偏\n$ 冂 2\n偏\n$ 尸 3\n偏\n$ 戸 4\n偏\n$ 冊 5\n偏\n")) (fun d => match Dict.get? d.dict 20559 with | some rs => sameSet rs [some (str "一"), some (str "｜"), some (str "化"), some (str "冂"), some (str "尸"), some (str "戸"), some (str "冊")] | none => false)

/-! ### test_zhuyin_table.py -/

/-- The table, `setUp` (test_zhuyin_table.py:23-28). -/
def zhuyinSample : List Str := linesOf "ㄔㄚ cha\nㄅㄟ bei\nㄐㄧㄥ jing\nㄉㄚ da\nㄒㄩㄝ xue"
-- test_zhuyin_to_pinyin, test_pinyin_to_zhuyin, test_pinyin_parsing (test_zhuyin_table.py:30-34, 36-40, 42-48)
#guard givesSuch (zhuyinToPinyinTable zhuyinSample) (fun d => Dict.get? d (str "ㄔㄚ") = some (str "cha"))
#guard givesSuch (pinyinToZhuyinTable zhuyinSample) (fun d => Dict.get? d (str "cha") = some (str "ㄔㄚ"))
#guard givesSuch (getAllPinyin zhuyinSample) (fun a => !isPinyin id (longestFirst a) (str "gdaymatehowsitgoing") && isPinyin id (longestFirst a) (str "beijingdaxue"))

/-! ### test_pinyin_table.py -/

/-- The syllables that occur in the tests. -/
def syllables : List Str := longestFirst [(str "bao"), (str "li"), (str "quan"), (str "cheng"), (str "zhe"), (str "wei"), (str "wang"), (str "lü"), (str "wo"), (str "shang"), (str "da"), (str "xue"), (str "yi"), (str "ge"), (str "jin"), (str "xu"), (str "qi"), (str "bu"), (str "xia"), (str "wu"), (str "hao"), (str "lai"), (str "tai"), (str "r")]
-- test_ascii_pinyin (test_pinyin_table.py:29-35)
#guard gives (fromAscii asciiLower syllables (str "bao1li2 quan3")) (str "bāolíqǔan")
#guard gives (fromAscii asciiLower syllables (str "cheng2zhewei2wang2")) (str "chéngzhewéiwáng")
#guard gives (fromAscii asciiLower syllables (str "lü1")) (str "lǖ")
-- test_pinyin_segmenter (test_pinyin_table.py:37-66)
#guard gives (segmentPinyin asciiLower syllables (str "woshangdaxue")) [((str "wo"), 0), ((str "shang"), 0), ((str "da"), 0), ((str "xue"), 0)]
#guard gives (segmentPinyin asciiLower syllables (str "wo1shang2da3xue4")) [((str "wo"), 1), ((str "shang"), 2), ((str "da"), 3), ((str "xue"), 4)]
#guard gives (segmentPinyin asciiLower syllables (str "cheng2zhewei2wang2")) [((str "cheng"), 2), ((str "zhe"), 0), ((str "wei"), 2), ((str "wang"), 2)]
#guard gives (segmentPinyin asciiLower syllables (str "yi1ge4jin4r")) [((str "yi"), 1), ((str "ge"), 4), ((str "jin"), 4), ((str "er"), 0)]
#guard gives (segmentPinyin asciiLower syllables (str "yi1lü4xu")) [((str "yi"), 1), ((str "lü"), 4), ((str "xu"), 0)]
#guard gives (segmentPinyin asciiLower syllables (str "shangqi3bu4")) [((str "shang"), 0), ((str "qi"), 3), ((str "bu"), 4)]
-- test_garden_path_pinyin (test_pinyin_table.py:68-80), marked as a known failure: not what the test expects
#guard !gives (segmentPinyin asciiLower (longestFirst [(str "de"), (str "den"), (str "ni"), (str "niu"), (str "r")]) (str "deniu2")) [((str "de"), 0), ((str "niu"), 2)]
-- test_strip_tones (test_pinyin_table.py:82-93)
#guard gives (stripTones asciiLower syllables (str "xia4wu3hao3")) (str "xiawuhao")
#guard gives (stripTones asciiLower syllables (str "xia4bu4lai2tai2")) (str "xiabulaitai")
#guard gives (stripTones asciiLower syllables (str "Xia4bu4Lai2tai2")) (str "xiabulaitai")
#guard gives (stripTones asciiLower syllables (str "yi1lü4")) (str "yilü")

/-! ### test_place.py -/

-- test_formatting (test_place.py:37-52)
/-- The hierarchy of the test. -/
def australia : Place := (Place.node (str "Australia") (some (str "オーストラリア")) none (.cons (str "Melbourne") (Place.node (str "Melbourne") (some (str "メルボルン")) none (.cons (str "St_Kilda") (Place.node (str "St_Kilda") (some (str "セーントキルダ")) none .nil) (.cons (str "Collingwood") (Place.node (str "Collingwood") (some (str "コーリングウード")) none .nil) .nil))) (.cons (str "Sydney") (Place.node (str "Sydney") (some (str "シドニー")) none (.cons (str "Anja's_place") (Place.node (str "Anja's_place") none none .nil) .nil)) .nil)))
-- no aliases, so `repr` of a list is not used
/-- It, as `from_file` builds it. -/
def australiaStore : PStore := [⟨(str "Australia"), some (str "オーストラリア"), none, [((str "Melbourne"), 1), ((str "Sydney"), 4)]⟩,
  ⟨(str "Melbourne"), some (str "メルボルン"), none, [((str "St_Kilda"), 2), ((str "Collingwood"), 3)]⟩,
  ⟨(str "St_Kilda"), some (str "セーントキルダ"), none, []⟩,
  ⟨(str "Collingwood"), some (str "コーリングウード"), none, []⟩,
  ⟨(str "Sydney"), some (str "シドニー"), none, [((str "Anja's_place"), 5)]⟩,
  ⟨(str "Anja's_place"), none, none, []⟩]
#guard gives (placeFromFile (placeDump id australia)) australiaStore
#guard raises (placeInit (str "Anja's place") none none) .valueError

/-! ### test_tree.py -/

-- test_prune (test_tree.py:44-48)
/-- The tree of the test. -/
def fruit : Heap := let h := (newNode [] (str "fruit") []).1; let h := (newNode h (str "lemon") []).1; let h := (newNode h (str "strawberry") []).1; addChild (addChild h 0 1) 0 2
#guard (match treeCopy fruit 20 0 with | some (.ok (h, r)) => (match treePrune (fun l _ => !l.contains 121) h 20 r with | some (.ok (h, some r)) => decide ((h.node r).label = (str "fruit")) && decide ((h.node r).children.length = 1) && (h.node r).children.all (fun kv => nodeEq h 20 kv.2 1 = some true) | _ => false) | _ => false)

/-! ### test_smart_cache.py -/

/-- Numbers, written in unary with an end mark; 0 stands for `None` and for `()` and `{}`. -/
def numbers : PickleObjects where
  Obj := Nat
  isNone := fun o => decide (o = 0)
  eq := fun a b => .ok (decide (a = b))
  dump := fun o => (List.replicate o 1 ++ [2], none)
  load := fun b => match b.dropWhile (· == 1) with
    | 2 :: rest => .ok ((b.takeWhile (· == 1)).length, rest)
    | _ => .error .unpicklingError

/-- Names of the files, `setUp` (test_smart_cache.py:27-35). -/
def depFile : Path := str "tmp_dep_file"
/-- Names of the files, `setUp` (test_smart_cache.py:27-35). -/
def cacheFile : Path := str "tmp_cache_file"
/-- The dependency exists. -/
def disk0 (now : Nat) : Disk := ⟨FS.write (fun _ => none) depFile [1] now, now⟩
/-- `factory_method1` (test_smart_cache.py:37-42). -/
def factory : DiskMethod numbers := fun _ (x : Nat) _ => .ok (α := Nat) (x * 3)
-- test_proxy_method (test_smart_cache.py:71-96): the method runs, does not run, and runs again after a change of the dependency
#guard
  let r1 := diskProxy numbers id factory cacheFile [.file depFile] (disk0 5) (2 : Nat) (0 : Nat)
  let r2 := diskProxy numbers id factory cacheFile [.file depFile] r1.disk (2 : Nat) (0 : Nat)
  let r3 := diskProxy numbers id factory cacheFile [.file depFile] ⟨r2.disk.fs.write depFile [1, 2] 6, 6⟩ (2 : Nat) (0 : Nat)
  gives (α := Nat) r1.result 6 && r1.called && gives (α := Nat) r2.result 6 && !r2.called && gives (α := Nat) r3.result 6 && r3.called
-- test_paired_cache (test_smart_cache.py:44-69)
#guard
  let t0 := tryCache numbers id (disk0 5).fs cacheFile (0 : Nat) (0 : Nat) [.file depFile]
  let fs := (disk0 5).fs.write cacheFile (storedBytes numbers (30 : Nat) (0 : Nat) (0 : Nat)).1 5
  let t1 := tryCache numbers id fs cacheFile (0 : Nat) (0 : Nat) [.file depFile]
  let t2 := tryCache numbers id (fs.write depFile [1, 2] 6) cacheFile (0 : Nat) (0 : Nat) [.file depFile]
  gives (α := Option Nat) t0 none && gives (α := Option Nat) t1 (some 30) && gives (α := Option Nat) t2 none


/-! ### test_tatoeba.py -/

/-- cjktools/tests/resources/sample_data/sentences_00.csv -/
def sentences00 : List Str := linesOf "6381\tfra\tJ'ai fait réparer mon vélo par mon frère.\n29390\teng\tRole-playing video games are time consuming.\n36809\teng\tWhat's your job?\n46235\teng\tThe good driver wove his way through the traffic.\n54432\teng\tWhat line of work are you in?\n62093\teng\tIt's fifteen minutes' walk from here to the campus.\n68807\teng\tThere is a good argument for dismissing you.\n82526\tjpn\t忙しくて会社にいるんだ。\n93620\tjpn\t彼女は１時間以内に戻ります。\n109744\tjpn\t彼は英語が苦手だが、数学では誰にも劣らない。\n112733\tjpn\t彼はその時大学を卒業したてであった。\n156245\tjpn\t私は自分の自転車を弟に直させた。\n192227\tjpn\tロールプレイングのテレビゲームは時間を食う。\n199398\tjpn\tどんな職業に就いていますか。\n208975\tjpn\tその上手な運転手は車の列を縫うように車を走らせた。\n224758\tjpn\tここから学校の構内まで歩いて１５分だ。\n231440\tjpn\tあなたを解雇する十分な理由があります。\n258289\teng\tI had my bicycle fixed by my brother.\n290943\teng\tHe was then fresh from college.\n293946\teng\tHe is poor at English but second to none in mathematics.\n310087\teng\tShe will return within an hour.\n321190\teng\tI'm tied up at the office.\n410787\teng\tWhat's your occupation?\n508870\tpol\tJestem uwiązany w pracy.\n723598\thun\tInnen az iskola épületéig gyalog 15 perc.\n817971\tdeu\tIch habe mein Fahrrad von meinem Bruder reparieren lassen.\n2031040\teng\tIt's a fifteen minute walk from here to the campus.\n2031042\teng\tIt takes fifteen minutes to walk from here to the campus.\n2172488\trus\tОна вернется в течение часа.\n"
/-- cjktools/tests/resources/sample_data/sentences_detailed_00.csv -/
def sentencesdetailed00 : List Str := linesOf "6381\tfra\tJ'ai fait réparer mon vélo par mon frère.\tmrtaistoi\t\\N\t2015-03-06 04:16:31\n29390\teng\tRole-playing video games are time consuming.\tDejo\t\\N\t2012-08-20 03:09:03\n36809\teng\tWhat's your job?\tCK\t\\N\t2010-07-05 15:33:44\n46235\teng\tThe good driver wove his way through the traffic.\t\\N\t\\N\t\\N\n54432\teng\tWhat line of work are you in?\tCK\t\\N\t2011-02-24 19:07:06\n62093\teng\tIt's fifteen minutes' walk from here to the campus.\tCK\t\\N\t2013-12-07 10:44:35\n68807\teng\tThere is a good argument for dismissing you.\t\\N\t\\N\t2013-12-02 12:49:30\n82526\tjpn\t忙しくて会社にいるんだ。\t\\N\t\\N\t\\N\n93620\tjpn\t彼女は１時間以内に戻ります。\t\\N\t\\N\t\\N\n109744\tjpn\t彼は英語が苦手だが、数学では誰にも劣らない。\t\\N\t\\N\t\\N\n112733\tjpn\t彼はその時大学を卒業したてであった。\t\\N\t\\N\t\\N\n156245\tjpn\t私は自分の自転車を弟に直させた。\t\\N\t\\N\t\\N\n192227\tjpn\tロールプレイングのテレビゲームは時間を食う。\t\\N\t\\N\t\\N\n199398\tjpn\tどんな職業に就いていますか。\t\\N\t\\N\t\\N\n208975\tjpn\tその上手な運転手は車の列を縫うように車を走らせた。\t\\N\t\\N\t\\N\n224758\tjpn\tここから学校の構内まで歩いて１５分だ。\t\\N\t\\N\t\\N\n231440\tjpn\tあなたを解雇する十分な理由があります。\t\\N\t\\N\t\\N\n258289\teng\tI had my bicycle fixed by my brother.\tCK\t\\N\t2010-10-07 15:55:17\n290943\teng\tHe was then fresh from college.\tCM\t\\N\t2012-03-03 08:53:00\n293946\teng\tHe is poor at English but second to none in mathematics.\t\\N\t\\N\t\\N\n310087\teng\tShe will return within an hour.\tCK\t\\N\t2010-12-09 08:34:46\n321190\teng\tI'm tied up at the office.\tCK\t\\N\t2010-11-13 13:20:56\n410787\teng\tWhat's your occupation?\tCK\t2010-06-24 14:20:10\t2010-06-24 14:20:28\n508870\tpol\tJestem uwiązany w pracy.\tzipangu\t2010-09-12 03:17:43\t2010-09-12 03:17:43\n723598\thun\tInnen az iskola épületéig gyalog 15 perc.\tFarkas\t2011-01-23 21:15:09\t2011-01-23 21:15:09\n817971\tdeu\tIch habe mein Fahrrad von meinem Bruder reparieren lassen.\tPfirsichbaeumchen\t2011-03-30 21:03:41\t2012-06-25 21:52:02\n2031040\teng\tIt's a fifteen minute walk from here to the campus.\tCK\t2012-11-23 13:19:05\t2012-11-23 13:19:05\n2031042\teng\tIt takes fifteen minutes to walk from here to the campus.\tCK\t2012-11-23 13:19:24\t2012-11-23 13:19:24\n2172488\trus\tОна вернется в течение часа.\tsharptoothed\t2013-01-28 13:42:35\t2013-01-28 13:42:35\n"
/-- cjktools/tests/resources/sample_data/links_00.csv -/
def links00 : List Str := linesOf "6381\t156245\n6381\t258289\n6381\t817971\n29390\t192227\n36809\t199398\n46235\t208975\n54432\t199398\n62093\t224758\n62093\t2031040\n68807\t231440\n82526\t321190\n82526\t508870\n93620\t310087\n93620\t2172488\n109744\t293946\n112733\t290943\n156245\t6381\n156245\t258289\n192227\t29390\n199398\t36809\n199398\t54432\n199398\t410787\n208975\t46235\n224758\t62093\n224758\t723598\n224758\t2031040\n224758\t2031042\n231440\t68807\n258289\t6381\n258289\t156245\n290943\t112733\n293946\t109744\n310087\t93620\n310087\t2172488\n321190\t82526\n410787\t199398\n508870\t82526\n723598\t224758\n2031040\t62093\n2031040\t224758\n2031042\t224758\n2172488\t93620\n2172488\t310087\n"
/-- cjktools/tests/resources/sample_data/jpn_indices_00.csv -/
def jpnindices00 : List Str := linesOf "82526\t321190\t忙しい{忙しくて} 会社 に 居る(いる)[01]{いる} のだ{んだ}\n93620\t310087\t彼女[01] は|1 一時間{１時間} 以内 に 戻る{戻ります}\n109744\t293946\t彼(かれ)[01] は|1 英語 が 苦手 だ が[03] 数学 で は|1 誰にも 劣る{劣らない}\n112733\t290943\t彼(かれ)[01] は|1 其の[01]{その} 時(とき)  大学 を 卒業[01] 為る(する){し} 立て(たて)[02]{たて}~ である{であった}\n156245\t258289\t私(わたし)[01] は|1 自分[01] の 自転車 を 弟[01] に 直す[02]{直させた}\n192227\t29390\tロールプレイング~ の テレビゲーム は|1 時間 を 食う[07]\n199398\t54432\tどんな 職業 に 就く[02]{就いています} か\n208975\t46235\t其の[01]{その} 上手(じょうず)[01]{上手な} 運転手 は|1 車 の 列 を 縫う[02] 様(よう){ように} 車 を 走らせる{走らせた}\n224758\t62093\t此処[01]{ここ} から 学校 の 構内 迄{まで} 歩く{歩いて} 分(ふん) だ\n231440\t68807\t貴方(あなた)[01]{あなた} を 解雇 為る(する){する} 十分(じゅうぶん)[01]{十分な} 理由 が[01] 有る{あります}\n"
/-- cjktools/tests/resources/sample_data/je_edict_00 -/
def jeedict00 : List Str := linesOf "　？？？ /EDICT, EDICT_SUB(P), EDICT2 Japanese-English Electronic Dictionary Files/Copyright Electronic Dictionary Research & Development Group - 2013/Created: 2013-06-14/\nか /(prt) (1) indicates question (sentence end)/(2) indicates choice, doubt, etc./(P)/\nから /(prt) (1) from (e.g. time, place, numerical quantity)/since/(2) from (originator)/(3) because/(4) out of (constituent, part)/(5) through (e.g. window, vestibule)/(6) after/since (following te-form verb)/(P)/\nが /(prt) (1) indicates sentence subject (occasionally object)/(2) indicates possessive (esp. in literary expressions)/(prt,conj) (3) but/however/still/and/(P)/\nだ /(aux) (1) be/is/(aux-v) (2) indicates past or completed action/(3) indicates light imperative/(P)/\nで /(prt) (1) indicates location of action/at/in/(2) indicates time of action/(3) indicates means of action/cause of effect/by/(conj) (4) and then/so/(aux) (5) indicates continuing action/(prt) (6) (ksb:) indicates certainty, emphasis, etc./(P)/\nである /(v5r-i) to be (formal, literary)/\nどんな /(adj-pn) (1) what/what kind of/(2) (with -temo, demo, etc.) any(body, thing, means, etc.)/(P)/\nに /(prt) indicates such things as location of person or thing, location of short-term action, etc./(P)/\nの /(prt) (1) indicates possessive/(2) nominalizes verbs and adjectives/(3) substitutes for \"ga\" in subordinate phrases/(4) (at sentence-end, falling tone) indicates a confident conclusion/(5) (fem) (at sentence-end) indicates emotional emphasis/(6) (at sentence-end, rising tone) indicates question/(P)/\nのだ /(exp) the expectation is that .../the reason is that .../the fact is that .../it is that .../(P)/\nを /(prt) (1) indicates direct object of action/(2) indicates subject of causative expression/(3) indicates an area traversed/(4) indicates time (period) over which action takes place/(5) indicates point of departure or separation of action/(6) indicates object of desire, like, hate, etc./(P)/\nテレビゲーム /(n) video game (wasei: television game)/\nロールプレイング /(n) (comp) role-playing/roleplaying/\n以内 [いない] /(n,n-suf) within/inside of/less than/(P)/\n為る [する] /(vs-i) (1) (uk) to do/(2) (uk) to cause to become/to make (into)/to turn (into)/(3) (uk) to serve as/to act as/to work as/(4) (uk) to wear (clothes, a facial expression, etc.)/(5) (uk) to judge as being/to view as being/to think of as/to treat as/to use as/(6) (uk) to decide on/to choose/(vs-i,vi) (7) (uk) to be sensed (of a smell, noise, etc.)/(8) (uk) to be (in a state, condition, etc.)/(9) (uk) to be worth/to cost/(10) (uk) to pass (of time)/to elapse/(suf,vs-i) (11) (uk) verbalizing suffix (applies to nouns noted in this dictionary with the part of speech \"vs\")/(aux-v,vs-i) (12) (uk) creates a humble verb (after a noun prefixed with \"o\" or \"go\")/(13) (uk) to be just about to/to be just starting to/to try to/to attempt to/(P)/\n為る [なる] /(v5r,vi) (1) (uk) to become/to get/to grow/to be/to reach/to attain/(2) to result in/to prove to be/(3) to consist of/to be composed of/(4) to succeed/to be complete/(5) to change into/to be exchanged for/(6) to play a role/(7) to be promoted (shogi)/(v5r) (8) (hon) to do .../\n一時間 [いちじかん] /(n) one hour/\n運転手 [うんてんしゅ] /(n) driver/chauffeur/(P)/\n英語 [えいご] /(n,adj-no) English (language)/(P)/\n会社 [かいしゃ] /(n) (1) company/corporation/(2) workplace/(P)/\n解雇 [かいこ] /(n,vs) discharge/dismissal/(P)/\n学校 [がっこう] /(n) school/(P)/\n貴方 [あなた] /(pn,adj-no) (1) (uk) (pol) you (referring to someone of equal or lower status)/(2) dear (what a wife calls a husband)/(P)/\n貴方 [あんた] /(pn,adj-no) (uk) you (familiar form of anata)/\n貴方 [きほう] /(n) (1) (hon) your home/your residence/(pn,adj-no) (2) (hon) you (referring to one's equal; epistolary style)/\n居る [いる] /(v1,vi) (1) (uk) to be (of animate objects)/to exist/(2) to stay/(v1,aux-v) (3) (after the -te form of a verb) verb indicating continuing action or state (i.e. to be ..ing, to have been ..ing)/(P)/\n居る [おる] /(v5r,vi) (1) (uk) (hum) to be (animate)/to be/to exist/(v5r,aux-v) (2) (after the -te form of a verb) verb indicating continuing action or state (i.e. to be ..ing)/(3) (after -masu base of verb) indicates contempt or disdain for another's actions/(P)/\n苦手 [にがて] /(adj-na,n) (1) poor (at)/weak (in)/not very good (at)/(2) dislike (of)/(P)/\n構内 [こうない] /(n,adj-no) premises/grounds/campus/in-house/(P)/\n此処 [ここ] /(n) (1) (uk) here (place physically close to the speaker, place pointed by the speaker while explaining)/this place/(2) these last (followed by a duration noun and a past sentence: time period before the present time of the speaker)/(3) these next ... (followed by a duration noun and a non past sentence: time period after the present time of the speaker)/the next .../(P)/\n私 [あたい] /(pn,adj-no) (fem) I/me/\n私 [あたくし] /(pn,adj-no) (fem) I/me/\n私 [あたし] /(pn,adj-no) (fem) I/me/(P)/\n私 [あっし] /(pn,adj-no) I (mainly used by working men)/myself/\n私 [あて] /(pn,adj-no) (fem) I/me/\n私 [し] /(n) private affairs/personal matter/\n私 [わい] /(pn) (1) (arch) (ksb:) I/me/(2) you (used toward people of equal or lower status)/\n私 [わし] /(pn,adj-no) (uk) I/me (used by elderly males)/\n私 [わたい] /(n) (arch) (ktb:) I/me/\n私 [わたくし] /(pn,adj-no) (1) I/me/(n,adj-no) (2) private affairs/personal matter/secrecy/(3) selfishness/(P)/\n私 [わたし] /(pn,adj-no) I/me/(P)/\n私 [わっし] /(pn,adj-no) I (mainly used by working men)/myself/\n私 [わっち] /(pn,adj-no) I (mainly used by working men)/myself/\n私 [わて] /(pn) (arch) (ksb:) I/me/\n私 [わらわ] /(pn,adj-no) (arch) (hum) (fem) I/me/\n時 [じ] /(suf) (1) hour/o'clock/(suf,adj-no) (2) (specified) time/when .../during .../\n時 [とき] /(n) (1) time/hour/moment/(2) occasion/case/(3) chance/opportunity/season/(4) the times/the age/the day/(5) (ling) tense/(P)/\n時 [どき] /(n-suf) time for -/time of -/- time/(suitable) time to -/\n時間 [じかん] /(n-adv,n) (1) time/(ctr) (2) hours/(P)/\n自転車 [じてんしゃ] /(n) bicycle/(P)/\n自転車 [じでんしゃ] /(ik) (n) bicycle/\n自分 [じぶん] /(pn,adj-no) (1) myself/yourself/oneself/himself/herself/(2) I/me/(P)/\n車 [くるま] /(n) (1) car/automobile/vehicle/(2) wheel/(P)/\n車 [しゃ] /(n-suf) car/vehicle/\n就く [つく] /(v5k) (1) to ascend (the throne)/to accede/(2) to take (seat, position, course, etc.)/to assume/(3) to start (on a journey)/to commence/to depart/(4) to study (under teacher)/to be an apprentice/(P)/\n十分 [じっぷん] /(n) 10 minutes/\n十分 [じゅうぶん] /(adj-na) (1) plenty/enough/sufficient/satisfactory/adequate/(n,vs) (2) division into ten/(adv) (3) perfectly/thoroughly/fully/in full/(P)/\n十分 [じゅっぷん] /(n) 10 minutes/\n上手 [うわて] /(adj-na,n) (1) upper part/(adj-na,n) (2) skillful (only in comparisons)/dexterity (only in comparisons)/(n) (3) (sumo) over-arm grip on opponent's belt/\n上手 [かみて] /(adj-na,n) (1) upper part/(n) (2) upper stream/upper course of a river/(3) right side of the stage (audience's or camera's POV)/stage left (actor's POV)/\n上手 [じょうしゅ] /(adj-na,n) (1) skill/skillful/dexterity/(n) (2) flattery/\n上手 [じょうず] /(adj-na,n) (1) skill/skillful/dexterity/(n) (2) flattery/(P)/\n上手 [じょうて] /(adj-na,n) (1) skill/skillful/dexterity/(n) (2) flattery/\n職業 [しょくぎょう] /(n,adj-no) occupation/business/(P)/\n食う [くう] /(v5u,vt) (1) (male) (vulg) to eat/(2) to live/to make a living/to survive/(3) to bite/to sting (as insects do)/(4) to tease/to torment/to taunt/to make light of/to make fun of/(5) to encroach on/to eat into/to consume/(6) to defeat a superior/to threaten a position/(7) to consume time and-or resources/(8) (col) to receive something (usu. an unfavourable event)/(9) (male) (vulg) to have sexual relations with a woman, esp. for the first time/(P)/\n数学 [すうがく] /(n) mathematics/arithmetic/(P)/\n走らせる [はしらせる] /(v1,vt) (1) to dispatch/to make run/(2) to drive/to gallop/to sail/(3) to run (a program)/(4) to rout/to put to flight/\n卒業 [そつぎょう] /(n,vs,adj-no) (1) graduation/completion (e.g. of a course)/(2) (col) outgrowing something/moving on/(P)/\n其の [その] /(adj-pn) (1) (uk) that (something or someone distant from the speaker, close to the listener; actions of the listener, or ideas expressed or understood by the listener)/the/(int) (2) um.../er.../uh.../(P)/\n大学 [だいがく] /(n) (1) post-secondary education institution, incl. university, college, etc./(2) (abbr) former central university of Kyoto (established under the ritsuryo system for the training of government administrators)/(3) the Great Learning - one of the Four Books/(P)/\n誰にも [だれにも] /(adv) anybody and everybody/with the best of them/as the next fellow/\n直す [なおす] /(v5s,vt) (1) to cure/to heal/(2) to fix/to correct/to repair/(aux-v) (3) to do over again (after -masu base of verb)/(4) (ksb:) to replace/to put back as it was/(5) to convert (into a different state)/to transform/(P)/\n弟 [おと] /(n) (hum) younger brother/\n弟 [おとうと] /(n) (hum) younger brother/(P)/\n弟 [おとと] /(ik) (n) (hum) younger brother/\n弟 [てい] /(n) (1) (hum) younger brother/(2) (arch) pupil/apprentice/\n彼 [あ] /(ok) (n) (1) (uk) that (indicating something distant from both speaker and listener (in space, time or psychologically), or something understood without naming it directly)/(2) that person (used to refer to one's equals or inferiors)/(3) (arch) over there/(int) (4) (uk) hey (expression of surprise, suspicion, etc.)/huh?/eh?/(n) (5) (uk) that (something mentioned before which is distant psychologically or in terms of time)/\n彼 [あれ] /(n) (1) (uk) that (indicating something distant from both speaker and listener (in space, time or psychologically), or something understood without naming it directly)/(2) that person (used to refer to one's equals or inferiors)/(3) (arch) over there/(4) (col) down there (i.e. one's genitals)/(5) (col) period/menses/(int) (6) (uk) hey (expression of surprise, suspicion, etc.)/huh?/eh?/(n) (7) (uk) that (something mentioned before which is distant psychologically or in terms of time)/(P)/\n彼 [かれ] /(pn) (1) he/him/(adj-no) (2) his/(3) boyfriend/(P)/\n彼女 [かのじょ] /(pn) (1) she/her/(adj-no) (2) her/(3) girl friend/girlfriend/sweetheart/(P)/\n分 [ふん] /(n) (1) minute/(2) fun (one tenth of a monme, 5.787 grains)/(P)/\n分 [ぶ] /(num) (1) one-tenth/one percent (one-tenth of a wari)/3 mm (one-tenth of a sun)/2.4 mm (one-tenth of a mon, a traditional unit used to measure shoe sizes)/0.1 degree (one-tenth of a do, used to measure body temperature on any temperature scale)/(n) (2) one-quarter of a ryou (obsolete unit of currency)/(3) thickness/(4) advantageous circumstances/(5) one-tenth of a monme of silver/\n分 [ぶん] /(n,n-suf,pref) (1) part/segment/share/ration/(2) rate/(3) degree/one's lot/one's status/relation/duty/kind/lot/(4) in proportion to/just as much as/(P)/\n歩く [あるく] /(v5k,vi) to walk/(P)/\n縫う [ぬう] /(v5u,vt) (1) to sew/to stitch/(2) to weave one's way (e.g. through a crowd)/(P)/\n忙しい [いそがしい] /(adj-i) busy/hectic/occupied/engaged/(P)/\n忙しい [せわしい] /(adj-i) busy/hectic/occupied/engaged/\n迄 [まで] /(prt) (1) (uk) until (a time)/till/to/up to/(2) (uk) to (a place)/as far as/(3) (uk) to (an extent)/up to/so far as/even/(4) (uk) only/merely/(P)/\n戻る [もどる] /(v5r,vi) to turn back/to return/to go back/to recover/to rebound/(P)/\n有る [ある] /(v5r-i,vi) (1) (uk) to be (usu. of inanimate objects)/to exist/to live/(2) to have/(3) to be located/(4) to be equipped with/(5) to happen/to come about/(P)/\n様 [さま] /(suf) (1) (hon) Mr./Mrs./Miss/Ms./(2) (pol) makes words more polite (usu. in fixed expressions)/(n) (3) state/situation/appearance/(P)/\n様 [ざま] /(n) (1) (derog) (uk) mess/sorry state/plight/sad sight/(suf) (2) -ways/-wards/(3) in the act of .../just as one is .../(4) manner of .../way of .../\n様 [ためし] /(n) precedent/example/\n様 [ちゃま] /(suf) (hon) (fam) (chn) (uk) Mr./Mrs./Ms./\n様 [よう] /(n-suf,n) (1) (uk) appearing .../looking .../(2) way to .../method of ...ing/(3) form/style/design/(4) like/similar to/(n) (5) thing (thought or spoken)/(P)/\n理由 [りゆう] /(n) reason/pretext/motive/(P)/\n理由 [わけ] /(ik) (n) reason/pretext/motive/\n立て [たて] /(pref) (1) central/main/head/chief/(suf) (2) (uk) just (done)/freshly (baked)/indicates activity only just occurred/(ctr) (3) counter for consecutive losses/\n立て [だて] /(suf) (1) particularly/especially/(2) indicates the number of horses or oxen drawing a carriage/indicates the number of oars on a boat/(3) indicates the number of movies, plays, etc. comprising a single program/indicates the number of items or methods used/\n列 [れつ] /(n) queue/line/row/column/sequence/string/train/(P)/\n劣る [おとる] /(v5r,vi) to be inferior to/to be less good at/to fall behind/(P)/\n"
/-- The reader of these lines (131072 is the default limit of the csv module). -/
def sents (lines : List Str) (languages : Option (List Str)) : Except PyErr (SentData DateTime) := sentLoad strptime languages (loadFile 131072 lines)
-- test_basic, test_language_filter, test_language, test_language_error, test_sentence, test_sentence_error (test_tatoeba.py:111-123, 125-130, 152-159, 161-165, 167-178, 180-184, 266-286, 537-549), on sentences00
#guard givesSuch (sents sentences00 none) (fun a => sameSet a.ids [6381, 29390, 36809, 46235, 54432, 62093, 68807, 82526, 93620, 109744, 112733, 156245, 192227, 199398, 208975, 224758, 231440, 258289, 290943, 293946, 310087, 321190, 410787, 508870, 723598, 817971, 2031040, 2031042, 2172488])
#guard givesSuch (sents sentences00 (some [(str "fra"), (str "pol"), (str "rus")])) (fun a => sameSet a.ids [6381, 508870, 2172488])
#guard givesSuch (sents sentences00 none) (fun a => [82526, 93620, 109744, 208975].all (fun i => gives (a.language i) (str "jpn")) && [36809, 293946, 410787, 2031042].all (fun i => gives (a.language i) (str "eng")))
#guard givesSuch (sents sentences00 none) (fun a => raises (a.language 193) .invalidIDError && raises (a.sentence 24) .invalidIDError)
#guard givesSuch (sents sentences00 none) (fun a => gives (Dict.getItem a.sent 192227) (str "ロールプレイングのテレビゲームは時間を食う。"))
#guard givesSuch (sents sentences00 none) (fun a => gives (Dict.getItem a.sent 29390) (str "Role-playing video games are time consuming."))
#guard givesSuch (sents sentences00 none) (fun a => gives (Dict.getItem a.sent 208975) (str "その上手な運転手は車の列を縫うように車を走らせた。"))
#guard givesSuch (sents sentences00 none) (fun a => gives (Dict.getItem a.sent 46235) (str "The good driver wove his way through the traffic."))
-- test_basic, test_language_filter, test_language, test_language_error, test_sentence, test_sentence_error (test_tatoeba.py:111-123, 125-130, 152-159, 161-165, 167-178, 180-184, 266-286, 537-549), on sentencesdetailed00
#guard givesSuch (sents sentencesdetailed00 none) (fun a => sameSet a.ids [6381, 29390, 36809, 46235, 54432, 62093, 68807, 82526, 93620, 109744, 112733, 156245, 192227, 199398, 208975, 224758, 231440, 258289, 290943, 293946, 310087, 321190, 410787, 508870, 723598, 817971, 2031040, 2031042, 2172488])
#guard givesSuch (sents sentencesdetailed00 (some [(str "fra"), (str "pol"), (str "rus")])) (fun a => sameSet a.ids [6381, 508870, 2172488])
#guard givesSuch (sents sentencesdetailed00 none) (fun a => [82526, 93620, 109744, 208975].all (fun i => gives (a.language i) (str "jpn")) && [36809, 293946, 410787, 2031042].all (fun i => gives (a.language i) (str "eng")))
#guard givesSuch (sents sentencesdetailed00 none) (fun a => raises (a.language 193) .invalidIDError && raises (a.sentence 24) .invalidIDError)
#guard givesSuch (sents sentencesdetailed00 none) (fun a => gives (Dict.getItem a.sent 192227) (str "ロールプレイングのテレビゲームは時間を食う。"))
#guard givesSuch (sents sentencesdetailed00 none) (fun a => gives (Dict.getItem a.sent 29390) (str "Role-playing video games are time consuming."))
#guard givesSuch (sents sentencesdetailed00 none) (fun a => gives (Dict.getItem a.sent 208975) (str "その上手な運転手は車の列を縫うように車を走らせた。"))
#guard givesSuch (sents sentencesdetailed00 none) (fun a => gives (Dict.getItem a.sent 46235) (str "The good driver wove his way through the traffic."))
-- test_custom_filter_row (test_tatoeba.py:132-150)
#guard givesSuch (sentLoadHook strptime (fun row => match row with | c :: _ => (match pyInt 10 c with | .ok i => !decide (i ∈ [224758, 6381, 29390]) | .error _ => true) | [] => true) (some [(str "eng"), (str "jpn")]) (loadFile 131072 sentences00)) (fun a => sameSet a.ids [29390, 224758])
#guard givesSuch (sentLoadHook strptime (fun row => match row with | c :: _ => (match pyInt 10 c with | .ok i => !decide (i ∈ [224758, 6381, 29390]) | .error _ => true) | [] => true) (some [(str "eng"), (str "jpn")]) (loadFile 131072 sentencesdetailed00)) (fun a => sameSet a.ids [29390, 224758])
-- TatoebaSentenceReaderTest.test_details_error (test_tatoeba.py:186-195)
#guard givesSuch (sents sentences00 none) (fun a => raises (a.details 192227) .missingDataError && raises (a.details 0) .missingDataError)
-- TatoebaSentenceReaderDetailedTest.test_details, TatoebaSentenceReaderDetailedTest.test_details_error (test_tatoeba.py:209-224, 226-230)
#guard givesSuch (sents sentencesdetailed00 none) (fun a => gives (a.details 82526) (none, none, none))
#guard givesSuch (sents sentencesdetailed00 none) (fun a => gives (a.details 199398) (none, none, none))
#guard givesSuch (sents sentencesdetailed00 none) (fun a => gives (a.details 258289) (some (str "CK"), none, some ⟨2010, 10, 7, 15, 55, 17⟩))
#guard givesSuch (sents sentencesdetailed00 none) (fun a => gives (a.details 410787) (some (str "CK"), some ⟨2010, 6, 24, 14, 20, 10⟩, some ⟨2010, 6, 24, 14, 20, 28⟩))
#guard givesSuch (sents sentencesdetailed00 none) (fun a => raises (a.details 24) .invalidIDError)
-- TatoebaSentenceReaderMiscTests.test_invalid_file (test_tatoeba.py:234-247)
#guard raises (sents (linesOf "3444\teng\n3949\tjp\n") none) .invalidFileError
#guard raises (sents (linesOf "3444\teng\tThe boy ate a tiger\tMB") none) .invalidFileError
#guard raises (sents (linesOf "3444\teng\tThe boy ate a tiger\tMB\t\\N\t\\N\t\\N") none) .invalidFileError
#guard raises (sents (linesOf "3444\teng\tThe boy ate a 虎\tMB") none) .invalidFileError
-- TatoebaLinksReaderTests (test_tatoeba.py:262-372)
/-- The reader of the links. -/
def links (subset : Option (List Int)) (filterName : Str) : Except PyErr LinkReader := LinkReader.new [] (loadFile 131072 links00) subset filterName
#guard givesSuch (links none (str "both")) (fun r => r.data.link.length = 29)
#guard givesSuch (links none (str "both")) (fun r => givesSuch (r.data.getItem 6381) (sameSet · [6381, 156245, 258289, 817971]) && givesSuch (r.data.groupOf 6381) (sameSet · [6381, 156245, 258289, 817971]))
#guard givesSuch (links none (str "both")) (fun r => givesSuch (r.data.getItem 29390) (sameSet · [29390, 192227]) && givesSuch (r.data.groupOf 29390) (sameSet · [29390, 192227]))
#guard givesSuch (links none (str "both")) (fun r => givesSuch (r.data.getItem 36809) (sameSet · [36809, 54432, 199398, 410787]) && givesSuch (r.data.groupOf 36809) (sameSet · [36809, 54432, 199398, 410787]))
#guard givesSuch (links none (str "both")) (fun r => givesSuch (r.data.getItem 46235) (sameSet · [46235, 208975]) && givesSuch (r.data.groupOf 46235) (sameSet · [46235, 208975]))
#guard givesSuch (links none (str "both")) (fun r => givesSuch (r.data.getItem 62093) (sameSet · [62093, 224758, 723598, 2031040, 2031042]) && givesSuch (r.data.groupOf 62093) (sameSet · [62093, 224758, 723598, 2031040, 2031042]))
#guard givesSuch (links none (str "both")) (fun r => givesSuch (r.data.getItem 68807) (sameSet · [68807, 231440]) && givesSuch (r.data.groupOf 68807) (sameSet · [68807, 231440]))
#guard givesSuch (links none (str "both")) (fun r => givesSuch (r.data.getItem 82526) (sameSet · [82526, 321190, 508870]) && givesSuch (r.data.groupOf 82526) (sameSet · [82526, 321190, 508870]))
#guard givesSuch (links none (str "both")) (fun r => givesSuch (r.data.getItem 93620) (sameSet · [93620, 310087, 2172488]) && givesSuch (r.data.groupOf 93620) (sameSet · [93620, 310087, 2172488]))
#guard givesSuch (links none (str "both")) (fun r => givesSuch (r.data.getItem 109744) (sameSet · [109744, 293946]) && givesSuch (r.data.groupOf 109744) (sameSet · [109744, 293946]))
#guard givesSuch (links none (str "both")) (fun r => givesSuch (r.data.getItem 112733) (sameSet · [112733, 290943]) && givesSuch (r.data.groupOf 112733) (sameSet · [112733, 290943]))
#guard givesSuch (links (some [6381, 82526, 258289, 192227, 508870]) (str "both")) (fun r => givesSuch (r.data.getItem 6381) (sameSet · [6381, 258289]))
#guard givesSuch (links (some [6381, 82526, 258289, 192227, 508870]) (str "both")) (fun r => givesSuch (r.data.getItem 82526) (sameSet · [82526, 508870]))
#guard givesSuch (links (some [6381, 82526, 258289, 192227, 508870]) (str "sent_id")) (fun r => givesSuch (r.data.getItem 6381) (sameSet · [6381, 156245, 258289, 817971]))
#guard givesSuch (links (some [6381, 82526, 258289, 192227, 508870]) (str "sent_id")) (fun r => givesSuch (r.data.getItem 82526) (sameSet · [82526, 321190, 508870]))
#guard givesSuch (links (some [6381, 82526, 258289, 192227, 508870]) (str "sent_id")) (fun r => givesSuch (r.data.getItem 29390) (sameSet · [29390, 192227]))
#guard givesSuch (links (some [6381, 82526, 258289, 192227, 508870]) (str "trans_id")) (fun r => givesSuch (r.data.getItem 6381) (sameSet · [6381, 156245, 258289]))
#guard givesSuch (links (some [6381, 82526, 258289, 192227, 508870]) (str "trans_id")) (fun r => givesSuch (r.data.getItem 82526) (sameSet · [82526, 321190, 508870]))
#guard givesSuch (links (some [6381, 82526, 258289, 192227, 508870]) (str "trans_id")) (fun r => givesSuch (r.data.getItem 29390) (sameSet · [29390, 192227]))
#guard raises (links (some [6381, 82526, 258289, 192227, 508870]) (str "banana")) .valueError
#guard givesSuch (links none (str "both")) (fun r => raises (r.data.groupOf 100) .invalidIDError)
#guard givesSuch (links (some [6381, 156245, 29390, 192227]) (str "both")) (fun r => r.data.groups.length = 2 && r.data.groups.all (fun x => sameSet x [6381, 156245] || sameSet x [29390, 192227]))
-- TatoebaLinksReaderMiscTests.test_invalid_file (test_tatoeba.py:376-388)
#guard raises (LinkReader.new [] (loadFile 131072 (linesOf "3444\n3949\n")) none (str "both")) .invalidFileError
#guard raises (LinkReader.new [] (loadFile 131072 (linesOf "3444\teng\tThe boy ate a tiger\tMB")) none (str "both")) .invalidFileError
#guard raises (LinkReader.new [] (loadFile 131072 (linesOf "3444\teng\tThe boy ate a tiger (虎)\tMB")) none (str "both")) .invalidFileError
-- test_legacy_tag (test_tatoeba.py:399-412)
#guard givesSuch (Tanaka.fromText (str "は|1")) (fun v => v.eq ⟨(str "は"), none, none, none, false⟩ && decide (v.display = none))
#guard givesSuch (Tanaka.fromText (str "度(ど)|1")) (fun v => v.eq ⟨(str "度"), some (str "ど"), none, none, false⟩ && decide (v.display = none))
#guard givesSuch (Tanaka.fromText (str "は|1[01]")) (fun v => v.eq ⟨(str "は"), none, some 1, none, false⟩ && decide (v.display = none))
#guard givesSuch (Tanaka.fromText (str "ばれる|1{ばれた}")) (fun v => v.eq ⟨(str "ばれる"), none, none, some (str "ばれた"), false⟩ && decide (v.display = some (str "ばれた")))
#guard givesSuch (Tanaka.fromText (str "わっと|2~")) (fun v => v.eq ⟨(str "わっと"), none, none, none, true⟩ && decide (v.display = none))
-- test_str (test_tatoeba.py:414-442)
#guard Tanaka.toText ⟨(str "を"), none, none, none, false⟩ = (str "を")
#guard Tanaka.toText ⟨(str "時"), some (str "とき"), none, none, false⟩ = (str "時(とき)")
#guard Tanaka.toText ⟨(str "が"), none, some 3, none, false⟩ = (str "が[03]")
#guard Tanaka.toText ⟨(str "大学"), some (str "だいがく"), some 1, none, false⟩ = (str "大学(だいがく)[01]")
#guard Tanaka.toText ⟨(str "である"), none, none, some (str "であった"), false⟩ = (str "である{であった}")
#guard Tanaka.toText ⟨(str "為る"), some (str "する"), none, some (str "し"), false⟩ = (str "為る(する){し}")
#guard Tanaka.toText ⟨(str "其の"), none, some 1, some (str "その"), false⟩ = (str "其の[01]{その}")
#guard Tanaka.toText ⟨(str "其の"), some (str "その"), some 1, some (str "その"), false⟩ = (str "其の(その)[01]{その}")
#guard Tanaka.toText ⟨(str "ロールプレイング"), none, none, none, true⟩ = (str "ロールプレイング~")
#guard Tanaka.toText ⟨(str "時"), some (str "とき"), none, none, true⟩ = (str "時(とき)~")
#guard Tanaka.toText ⟨(str "食う"), none, some 7, none, true⟩ = (str "食う[07]~")
#guard Tanaka.toText ⟨(str "彼"), some (str "かれ"), some 1, none, true⟩ = (str "彼(かれ)[01]~")
#guard Tanaka.toText ⟨(str "ネイティブアメリカン"), none, none, some (str "ネイティブ・アメリカン"), true⟩ = (str "ネイティブアメリカン{ネイティブ・アメリカン}~")
#guard Tanaka.toText ⟨(str "喝采を送る"), some (str "かっさいをおくる"), none, some (str "喝采を送った"), true⟩ = (str "喝采を送る(かっさいをおくる){喝采を送った}~")
#guard Tanaka.toText ⟨(str "ソフト"), none, some 1, some (str "ソフトな"), true⟩ = (str "ソフト[01]{ソフトな}~")
#guard Tanaka.toText ⟨(str "立て"), some (str "たて"), some 2, some (str "たて"), true⟩ = (str "立て(たて)[02]{たて}~")
-- test_neq (test_tatoeba.py:444-459)
#guard Tanaka.ne ⟨(str "を"), none, none, none, false⟩ ⟨(str "が"), none, none, none, false⟩
#guard Tanaka.ne ⟨(str "時"), some (str "とき"), none, none, false⟩ ⟨(str "時"), some (str "じ"), none, none, false⟩
#guard Tanaka.ne ⟨(str "が"), none, some 3, none, false⟩ ⟨(str "が"), none, some 2, none, false⟩
#guard Tanaka.ne ⟨(str "飲ませる"), none, none, some (str "飲ませて"), false⟩ ⟨(str "飲ませる"), none, none, some (str "飲ませない"), false⟩
#guard Tanaka.ne ⟨(str "ロールプレイング"), none, none, none, true⟩ ⟨(str "ロールプレイング"), none, none, none, false⟩
-- TatoebaIndexReaderTests, TatoebaIndexReaderEdictTests (test_tatoeba.py:490-580, 582-625)
/-- The reader of the index; the dictionary as far as the reader uses it. -/
def index (edict : Option (Dict Str (List Str))) (subset : Option (List Int)) : Except PyErr IndexData := indexLoad edict subset (loadFile 131072 jpnindices00)
/-- `get_edict`  (test_tatoeba.py:37-46): readings per word. -/
def edictReadings : Except PyErr (Dict Str (List Str)) := do
  let d ← loadDictionary jeedict00
  .ok (d.map (fun kv => (kv.1, kv.2.readings)))
#guard givesSuch (.ok none : Except PyErr (Option (Dict Str (List Str)))) (fun ed => givesSuch (index ed none) (fun d => gives (d.getItem 109744)
  [⟨(str "彼"), some (str "かれ"), some 1, none, false⟩,
   ⟨(str "は"), none, none, none, false⟩,
   ⟨(str "英語"), none, none, none, false⟩,
   ⟨(str "が"), none, none, none, false⟩,
   ⟨(str "苦手"), none, none, none, false⟩,
   ⟨(str "だ"), none, none, none, false⟩,
   ⟨(str "が"), none, some 3, none, false⟩,
   ⟨(str "数学"), none, none, none, false⟩,
   ⟨(str "で"), none, none, none, false⟩,
   ⟨(str "は"), none, none, none, false⟩,
   ⟨(str "誰にも"), none, none, none, false⟩,
   ⟨(str "劣る"), none, none, some (str "劣らない"), false⟩]))
#guard givesSuch (.ok none : Except PyErr (Option (Dict Str (List Str)))) (fun ed => givesSuch (index ed none) (fun d => gives (d.getItem 112733)
  [⟨(str "彼"), some (str "かれ"), some 1, none, false⟩,
   ⟨(str "は"), none, none, none, false⟩,
   ⟨(str "其の"), none, some 1, some (str "その"), false⟩,
   ⟨(str "時"), some (str "とき"), none, none, false⟩,
   ⟨(str "大学"), none, none, none, false⟩,
   ⟨(str "を"), none, none, none, false⟩,
   ⟨(str "卒業"), none, some 1, none, false⟩,
   ⟨(str "為る"), some (str "する"), none, some (str "し"), false⟩,
   ⟨(str "立て"), some (str "たて"), some 2, some (str "たて"), true⟩,
   ⟨(str "である"), none, none, some (str "であった"), false⟩]))
#guard givesSuch (.ok none : Except PyErr (Option (Dict Str (List Str)))) (fun ed => givesSuch (index ed none) (fun d => gives (d.getItem 192227)
  [⟨(str "ロールプレイング"), none, none, none, true⟩,
   ⟨(str "の"), none, none, none, false⟩,
   ⟨(str "テレビゲーム"), none, none, none, false⟩,
   ⟨(str "は"), none, none, none, false⟩,
   ⟨(str "時間"), none, none, none, false⟩,
   ⟨(str "を"), none, none, none, false⟩,
   ⟨(str "食う"), none, some 7, none, false⟩]))
#guard givesSuch (edictReadings.map some : Except PyErr (Option (Dict Str (List Str)))) (fun ed => givesSuch (index ed none) (fun d => gives (d.getItem 109744)
  [⟨(str "彼"), some (str "かれ"), some 1, none, false⟩,
   ⟨(str "は"), none, none, none, false⟩,
   ⟨(str "英語"), some (str "えいご"), none, none, false⟩,
   ⟨(str "が"), none, none, none, false⟩,
   ⟨(str "苦手"), some (str "にがて"), none, none, false⟩,
   ⟨(str "だ"), none, none, none, false⟩,
   ⟨(str "が"), none, some 3, none, false⟩,
   ⟨(str "数学"), some (str "すうがく"), none, none, false⟩,
   ⟨(str "で"), none, none, none, false⟩,
   ⟨(str "は"), none, none, none, false⟩,
   ⟨(str "誰にも"), some (str "だれにも"), none, none, false⟩,
   ⟨(str "劣る"), some (str "おとる"), none, some (str "劣らない"), false⟩]))
#guard givesSuch (edictReadings.map some : Except PyErr (Option (Dict Str (List Str)))) (fun ed => givesSuch (index ed none) (fun d => gives (d.getItem 112733)
  [⟨(str "彼"), some (str "かれ"), some 1, none, false⟩,
   ⟨(str "は"), none, none, none, false⟩,
   ⟨(str "其の"), some (str "その"), some 1, some (str "その"), false⟩,
   ⟨(str "時"), some (str "とき"), none, none, false⟩,
   ⟨(str "大学"), some (str "だいがく"), none, none, false⟩,
   ⟨(str "を"), none, none, none, false⟩,
   ⟨(str "卒業"), some (str "そつぎょう"), some 1, none, false⟩,
   ⟨(str "為る"), some (str "する"), none, some (str "し"), false⟩,
   ⟨(str "立て"), some (str "たて"), some 2, some (str "たて"), true⟩,
   ⟨(str "である"), none, none, some (str "であった"), false⟩]))
#guard givesSuch (edictReadings.map some : Except PyErr (Option (Dict Str (List Str)))) (fun ed => givesSuch (index ed none) (fun d => gives (d.getItem 192227)
  [⟨(str "ロールプレイング"), none, none, none, true⟩,
   ⟨(str "の"), none, none, none, false⟩,
   ⟨(str "テレビゲーム"), none, none, none, false⟩,
   ⟨(str "は"), none, none, none, false⟩,
   ⟨(str "時間"), some (str "じかん"), none, none, false⟩,
   ⟨(str "を"), none, none, none, false⟩,
   ⟨(str "食う"), some (str "くう"), some 7, none, false⟩]))
#guard givesSuch (index none none) (fun d => gives (d.linkOf 82526) 321190)
#guard givesSuch (index none none) (fun d => gives (d.linkOf 93620) 310087)
#guard givesSuch (index none none) (fun d => gives (d.linkOf 109744) 293946)
#guard givesSuch (index none none) (fun d => gives (d.linkOf 112733) 290943)
#guard givesSuch (index none none) (fun d => gives (d.linkOf 156245) 258289)
#guard givesSuch (index none none) (fun d => gives (d.linkOf 192227) 29390)
#guard givesSuch (index none none) (fun d => gives (d.linkOf 199398) 54432)
#guard givesSuch (index none none) (fun d => gives (d.linkOf 208975) 46235)
#guard givesSuch (index none none) (fun d => gives (d.linkOf 224758) 62093)
#guard givesSuch (index none none) (fun d => gives (d.linkOf 231440) 68807)
#guard givesSuch (index none none) (fun d => raises (d.linkOf 1224) .invalidIDError)
#guard givesSuch (index none (some [112733, 109744])) (fun d => sameSet (Dict.keys d.sent) [112733, 109744] && d.sent.length = 2)
-- TatoebaIndexReaderMiscTests.test_invalid_file (test_tatoeba.py:628-634)
#guard raises (indexLoad none none (loadFile 131072 (linesOf "93620\t310087\t彼女{テレビ}[01] は|1 一時間{１時間} 以内 に 戻る{戻ります}\n"))) .invalidEntryError

end Cjk.Checks
