# Formal model of WordBrewery/cjktools in Lean 4

The code in `/repo` (Python, pinned commit) is read as text.  This directory holds a model of it in Lean 4 and proofs of the properties in
`properties.jsonl`.  `MANIFEST.json` lists the theorems for each property.  `seeded/LOG.jsonl` records the wrong programs that the theorems
were tested against.

## 1. Layout

| directory | content |
|---|---|
| `lean/Verif/Py/*` | the parts of Python the code uses: strings, exceptions, insertion-ordered dicts, sets, `str.split`, `strip`, `int`, universal newlines, a backtracking matcher for regular expressions, the automaton of the `csv` reader |
| `lean/Verif/Model/*` | the model of cjktools, function by function; every definition cites file and lines |
| `lean/Verif/Spec/*` | small independent specifications, in which the theorems are stated |
| `lean/Verif/Lemmas/*` | helper lemmas |
| `lean/Verif/Props/*` | the property theorems, named after the property (`C59_...`), and examples that meet their hypotheses |

Names: `CNN_..._partial` proves a part of property CNN, `CNN_..._refuted` shows that the statement is false for the code, `CNN_..._iff` or
`CNN_..._exact` gives the exact condition under which it holds.

## 2. Modelling conventions

* Python 3.7 to 3.9 (the code imports `collections.Mapping`, which Python 3.10 removed).  Branches for Python 2 are not modelled.
* A `str` is a list of code points (`Str = List Nat`), so lone surrogates are included.  The macro `u!"..."` expands to the code points of a literal.
* Exceptions are values: `Except PyErr α`.  Where an exception can leave a half-done change, the model returns the new state and the exception.
* A `dict` is an association list in insertion order with distinct keys.
* A `set` is a duplicate-free list of which only membership is used.  Where code iterates over a set, or over a dict that is filled from one, or
  shuffles, the order is an arbitrary permutation chosen by an oracle; theorems hold for all oracles.
* Objects that are mutable and shared live in a store and are referred to by position (tree nodes, places while a file is read, coded dictionary entries, streams).
* Loops become structural recursion or folds.  `while` loops have a termination proof, or a bound on the rounds with a proof that it is large enough.
* Generators are modelled by the values they yield and the exception that ends them.
* `int` is `Int` or `Nat` without bound; a `float` is a finite rational number; sums and quotients of counts (`TreeDist`) are rounded in any way (`Arith`).
* Regular expressions are run by `Py.Re.run`, which lists all matches in the order in which the backtracking engine tries them; the first one is the match that Python reports.
* The pattern *texts* of the source are modelled too: `Py.compile` reads a text as `sre_parse` does (for the fragment named in `Py/Pattern.lean`) and `Pat.run` runs it. Theorems `CNN_pattern_text` show that the texts in the source behave like the expressions of `Py.Re` used elsewhere; `Spec/Regex.lean` gives a declarative meaning to patterns, and `Lemmas/PatternLang.lean` proves that the engine lists exactly the matches it describes. `Spec/PatternSyntax.lean` gives the syntax of the texts as a grammar, and `C99_pattern_syntax` proves that `compile` accepts exactly this grammar.
* `datetime.strptime` is a parameter of the theorems about loading; `Model/Dates.lean` models the call in the source (regular expression and calendar of CPython), and C108 and `C98_sentence_dates` use it.

The models of the Python language and library (`Verif/Py`, and `bytes`, `splitlines`, text lines and UTF-8 in `Model/Sources` and `Model/Encoding`) are definitions that are trusted.
They were compared with the standard library of the CPython 3.11 on this machine (no code of /repo was run): the same random
arguments were given to the definition and to the library function, about 340,000 cases: `strip`, `split`, `replace`, `find`, comparisons, `int`, lines of text and binary files and of
`codecs.open`, UTF-8, `splitlines`, `join`, number formatting, `strptime`, binding of call arguments, `csv.reader` and `csv.writer` with options, `re.compile`, `match` and `finditer`.  One difference was
found and repaired (a match behind an empty match in `finditer`).  This is a test of the trusted base and no part of any proof.

The model itself is tested against the unit tests of the repository: `Checks/RepoTests.lean` replays them with their sample data (242 checks by evaluation, run in every build; it lists
the tests that are left out).  All hold.  These checks are tests, no theorem rests on them.

## 3. Method

Statements are about the observable results of calls, in terms of specifications that do not use the functions of the model.  Most proofs are
inductions over lists, trees or histories with an invariant:

* text functions (C01-C06, C16-C22, C72, C80, C113, C156): pointwise facts about code points and induction over the text (C136, C137: NFD is a normal form of canonical equivalence, over any Unicode database); facts about the complete finite tables of the code (bands of scripts, kana table) by evaluation in the kernel;
* containers (C09-C15, C81, C144, C145): induction over dictionaries and lists; C144 on a store of lists and sets, C145 with methods that act on a state;
* caches (C23-C27, C87, C88, C95, C116, C140, C141, C143, C149, C155): state machines; invariants over all histories of calls, changes of files, crashes and interleavings;
* threads (C118, C119): the steps of all calls interleave in any way; one operation on a dictionary or variable is one step, as in CPython with its global lock (keys whose `__eq__` or `__hash__` run Python code could be interrupted; not modelled);
* dictionaries (C28-C36, C82, C92, C93): regular expressions are shown to agree with a left-to-right reader without backtracking on every string; the loaders are folds;
* files (C37-C40, C70, C74, C76, C77, C79, C89, C94, C138, C139): line automata, folds, and a relation between a file and its lines (C138, C139: between its bytes and its text);
* places (C41-C45, C90, C91, C120, C130, C148): trees; the stack machine of `from_file` refines an outline;
* trees (C46-C53, C75, C85, C86, C109-C111, C121, C124, C126, C128, C134, C142, C147): a heap of nodes with parent links, related to finite trees by a representation predicate; for shared dictionaries (C142) a second heap whose view is the first;
* Tatoeba (C54-C65, C96, C98, C106-C108, C122, C123, C157, C125, C132, C146, C151-C154): folds over rows, connectedness as a relation, the automaton of `csv`, with every option in `Py/CsvDialect`; C146 on a store of the lists of words that readers hand out;
* pinyin (C66-C69, C78): longest matches of a regular expression over an arbitrary syllable table;
* streams (C71, C73, C83, C84, C133, C150): programs on a table of open and closed handles.

For a property that the code violates, the statement stays as it is, its claim is marked partial, and the theorems are the strongest true part
that was found, a refutation, and where possible the exact condition.

Mutation testing: a definition of the model is edited like a realistic bug in a scratch copy, everything is rebuilt, and the theorems that fail
are recorded.  A theorem that still proves although its claim has become false is tightened.

## 4. Properties

| id | property | status | where |
|---|---|---|---|
| C01 | Kana conversion is a lossless character-by-character relabelling | proved | Props/ScriptMapping, Scripts |
| C02 | Script detection is unambiguous | proved | Props/Scripts |
| C03 | script_boundaries is the unique maximal script segmentation | proved | Props/Scripts |
| C04 | normalize maps to canonical width and is idempotent | proved | Props/ScriptMapping, Scripts |
| C05 | compare_kana is a script-insensitive total preorder | proved | Props/Scripts |
| C06 | Script membership queries are exact | proved | Props/Scripts |
| C07 | Kana table coordinates round-trip | proved | Props/KanaTable |
| C08 | Kana table lookup does not depend on dictionary order | proved | Props/KanaTable |
| C09 | invert_mapping transposes the relation | proved | Props/Maps |
| C10 | Injectivity test and injective inversion agree | proved | Props/Maps |
| C11 | chain_mapping is composition of finite maps | proved | Props/Maps |
| C12 | multi_dict groups pairs without loss or reordering | proved | Props/Maps |
| C13 | merge_dicts is the pointwise union | proved | Props/Maps |
| C14 | partial_map splits without loss | proved | Props/Maps |
| C15 | map_dict acts on values only, in place or not | proved | Props/Maps |
| C16 | canonical_segment_forms is exactly the set of undone alternations | partial | Props/Alternations |
| C17 | surface_forms enumerates exactly the alternation product | proved | Props/Alternations |
| C18 | canonical_forms undoes surface_forms | proved | Props/Alternations |
| C19 | canonical_forms respects context and is a duplicate-free product | proved | Props/Alternations |
| C20 | insert_duplicate_kanji terminates and repeats the right kanji | proved | Props/LongVowels |
| C21 | expand_long_vowels is a local rewriting | proved | Props/LongVowels, PatternText |
| C22 | Voicing tables are mutually inverse | proved | Props/Alternations |
| C23 | memory_proxy is transparent | proved | Props/SmartCache |
| C24 | disk_proxy returns up-to-date results | proved | Props/SmartCache |
| C25 | A crash while storing never yields a wrong cache hit | proved | Props/SmartCache |
| C26 | needs_update compares against every dependency | proved | Props/SmartCache |
| C27 | disk_proxy caches exactly the last non-None result | proved | Props/SmartCache |
| C28 | DictionaryEntry keeps readings and senses aligned | proved | Props/BilingualDict |
| C29 | senses_by_reading partitions the senses | proved | Props/BilingualDict |
| C30 | parse_dictionary merges homographs in file order | proved | Props/DictFormat |
| C31 | EDICT lines parse back to their fields | proved | Props/DictFormat, DictLines |
| C32 | jc_kdic, cj_kdic and CEDICT lines parse back to their fields | partial | Props/CjKdicExact, DictLines |
| C33 | Format detection is unambiguous | proved | Props/DictFormat |
| C34 | load_dictionary consumes the header and nothing else | proved | Props/DictFormat |
| C35 | get_codes finds exactly the parenthesised known codes | proved | Props/PatternText, SplitByCodes |
| C36 | load_coded_dictionary indexes every merged entry by every code of its senses | proved | Props/SplitByCodes |
| C37 | Kanjidic reading pools | proved | Props/Kanjidic |
| C38 | Kanjidic lines parse back to their fields | proved | Props/Kanjidic, PatternText |
| C39 | RadkDict inverts the radical file | proved | Props/Radkdict |
| C40 | RadkDict rejects malformed header lines only | proved | Props/Radkdict |
| C41 | Place.dump and Place.from_file are inverse | partial | Props/Place, PlaceFiles, PlaceText |
| C42 | Place.walk is the pre-order traversal | proved | Props/Place |
| C43 | Place.walk_with_path reports the ancestors | proved | Props/Place |
| C44 | Place.find_node finds a nearest match whatever the shuffle | proved | Props/Place |
| C45 | Place.find_all is complete | proved | Props/Place |
| C46 | TreeNode.walk_preorder visits every node once, parents first | proved | Props/TreeWalk |
| C47 | TreeNode.walk_postorder visits every node once, children first | proved | Props/TreeWalk |
| C48 | TreeNode.walk_breadth_first visits level by level | proved | Props/TreeWalk |
| C49 | TreeNode.copy is a faithful, independent copy | proved | Props/TreeCopy |
| C50 | TreeNode.prune keeps exactly the live branches | proved | Props/TreePrune |
| C51 | Parent and child links stay consistent | partial | Props/TreeExact, TreeOps |
| C52 | Paths to the root | proved | Props/TreeWalk |
| C53 | TreeNode.build_index indexes every node | partial | Props/TreeOps |
| C54 | Sentence reader lookups reflect the last row per id | proved | Props/TatoebaSentences |
| C55 | Sentence reader language filter and language lookup | partial | Props/ExactPartials, TatoebaSentences |
| C56 | A failed reload keeps the old data | proved | Props/Readers, TatoebaSentences |
| C57 | Every linked sentence is in its own group | proved | Props/LinkNames, TatoebaLinks |
| C58 | Translation groups are connected | proved | Props/TatoebaLinks |
| C59 | Translation groups are the connected components | partial | Props/LinkOrder, TatoebaLinks, TatoebaLinksIff |
| C60 | TanakaWord text round-trip | partial | Props/ExactPartials, PatternText, Tanaka |
| C61 | TanakaWord equality is an equivalence | proved | Props/Tanaka |
| C62 | parse_sentence inverts writing words with spaces | proved | Props/Tanaka |
| C63 | adjust_details only fills in missing readings | proved | Props/Tanaka |
| C64 | Index reader lookups | proved | Props/Tanaka |
| C65 | Tab-separated fields are read verbatim | partial | Props/Csv, CsvExact |
| C66 | Fully toned pinyin segments uniquely | proved | Props/Pinyin |
| C67 | Tone marking preserves the syllable | partial | Props/ExactPartials, PinyinTones |
| C68 | strip_tones and from_ascii agree on syllables | partial | Props/ExactMore, PinyinTones |
| C69 | Pinyin segmentation always takes the longest syllable | proved | Props/PatternSyllables, Pinyin, Zhuyin |
| C70 | Zhuyin/pinyin tables are inverse on one-to-one files | proved | Props/Zhuyin |
| C71 | sopen refuses modes with both r and w, and else opens exactly one stream | proved | Props/Common |
| C72 | filter_comments drops exactly comment lines | proved | Props/Common |
| C73 | Data path resolution order | proved | Props/Common |
| C74 | Language code tables are inverse | proved | Props/Common |
| C75 | Tree distribution root has frequency one | partial | Props/TreeDist, TreeDistCalls, TreeExact |
| C76 | Kanji lists contain exactly the kanji of the file | proved | Props/Common |
| C77 | Kanjidic: the last line of a kanji wins, any bad line aborts | proved | Props/Kanjidic |
| C78 | is_pinyin recognises pinyin strings | partial | Props/Pinyin |
| C79 | The hanzi table keeps the last line of each hanzi | proved | Props/PinyinTones |
| C80 | Script mappings between arbitrary scripts | proved | Props/ScriptMapping |
| C81 | procmap calls the procedure on each item once, in order | proved | Props/Procmap |
| C82 | Updating a bilingual dictionary replaces entries word by word | proved | Props/BilingualUpdate |
| C83 | Loading and saving never leaks a file handle | proved | Props/HandleResults, Handles |
| C84 | The Tatoeba sentence and index readers close their files | partial | Props/ExactPartials, Handles |
| C85 | Tree equality is equality up to order | proved | Props/TreeEq |
| C86 | layout draws every node once, in depth-first order, and the drawing determines the tree shape | proved | Props/TreeLayout |
| C87 | Lazily cached tables are built once and shared | proved | Props/Cached |
| C88 | RadkDict.get_cached and Kanjidic.get_cached read the data once | partial | Props/Cached, ExactMore |
| C89 | print_radicals prints one sorted line per kanji up to the first unknown one | proved | Props/PrintRadicals |
| C90 | Place accepts exactly the details its file format can hold | partial | Props/PlaceInit |
| C91 | A file of places is read as the outline its indentation draws | proved | Props/PlaceOutline |
| C92 | The four dictionary line formats accept and read exactly the documented grammar | proved | Props/DictGrammar, PatternText |
| C93 | A dictionary file gives back every sense under its word and reading | proved | Props/DictLoad |
| C94 | Line endings and a missing final newline make no difference | proved | Props/HanziFile, TextFiles |
| C95 | Processes that share a cache file never get a wrong value | partial | Props/CacheExact, CacheRace, CacheWriter, ThreadProgress |
| C96 | A Tatoeba export is answered from as it was written | proved | Props/Export |
| C97 | Changing a dictionary entry changes no other entry | partial | Props/EntryExact, EntryHeap |
| C98 | A rejected Tatoeba file raises the exception of its first problem | proved | Props/Dates, TatoebaErrors |
| C99 | A custom dictionary format reads exactly what its patterns describe | proved | Props/CustomErrors, PatternFormat, PatternSyntax |
| C100 | pinyin_regex_pattern matches the longest syllable and its tone | proved | Props/PatternSyllables |
| C101 | zhuyin_regex_pattern matches the zhuyin of the table | partial | Props/PatternSyllables |
| C102 | A loader reads the stream or the file it is told to, and no other | proved | Props/HanziFile, Sources |
| C103 | Compression is transparent | partial | Props/PlaceBytes, Sources |
| C104 | iter_coded_entries yields the coded entries of a file or stream | partial | Props/Sources |
| C105 | Tone marks stand where pinyin orthography puts them | partial | Props/ToneMarks |
| C106 | The Tatoeba readers are consistent dictionaries | proved | Props/Readers |
| C107 | A reader reports the source of its data | partial | Props/Readers |
| C108 | Times in detailed exports are read exactly | proved | Props/Dates |
| C109 | A distribution can be copied and drawn | proved | Props/TreeDraw |
| C110 | What is done to one tree does not show in another | proved | Props/TreeFrame |
| C111 | The attributes of a node are a dictionary of its own | proved | Props/TreeDraw |
| C112 | The text that stands for an object identifies what it counts | proved | Props/Display |
| C113 | Kana conversion keeps the script structure of a text | proved | Props/ScriptStructure |
| C114 | The disk cache works whatever the name of its file | partial | Props/CacheStream |
| C115 | Trouble with the cache file does not lose a result | partial | Props/CacheStream |
| C116 | memory_proxy works around a method that calls itself | proved | Props/MemoryRec |
| C117 | Which texts a TanakaWord keeps | proved | Props/TanakaText |
| C118 | Threads may share a memory_proxy | proved | Props/MemoryThreads, ThreadProgress |
| C119 | Threads share the memory-cached tables | partial | Props/CachedThreads, ThreadProgress |
| C120 | Walking and searching places ends | partial | Props/PlaceHeap, PlaceLoops |
| C121 | Walks, searches, copies and paths of tree nodes end | partial | Props/TreeDistEnds, TreeLoops, TreePrograms |
| C122 | The order of the records of a data file does not matter where keys are unique | proved | Props/FileOrder |
| C123 | Filtering while loading is loading a filtered file | proved | Props/FilterLoad, FilterRow |
| C124 | Comparing and drawing nodes that are shared or contain themselves | proved | Props/TreeEqual |
| C125 | load_file reads back what was written with the same csv options | proved | Props/CsvWritten |
| C126 | combine, union and diff combine two distributions | partial | Props/TreeCombine |
| C127 | Converting the readme loses nothing and writes only its own file | partial | Props/Convert |
| C128 | Adding and removing a child changes nothing else | partial | Props/TreeRemove |
| C129 | Changing a table from get_table shows nowhere else | proved | Props/KanaObjects |
| C130 | Two places are equal exactly if they agree in everything | partial | Props/PlaceEqual |
| C131 | Objects can be compared with anything and be put in sets | partial | Props/Compare |
| C132 | A filter may be given by any collection | partial | Props/FilterArgs |
| C133 | Iterators take the lines they need and no more | proved | Props/LineIter |
| C134 | TreeNode.prune with any predicate | proved | Props/TreeAsk |
| C135 | What load_file reads from any file | proved | Props/CsvFile |
| C136 | Composed and decomposed kana are equally voiced | proved | Props/KanaVoiced |
| C137 | Composed and decomposed kana have the same alternations | partial | Props/KanaForms, KanaVoiced |
| C138 | The data files are read in their encoding, whatever the locale | partial | Props/Encoding |
| C139 | A dumped hierarchy of places can be read on another system | partial | Props/Encoding |
| C140 | disk_proxy works around a method that changes its arguments | partial | Props/CacheObjects |
| C141 | What a caller does to a cached result does not show in other results | partial | Props/CacheObjects |
| C142 | Which tree nodes share their dictionaries | proved | Props/TreeGiven |
| C143 | Methods with disk caches may call each other | proved | Props/DiskRec |
| C144 | Results of the functions on mappings are new objects | proved | Props/MapsHeap |
| C145 | How the functions on mappings call their methods | proved | Props/MapsState |
| C146 | A dictionary or filter given to an index reader later | proved | Props/IndexObjects |
| C147 | Changing a tree while walking it | proved | Props/TreeWalks |
| C148 | Changing places while walking over them | proved | Props/PlaceWalks |
| C149 | Dependencies may change while a disk_proxy call runs | partial | Props/CacheEdits, CacheEnds |
| C150 | load_file reads when rows are asked for | proved | Props/RowGens |
| C151 | Subclasses of the sentence reader | proved | Props/SentHooks |
| C152 | Readings of index words from a dictionary file | proved | Props/FileReadings |
| C153 | What a reader handed out before a new file was assigned | partial | Props/ReaderViews |
| C154 | Threads may use a Tatoeba reader while a file is assigned | partial | Props/ReaderOrder, ReaderThreads |
| C155 | Dependencies of a disk_proxy may be replaced by files of any age | partial | Props/CacheStamps |
| C156 | Texts may be processed in pieces | proved | Props/Pieces, PiecesPinyin |
| C157 | Data files may be joined | proved | Props/Joined, JoinedLinks |
| C158 | Tatoeba readers built on one another agree | proved | Props/ReadersTogether |
| C159 | Drawing deep trees ends | proved | Props/LayoutDepth |
| C160 | Alternations are the same in both syllabaries | proved | Props/BothKana |
| C161 | The functions on mappings obey the laws of functions and relations | proved | Props/MapLaws |
| C162 | The basic and the detailed export of the same sentences agree | proved | Props/ExportKinds |
| C163 | Links that are given again | proved | Props/RepeatedLinks |
| C164 | Normalising and converting between the syllabaries work together | proved | Props/NormalKana |
| C165 | Comment lines and blank lines are skipped in the data files | partial | Props/CommentLines |
| C166 | Sorting words with compare_kana | proved | Props/KanaSort |
| C167 | Pinyin typed without some of its tones | partial | Props/TypedPinyin |
| C168 | Making and undoing alternations fit together | partial | Props/AlternationsClosed |
| C169 | What can be read off a text with tone marks | partial | Props/MarkedPinyin |
| C170 | The three results of from_hanzi fit together | partial | Props/HanziForms |
| C171 | Expanding again changes nothing | partial | Props/ExpandAgain |
| C172 | Merging entries and dictionaries in any grouping | proved | Props/MergeLaws |
| C173 | Pruning a tree in several steps | proved | Props/PruneTwice |
| C174 | A method wrapped with both proxies | partial | Props/CacheStack |
| C175 | find_node and find_all of places agree | proved | Props/PlaceFound |
| C176 | A copy of a tree answers like the tree | proved | Props/TreeAlike |
| C177 | Wrapping a method twice in the same proxy | proved | Props/CacheTwice |
| C178 | Several methods may keep their results in one cache file | partial | Props/CacheTwice |
| C179 | From pinyin to zhuyin and back | proved | Props/PinyinZhuyin |
| C180 | A distribution of a copy, and of a distribution | proved | Props/TreeDistAgain |
| C181 | The order of the fields of a kanjidic line | proved | Props/KanjidicOrder |
| C182 | Appending a place | proved | Props/PlaceAppend |
| C183 | A file of places, loaded, saved and loaded again | partial | Props/PlaceAgain |
| C184 | An index that was read can be written out and read again | partial | Props/IndexSaved |
| C185 | Sentences that were read can be written out and read again | partial | Props/SentencesSaved |
| C186 | Groups of sentences can be written out as links and read again | partial | Props/GroupsSaved |
| C187 | A table of radicals that was read can be written out and read again | proved | Props/RadkSaved |
| C188 | A dictionary that was read can be saved in its format and read again | proved | Props/DictSaved |
| C189 | A kanjidic that was read can be saved and read again | proved | Props/KanjidicSaved |
| C190 | A table of zhuyin and pinyin that was read can be written out and read again | proved | Props/ZhuyinSaved |
| C191 | Composed and decomposed kana have the same surface variants | partial | Props/KanaSurface |
| C192 | Converting between the syllabaries does not depend on how voiced kana are written | partial | Props/KanaConvert |

For partial claims the manifest says what is missing.

## 5. Trusted base

* Lean's kernel (the proofs use no `sorry`, no added axiom, no `native_decide`, no `bv_decide`).
* The axioms below, which are part of Lean.
* The reading of the Python source: that the definitions in `Model/` do what the cited lines do, and that those in `Py/` do what CPython does.
* What is a parameter or a hypothesis in theorems: pickling (`PickleSpec`: what was written is read back, a truncated stream fails; an instance
  is given), `==` and hashing of cached arguments, `str.lower` for pinyin, `datetime.strptime`, random shuffles, the order of sets, the clock and the
  modification times of files.

### Axioms by theorem

* no axioms (10 theorems): C126_union_refuted, C131_hash_refuted, C140_drain_refuted, C143_shared_refuted, C155_restored, C156_mapping, C24_same_tick_goes_stale, C73_missing, C73_variable, C82_merge.
* `propext` (63 theorems): C07_from_coords_substring, C108_missing, C119_one_object_partial, C119_origin_partial, C11_chain_mapping_empty, C125_options, C126_combine_refuted, C127_missing, C131_node_refuted, C133_each_line_once, C140_unchanged, C141_disk_refines, C148_unchanged, C148_walk, C150_each_line_once, C150_files, C150_lazy, C154_loads, C155_kept, C156_hanzi, C157_cut, C160_mixed, C167_refuted, C169_refuted, C170_refuted, C171_kanji, C171_refuted, C174_refuted, C178_refuted, C182_again, C187_indent, C190_indent, C190_repeated, C20_leading_mark, C23_keyword_order_matters, C28_other_word, C30_iter, C31_never_empty, C32_six_kept, C44_own_label, C51_links_refuted, C52_same, C52_text, C53_build_index_refuted, C62_pieces, C63_no_dictionary, C67_recover_refuted, C68_hanzi_chars, C68_hanzi_known, C68_hanzi_partial, C68_hanzi_refuted, C74_lengths, C81_procmap_raises, C81_procmap_returns, C83_closed_stream, C87_lazy, C87_lazy_failing, C88_eager_partial, C89_bad_file, C91_first_line, C91_line_error, C95_torn_refuted, C97_shared_refuted.
* `Quot.sound`, `propext` (256 theorems): C02_order_independent, C04_constructed, C05_sign_antisymmetric, C05_transitive, C08_lines_exact, C08_order_independent, C08_outside_table, C09_invert_WF, C09_invert_keys, C102_kanjidic_default, C102_kanjidic_files, C102_kanjidic_unreadable, C102_path_or_stream, C102_pinyin_table, C102_pinyin_table_first, C102_print_radicals, C102_radkdict, C102_zhuyin, C103_dump_refuted, C103_dump_unopened, C103_empty_partial, C103_from_file_refuted, C103_kanjidic_exact, C103_kanjidic_refuted, C103_tatoeba_refuted, C106_indices, C107_exact, C107_partial, C107_refuted, C10_invert_injective, C10_is_injective_iff, C111_in, C112_place_slash, C112_reader, C112_sources, C114_same_as_plain, C114_standard_refuted, C115_unwritable_exact, C118_ends, C119_ends, C119_not_shared, C11_chain_mapping, C122_hanzi, C122_indices, C123_filter_row, C123_filter_row_default, C123_filter_row_first, C123_indices, C123_languages_twice, C123_links, C123_sentences, C123_sentences_none, C125_default, C125_verbatim, C125_written, C126_union_always, C127_in_place, C127_output, C127_returns, C128_refuted, C12_multi_dict_keys, C12_multi_dict_total, C130_refuted, C131_node_iff, C131_search, C131_word_iff, C131_word_returns, C132_collection, C132_iterator_iff, C132_iterator_partial, C132_iterator_refuted, C132_later_changes, C132_text_exact, C133_calls, C133_generators, C133_header, C133_no_lookahead, C136_canonical, C138_agree_partial, C138_encoding_argument, C138_one_byte_iff, C138_text, C141_disk_calls, C141_disk_private, C144_independent, C145_agree, C145_filtered_raises, C145_filtered_returns, C145_in_place_raises, C145_in_place_resized, C145_in_place_returns, C145_new_raises, C145_new_resized, C145_new_returns, C145_partial_raises, C145_partial_returns, C146_source, C147_attributes, C147_breadth_first, C147_final, C147_postorder, C147_preorder, C147_prune, C148_depths, C149_ends, C14_partial_map_error, C14_partial_map_split, C150_shared, C151_date_calls, C151_default, C151_details, C151_failure, C151_filter_calls, C151_loaded, C151_raises, C153_mixed, C154_details, C154_group, C154_lookup, C154_quiet, C154_recent, C154_sentence, C154_single, C154_two_writers, C154_type_error, C154_wrong_group, C156_blocks_mark, C156_last_block, C156_repeated, C156_scripts, C157_hanzi, C157_kanjidic, C157_links_load, C157_zhuyin, C159_drawn, C159_enough, C15_in_place_agrees, C15_map_dict_exact, C161_map_fusion, C161_pieces, C162_basic, C165_comments_partial, C166_neighbours, C168_refuted, C172_dictionaries, C172_entries, C177_disk, C177_memory, C181_exchange, C182_find_node, C182_order, C183_refuted, C185_no_sentences, C185_refuted, C189_tab, C18_needs_onbin, C190_file, C190_pinyin, C190_whole, C190_zhuyin, C192_refuted, C20_terminates_and_fills, C21_pattern_text, C22_is_voiced, C22_voicing_structure, C28_aligned, C28_equal_after_update, C29_no_sense_lost, C35_pattern_text, C38_pattern_text, C39_kanji, C39_strokes, C40_comments, C40_raises, C46_order, C46_preorder, C47_order, C47_postorder, C48_breadth_first, C48_find_node, C49_refuses, C52_chain, C52_tree, C55_language_refuted, C56_history, C56_indices, C56_links, C56_sentences, C57_load_iff, C59_components_refuted, C59_order_refuted, C60_pattern_text, C60_roundtrip_refuted, C61_eq_iff, C63_adjust, C64_loads, C64_lookups, C65_blank_line, C65_fields_partial, C65_fields_refuted, C69_malformed, C69_pattern, C69_pattern_text, C70_inverse, C70_tables, C71_refuses, C71_standard, C72_filter, C72_idempotent, C73_home, C73_resource, C73_search, C74_initials, C74_inverse, C74_pairs, C76_lists, C77_raises, C78_accepts_refuted, C79_table, C80_construct_errors, C82_overwrite, C82_sequence, C83_dash, C83_results, C83_results_rest, C83_written, C84_clean_partial, C84_iff, C84_left_open, C84_refuted, C86_default, C86_layout, C86_lines_determine, C86_text_determines, C87_pinyin, C87_stays_cached, C88_eager_refuted, C88_iff, C91_cases, C92_pattern_texts, C94_every_hanzi_file, C94_kanjidic, C95_ends, C95_exact_condition, C95_small_values_partial, C96_quoted_refuted, C97_programs_exact, C97_update_exact, C98_indices_needs_readings, C98_links_assign, C99_grammar_unambiguous, C99_known_formats, C99_pattern_syntax, toAscii_eq_call, toHiragana_eq_call, toKatakana_eq_call.
* `Classical.choice`, `Quot.sound`, `propext` (521 theorems): C01_constructed, C01_conversion_is_relabelling, C01_lossless, C01_round_trips, C02_script_type_exact, C02_unambiguous, C03_boundaries_segmentation, C03_boundaries_unique, C04_idempotent, C04_normalize_output, C04_normalize_pointwise, C04_parts, C05_is_code_point_order, C05_script_insensitive, C05_zero_iff_same_kana, C06_get_script_exact, C06_script_types_exact, C06_unique_kanji_exact, C07_coords_round_trip, C07_from_coords_round_trip, C09_invert_exact, C09_invert_transposes, C09_invert_twice, C100_pinyin_regex, C101_no_zhuyin, C101_zhuyin_regex_partial, C102_hanzi_file, C103_from_file_exact, C104_filename_refuted, C104_stream_partial, C105_exact, C105_initial_refuted, C105_medial_refuted, C105_partial, C106_compared, C106_equality, C106_links, C106_sentences, C108_date_ok, C108_details, C108_error, C108_exact, C108_fixed_form, C108_read_back, C109_copy, C109_copy_layout, C109_layout, C109_no_counts, C10_order_independent, C110_copy, C110_disjoint, C110_frame, C110_original, C111_del, C111_histories, C111_set, C112_entry, C112_node, C112_place, C112_update, C112_update_other, C113_boundaries_coarser, C113_boundaries_iff, C113_normalize, C113_script_types, C114_reused, C114_up_to_date, C115_unreadable, C116_history, C116_runs_once, C116_same_outcome, C117_keeps_text, C117_stable, C118_not_again, C118_origin, C118_transparent, C119_settled_partial, C120_append_iff, C120_find_node, C120_from_file, C120_programs, C120_programs_iff, C120_refuted, C120_reports, C120_walk, C120_walk_ends_iff, C120_walk_ways, C121_copy_ends_iff, C121_dist_ends_iff, C121_find_node, C121_nodes_ok, C121_path_ends_iff, C121_path_refuted, C121_programs_iff, C121_refuted, C121_walks, C121_walks_end_iff, C122_dictionary, C122_kanjidic, C122_radicals, C122_sentences, C122_zhuyin, C124_answer, C124_calls, C124_circular, C124_equivalence, C124_itself, C124_layout_ends_iff, C124_plain, C124_programs, C124_returns, C125_writer, C125_writer_iff, C126_diff_iff, C127_refuted, C128_add_child, C128_del_child, C128_del_then_unlink, C128_iff, C128_unlink, C129_answers, C129_tables_independent, C12_multi_dict_exact, C130_answer, C130_equivalence, C130_iff, C130_partial, C134_asked, C134_ends, C134_kept, C134_leaf, C134_prune, C134_raises, C135_append_iff, C135_every_file, C135_raises_iff, C135_rows, C136_character, C136_meaning, C136_semivoiced_iff, C136_voiced_iff, C137_composed_partial, C137_decomposed, C137_iff, C137_refuted, C138_ascii, C138_kanji_list, C138_radkdict_refuted, C138_sentences_refuted, C138_utf8, C139_between_refuted, C139_dump_iff, C139_lossless, C139_same_locale, C139_utf8, C13_merge_assoc, C13_merge_is_union, C13_merge_order, C140_effects_iff, C140_never_hits, C140_results_iff, C141_memory_iff, C141_memory_look, C141_memory_others, C141_memory_shared, C142_as_if_own_iff, C142_changes_iff, C142_constructor, C142_copy, C142_programs, C142_prune, C142_stays, C143_last_call, C143_own_files, C143_same_outcome_iff, C144_invert_mapping, C144_merge_dicts, C144_multi_dict, C146_dictionary, C146_later, C146_load, C146_objects, C146_program, C146_sound, C146_words, C147_apart, C147_dismantle, C147_tree_dist, C148_paths, C149_exact_condition, C149_late_edit, C149_quiet_call_partial, C149_undisturbed_partial, C150_closed, C150_file, C150_open, C150_row_by_row, C150_stream, C152_raises, C152_readings, C153_ids, C153_ids_iterator, C153_iterator, C153_keys, C153_live, C153_no_file, C153_one_file, C153_pairs, C154_calls, C154_details_order, C154_group_order, C154_order, C155_exact, C155_future, C155_removed, C155_right, C155_wrong, C156_ascii, C156_blocks_apart, C156_blocks_joined, C156_compare, C156_convert, C156_long, C156_long_raises, C156_segment, C157_dictionary, C157_indices, C157_links, C157_links_grow, C157_overwrite, C157_radicals, C157_radicals_load, C157_sentences, C157_strokes, C158_group_both, C158_group_some, C158_groups_iff, C158_indices, C158_two_readers, C159_circular, C159_limit, C160_canonical_segment, C160_iteration_marks, C160_katakana_segment, C160_katakana_sequences, C160_long_vowels, C160_sequences, C161_chain_assoc, C161_chain_inverse, C161_invert, C161_invert_merge, C161_multi_pieces, C162_load_iff, C163_again, C163_connected, C163_known_iff, C164_hiragana_iff, C164_katakana, C164_normal, C164_search_form, C165_blank_radk, C165_blank_refused, C165_cedict_refuted, C165_dictionary_refuted, C166_block, C166_stable, C166_syllabary, C166_unique, C167_gaps_partial, C167_iff, C167_strip_partial, C168_canonical_closed, C168_converse_iff, C168_converse_partial, C168_surface_closed, C169_breaks_partial, C169_join_refuted, C169_letters, C169_syllable_partial, C16_canonical_segment_forms_partial, C16_vu_raises, C170_forms_partial, C171_again_iff, C171_passes_partial, C172_no_change, C172_swapped, C172_twice, C173_again, C173_all, C173_none, C173_steps, C174_disk_outside_partial, C174_iff, C174_memory_outside_partial, C174_memory_outside_unchanged_partial, C175_agree, C175_own_label, C176_breadth, C176_find, C176_paths, C176_prune, C176_walks, C178_apart_partial, C178_iff, C178_some_method_partial, C179_back_and_there, C179_hash, C179_there_and_back, C17_surface_forms_errors, C17_surface_forms_exact, C180_again, C180_any_arithmetic, C180_copy, C180_default, C180_equal_trees, C180_stored_counts, C181_order, C182_dump, C182_file, C182_find_all, C182_walk, C183_again, C184_read_again, C184_refuted, C184_same_iff, C184_settles, C185_iff, C185_read_again_partial, C186_any_groups, C186_iff, C186_refuted, C187_file, C187_lines, C188_convert, C188_file, C188_iff, C188_lines, C189_file, C189_iff, C189_line, C189_saved, C189_stray, C18_canonical_undoes_surface, C190_segmenter, C191_onbin_iff, C191_refuted, C191_rendaku_iff, C191_surface_iff, C192_hiragana_iff, C192_hiragana_partial, C192_katakana, C19_canonical_forms_count, C19_canonical_forms_domain, C19_canonical_forms_exact, C21_expand_long_vowels_fails, C21_expand_long_vowels_local, C22_tables_total, C22_voicing_inverse, C23_at_most_one_success, C23_first_success_wins, C23_transparent, C24_unpicklable, C24_up_to_date, C25_call_after_crash, C25_crash_safe, C25_never_raises, C26_errors, C26_needs_update_exact, C26_order_independent, C27_last_result_cached, C29_partition, C29_update, C30_error, C30_merge, C30_senses, C31_roundtrip, C32_cedict, C32_cj_kdic_exact, C32_cj_kdic_iff, C32_cj_kdic_partial, C32_jc_kdic, C33_detect_exact, C33_order_independent, C33_unambiguous, C34_agrees_with_iter, C34_errors, C35_get_codes, C36_errors, C36_index, C36_iter, C37_pool, C37_raises, C38_line, C38_missing, C39_counts, C39_radicals, C41_aliases_refuted, C41_exact, C41_files, C41_roundtrip_partial, C42_walk, C42_walk_length, C43_order, C43_paths, C44_find_node, C45_find_all, C49_copy, C49_equal, C50_prune, C50_trim_nodes, C51_del_child_keeps_parent, C51_links_exact, C51_links_partial, C54_details, C54_ids, C54_load_iff, C54_sentence, C55_filter, C55_language_exact, C55_language_iff, C55_language_partial, C57_invalid_id, C57_load_names, C57_names, C57_own_group, C58_connected, C59_any_order_iff, C59_components_iff, C59_components_partial, C59_disjoint_iff, C60_parse, C60_reparse_partial, C60_roundtrip_iff, C60_roundtrip_partial, C60_sound, C60_write_read, C61_equivalence, C61_reparse_eq, C62_error, C62_roundtrip, C63_total, C63_which, C65_exact, C66_spelling, C66_toned, C67_exact, C67_preserves, C67_recover_iff, C67_recover_partial, C68_from_ascii, C68_strip, C68_unknown_dropped, C68_unknown_iff, C69_longest, C69_order, C69_total, C71_opens, C75_any_method, C75_cum_count_leaves, C75_cum_count_refuted, C75_dist_partial, C75_exact, C75_leaf_method, C75_root_one, C75_zero_total, C76_list, C77_last_wins, C78_accepts_partial, C78_exact, C80_alphabet, C80_call_exact, C80_lossless, C83_clean, C85_eq_iff, C85_equivalence, C89_headless, C89_prints, C89_unknown, C90_complete_partial, C90_init, C90_refuted, C90_storable, C91_error, C91_line, C91_outline, C92_cedict, C92_cj_kdic, C92_edict, C92_jc_kdic, C92_only_format_error, C93_bad_line, C93_iter, C93_lookup, C94_every_file, C94_hanzi, C94_readers, C95_mixed_refuted, C95_one_writer_partial, C95_same_call_one_writer_partial, C95_same_call_partial, C95_whole_reads_partial, C96_detailed, C96_indices, C96_links, C96_rows_exact, C96_sentences, C97_by_reading, C97_dictionaries_share, C97_load, C97_values_partial, C98_indices, C98_links, C98_sentence_dates, C98_sentences, C99_custom_format, C99_exceptions, C99_no_gloss, C99_no_senses, C99_no_word, C99_unambiguous, C99_word_left_out.

## 6. What is modelled

For each function of the code the definitions that model it.

| function | lines | definitions |
|---|---|---|
| alternations.py `canonical_forms` | 31-53 | `canonicalForms`, `canonicalSets`, `product` |
| alternations.py `canonical_segment_forms` | 56-81 | `canonicalSegmentForms`, `devoiceHead` |
| alternations.py `surface_forms` | 84-96 | `product`, `surfaceForms` |
| alternations.py `rendaku_variants` | 99-106 | `rendakuVariants` |
| alternations.py `onbin_variants` | 109-118 | `onbinVariants` |
| alternations.py `_create_voicing_map` | 121-146 | `createVoicingMap` |
| alternations.py `insert_duplicate_kanji` | 153-168 | `insertDuplicateLoop` |
| alternations.py `expand_long_vowels` | 174-209 | `expandLongVowels`, `expandMatches`, `expandSegment`, `longPositionsByText` |
| common.py `filter_comments` | 19-27 | `LineSeen`, `LineWorld`, `filterComments`, `nextUncommented` |
| common.py `sopen` | 30-72 | `sopen`, `sopenH`, `sopenLines`, `sopenLinesAt` |
| common.py `stream_codec` | 75-84 | not modelled: returns its argument on Python 3 |
| common.py `get_stream_context` | 87-91 | `streamContext`, `withContext` |
| common.py `_NullContextWrapper.__init__` | 99-100 | `streamContext`, `withContext` |
| common.py `_NullContextWrapper.__enter__` | 102-103 | `streamContext`, `withContext` |
| common.py `_NullContextWrapper.__exit__` | 105-106 | `streamContext`, `withContext` |
| kana_table.py `KanaTable.__init__` | 31-40 | `KanaWorld.new`, `kanaTable`, `kanaVowels` |
| kana_table.py `KanaTable._build_dicts` | 42-69 | `KanaObj`, `KanaTable.build`, `KanaWorld.new`, `addColumn`, `kanaRows` |
| kana_table.py `KanaTable.get_coords` | 71-76 | `KanaTable.answer`, `KanaTable.getCoords` |
| kana_table.py `KanaTable.from_coords` | 78-83 | `KanaTable.answer`, `KanaTable.fromCoords` |
| kana_table.py `KanaTable.to_vowel_line` | 85-90 | `KanaTable.answer`, `KanaTable.toVowelLine` |
| kana_table.py `KanaTable.to_consonant_line` | 92-94 | `KanaTable.answer`, `KanaTable.toConsonantLine` |
| kana_table.py `KanaTable.is_voiced` | 97-100 | `isVoiced`, `isVoicedText` |
| kana_table.py `KanaTable.is_semivoiced` | 103-106 | `isSemivoiced`, `isSemivoicedText` |
| kana_table.py `KanaTable.get_table` | 108-110 | `KanaWorld.getTable` |
| kana_table.py `KanaTable.get_cached` | 113-118 | `GObs`, `GPhase`, `lazyGet` |
| kana_table.py `KanaTable.__repr__` | 120-121 | `showKanaTable` |
| maps.py `chain_mapping` | 16-30 | `chainLoop`, `chainMapping` |
| maps.py `invert_mapping` | 33-43 | `appendCell`, `invertCells`, `invertMapping`, `setdefaultAppend` |
| maps.py `is_injective` | 46-59 | `isInjective`, `isInjectiveLoop` |
| maps.py `invert_injective_mapping` | 62-72 | `invertInjectiveLoop`, `invertInjectiveMapping` |
| maps.py `map_dict` | 75-96 | `mapDict`, `mapDictInPlace`, `mapDictLoop`, `mapItems`, `mapLive`, `mapLiveBody`, `mapNew`, `mapNewBody` |
| maps.py `multi_dict` | 99-123 | `appendCell`, `multiCells`, `multiDict` |
| maps.py `procmap` | 126-143 | `procmap` |
| maps.py `merge_dicts` | 146-159 | `mergeCell`, `mergeCells`, `mergeDicts`, `mergeStep` |
| maps.py `partial_map` | 162-189 | `partialMap`, `partialMapIn` |
| maps.py `filtered_map` | 192-197 | `filteredMap`, `filteredMapIn` |
| auto_format.py `detect_format` | 16-26 | `detectFormat`, `detectIn`, `indexWithFile` |
| auto_format.py `load_dictionary` | 29-36 | `indexWithFile`, `loadDictionary` |
| auto_format.py `iter_entries` | 39-46 | `LineWorld`, `iterFile` |
| bilingual_dict.py `BilingualDictionary.__init__` | 30-35 | `readingsOf` |
| bilingual_dict.py `BilingualDictionary.update` | 37-42 | `bilingualUpdate` |
| bilingual_dict.py `DictionaryEntry.__init__` | 52-57 | `EHeap.newEntry`, `ERef`, `Entry`, `Entry.new` |
| bilingual_dict.py `DictionaryEntry.update` | 59-81 | `EHeap.join`, `EHeap.padAt`, `EHeap.update`, `Entry.padded`, `Entry.update` |
| bilingual_dict.py `DictionaryEntry.senses_by_reading` | 83-95 | `EHeap.appendUnder`, `EHeap.sensesByReading`, `Entry.sensesByReading`, `appendUnder` |
| bilingual_dict.py `DictionaryEntry.__repr__` | 97-98 | `Entry.show` |
| bilingual_dict.py `DictionaryEntry.__str__` | 100-105 | `Entry.show` |
| bilingual_dict.py `DictionaryEntry.__hash__` | 110-111 | `entryHash` |
| cjkdata.py `find_path` | 16-29 | `findPath`, `searchLoop` |
| cjkdata.py `get_resource` | 32-34 | `getResource` |
| dict_format.py `DictionaryFormat.match_header` | 46-51 | not modelled: abstract, only raises |
| dict_format.py `DictionaryFormat.parse_line` | 53-55 | not modelled: abstract, only raises |
| dict_format.py `DictionaryFormat.parse_dictionary` | 57-71 | `EHeap.addEntry`, `EHeap.parseLoop`, `addEntry`, `parseDictionary` |
| dict_format.py `DictionaryFormat.iter_entries` | 73-79 | `LineSeen`, `LineWorld`, `iterEntries` |
| dict_format.py `RegexFormat.__init__` | 90-94 | `RegexFormat`, `TextFormat`, `TextFormat.new` |
| dict_format.py `RegexFormat.match_header` | 96-97 | `RegexFormat.matchHeader`, `TextFormat.matchHeader` |
| dict_format.py `RegexFormat.parse_line` | 99-118 | `EHeap.make`, `RegexFormat.parseLine`, `TextFormat.collectSenses`, `TextFormat.parseLine` |
| kanji_list.py `get_lists` | 19-21 | `getKanjiLists` |
| kanji_list.py `get_list` | 24-28 | `getKanjiList`, `kanjiListAt`, `kanjiListH` |
| kanjidic.py `KanjidicEntry.__init__` | 63-66 | `KEntry` |
| kanjidic.py `KanjidicEntry.get_all_readings` | 68-84 | `allReadings`, `readingStem` |
| kanjidic.py `Kanjidic.__init__` | 96-110 | `enterAll`, `kanjidic`, `kanjidicAt`, `kanjidicFilesH`, `kanjidicH`, `loadKanjidic`, `loadKanjidicFiles`, `openAll` |
| kanjidic.py `Kanjidic.get_cached` | 113-117 | `GObs`, `GPhase`, `eagerGet` |
| kanjidic.py `Kanjidic._parse_kanjidic` | 119-133 | `kanjidicLoop`, `kanjidicStreams` |
| kanjidic.py `Kanjidic._parse_line` | 135-193 | `CodeVal`, `KInfo`, `codeVal`, `frequencyOf`, `kanjidicLine`, `segmentLoop`, `segmentPattern`, `segmentStep`, `segmentText`, `segmentsByText` |
| pinyin_table.py `PinyinTable.__init__` | 39-51 | `PinyinGot`, `constructTable`, `loadPinyinTable`, `newPinyinTable`, `pinyinTableH`, `pinyinTableLoop` |
| pinyin_table.py `PinyinTable.from_hanzi` | 53-69 | `fromHanzi`, `fromHanziChar`, `fromHanziLoop` |
| pinyin_table.py `PinyinTable.from_ascii` | 71-80 | `applyTones`, `fromAscii` |
| pinyin_table.py `PinyinTable.strip_tones` | 82-86 | `stripTones` |
| pinyin_table.py `PinyinTable._apply_tone` | 88-104 | `applyTone`, `applyToneLoop` |
| pinyin_table.py `PinyinSegmenter.__init__` | 108-116 | `basePattern`, `isPinyin`, `loadSegmenter`, `newSegmenter`, `pinyinRe`, `stringPattern` |
| pinyin_table.py `PinyinSegmenter.segment_pinyin` | 118-136 | `correctMatches`, `correctMatchesByText`, `readSyllable`, `segmentPinyin`, `segmentPinyinByText`, `toneOf` |
| pinyin_table.py `PinyinSegmenter.is_pinyin` | 138-140 | `isPinyin`, `isPinyinByText` |
| pinyin_table.py `normalize` | 143-148 | `pinyinNormalize` |
| pinyin_table.py `get_pinyin_table` | 151-158 | `GObs`, `GPhase`, `getTable`, `lazyGet` |
| pinyin_table.py `get_pinyin_segmenter` | 161-169 | `GObs`, `GPhase`, `getSegmenter`, `lazyGet` |
| place.py `Place.__init__` | 26-43 | `Place`, `placeFromBytes`, `placeInit` |
| place.py `Place.get_children` | 45-46 | not modelled: returns the child dictionary, a field of the model |
| place.py `Place.__repr__` | 50-51 | `Place.show` |
| place.py `Place.__str__` | 53-58 | `Place.show`, `shownReading` |
| place.py `Place.dump` | 63-66 | `dumpPlace`, `dumpPlaceAt`, `heapDump`, `heapLine`, `placeDump`, `placeDumpH`, `placeDumpText` |
| place.py `Place.from_file` | 69-106 | `LoadState`, `loadLoop`, `loadPath`, `loadPlace`, `loadPlaceAt`, `loadStep`, `placeFromFile`, `placeFromFileH`, `placeFromText`, `storeAppend` |
| place.py `Place.append` | 108-110 | `placeAppend`, `storeAppend` |
| place.py `Place.find_node` | 112-141 | `findLevel`, `findLoop`, `heapFindLevel`, `heapFindLoop`, `heapFindNode`, `placeFindNode` |
| place.py `Place.find_all` | 143-153 | `heapFindAll`, `placeFindAll` |
| place.py `Place.walk` | 155-169 | `PlaceGen`, `PlaceGen.next`, `heapWalk`, `placeWalk`, `placeWalkLoop` |
| place.py `Place.walk_with_path` | 171-199 | `PathGen`, `PathGen.next`, `PathGen.nextPath`, `heapPathLoop`, `placeWalkWithPath`, `walkPathLoop` |
| place.py `Place._to_line` | 201-209 | `heapLine`, `placeToLine` |
| place.py `Place._from_line` | 212-233 | `placeFromBytes`, `placeFromLine`, `readReading` |
| radkdict.py `_default_stream` | 22-23 | `defaultStream`, `openResource`, `radkDictAt` |
| radkdict.py `RadkDict.__init__` | 34-40 | `loadRadkDict`, `radkDict`, `radkDictAt`, `radkDictH` |
| radkdict.py `RadkDict._parse_radkfile` | 42-79 | `RadkState`, `radkDict`, `radkLoop`, `radkStep` |
| radkdict.py `RadkDict.get_cached` | 82-87 | `GObs`, `GPhase`, `eagerGet` |
| radkdict.py `print_radicals` | 90-97 | `printLoop`, `printRadicals`, `printRadicalsFrom`, `radicalLine`, `radicalsOf` |
| split_by_codes.py `load_coded_dictionary` | 16-47 | `codedAt`, `codedH`, `codedStep`, `entryCodes`, `fileUnder`, `loadCodedDictionary`, `loadCodedFrom` |
| split_by_codes.py `iter_coded_entries` | 50-59 | `LineSeen`, `LineWorld`, `entryCodes`, `iterCodedEntries`, `iterCodedFrom` |
| split_by_codes.py `get_codes` | 82-90 | `codeGroupsByText`, `getCodes` |
| tatoeba.py `TatoebaDict.__getitem__` | 34-35 | `IndexData.getItem`, `IndexData.mapping`, `IndexObj.item`, `SentData.mapping`, `threadSentence` |
| tatoeba.py `TatoebaDict.__iter__` | 37-38 | `IndexData.mapping`, `LinkData.mapping`, `SentData.ids`, `SentData.mapping` |
| tatoeba.py `TatoebaDict.__len__` | 40-41 | `IndexData.mapping`, `LinkData.mapping`, `SentData.ids`, `SentData.mapping` |
| tatoeba.py `TatoebaReader.__init__` | 49-51 | not modelled: abstract, only raises |
| tatoeba.py `TatoebaReader.load_file` | 53-84 | `CsvOptions.dialect`, `RowSeen`, `RowWorld.askFresh`, `RowWorld.askOwn`, `loadFile`, `loadFileH`, `loadFileWith`, `loadRows`, `rowsFrom`, `sentencesAt` |
| tatoeba.py `TatoebaReader._get_src_repr` | 86-91 | `srcRepr` |
| tatoeba.py `TatoebaSentenceReader.__init__` | 112-114 | `SentReader`, `keepGiven` |
| tatoeba.py `TatoebaSentenceReader.language` | 116-134 | `SentData.language` |
| tatoeba.py `TatoebaSentenceReader.sentence` | 136-150 | `SentData.sentence`, `threadSentence` |
| tatoeba.py `TatoebaSentenceReader.details` | 152-180 | `SentData.details`, `threadDetails` |
| tatoeba.py `TatoebaSentenceReader.sentences` | 183-187 | not modelled: the getter returns the stored file name; the setter is modelled |
| tatoeba.py `TatoebaSentenceReader.sentences` | 190-241 | `LangArg.test`, `SentReader.assign`, `hookAssign`, `hookDetails`, `hookKept`, `hookLoad`, `hookRow`, `langOk`, `loadSentences`, `parseDetails`, `sentDetails`, `sentLoad`, `sentLoadArg`, `sentLoadHook`, `sentRow`, `sentRowArg`, `sentRowHook`, `sentStores`, `sentencesAt`, `sentencesH` |
| tatoeba.py `TatoebaSentenceReader.sentence_ids` | 244-248 | `SentData.ids` |
| tatoeba.py `TatoebaSentenceReader._base_dict` | 251-252 | `SentData.ids`, `SentData.mapping`, `threadSentence` |
| tatoeba.py `TatoebaSentenceReader.parse_date` | 255-262 | `SentHooks.default`, `parseDate`, `strptime` |
| tatoeba.py `TatoebaSentenceReader.filter_row` | 264-265 | `SentHooks.default`, `sentRowHook` |
| tatoeba.py `TatoebaSentenceReader.__repr__` | 267-269 | `showSentReader` |
| tatoeba.py `TatoebaLinksReader.__init__` | 273-295 | `LinkReader`, `LinkReader.new` |
| tatoeba.py `TatoebaLinksReader.group` | 297-316 | `LinkData.groupOf` |
| tatoeba.py `TatoebaLinksReader.groups` | 318-326 | `LinkData.groups` |
| tatoeba.py `TatoebaLinksReader.links` | 329-330 | not modelled: the getter returns the stored file name; the setter is modelled |
| tatoeba.py `TatoebaLinksReader.links` | 333-373 | `LinkReader.assign`, `linkAdd`, `linkEnter`, `linkPair`, `linkRows`, `linkSkip`, `linkStores`, `linksH`, `loadLinks` |
| tatoeba.py `TatoebaLinksReader.sentence_ids_filter` | 376-377 | not modelled: returns a stored text |
| tatoeba.py `TatoebaLinksReader._sentence_ids_filter` | 379-394 | `linkFilter` |
| tatoeba.py `TatoebaLinksReader.sentence_id_subset` | 397-398 | not modelled: returns a stored set, a field of the model |
| tatoeba.py `TatoebaLinksReader._sentence_id_subset` | 400-401 | `keepSet` |
| tatoeba.py `TatoebaLinksReader._base_dict` | 404-405 | `LinkData.mapping` |
| tatoeba.py `TatoebaLinksReader.__getitem__` | 407-408 | `LinkData.getItem`, `LinkData.mapping`, `linkLoads` |
| tatoeba.py `TatoebaLinksReader.__repr__` | 410-411 | `showLinkReader` |
| tatoeba.py `TanakaWord.__init__` | 428-433 | `Tanaka`, `wordHash` |
| tatoeba.py `TanakaWord.from_text` | 436-462 | `Tanaka.fromText`, `fromTextByText`, `wordHash` |
| tatoeba.py `TanakaWord.resolve_display` | 464-471 | `Tanaka.resolveDisplay`, `wordHash` |
| tatoeba.py `TanakaWord.__str__` | 473-484 | `Tanaka.toText`, `wordHash` |
| tatoeba.py `TanakaWord.__eq__` | 489-508 | `Tanaka.eq`, `sameDisplay`, `wordHash`, `wordReply`, `wordsEq` |
| tatoeba.py `TanakaWord.__ne__` | 510-511 | `Tanaka.ne`, `wordHash`, `wordNeOther` |
| tatoeba.py `TatoebaIndexReader.__init__` | 523-538 | `IndexObj`, `IndexReader`, `indexWithFile` |
| tatoeba.py `TatoebaIndexReader.link` | 540-559 | `IndexData.linkOf`, `indexWithFile` |
| tatoeba.py `TatoebaIndexReader.jpn_indices` | 562-563 | `indexWithFile` |
| tatoeba.py `TatoebaIndexReader.jpn_indices` | 566-590 | `IndexFill`, `IndexObj.load`, `IndexObj.step`, `IndexReader.assign`, `fillEnter`, `fillRow`, `indexEnter`, `indexLoad`, `indexRow`, `indexWithFile`, `indicesH`, `loadIndices` |
| tatoeba.py `TatoebaIndexReader.parse_sentence` | 592-620 | `IndexObj.parse`, `IndexObj.step`, `parseSentence`, `parseWords` |
| tatoeba.py `TatoebaIndexReader.adjust_details` | 622-658 | `IndexObj.adjust`, `IndexObj.step`, `adjustDetails`, `adjustInPlace`, `adjustWord`, `findReading`, `readingsOf` |
| tatoeba.py `TatoebaIndexReader.sentence_id_subset` | 662-663 | not modelled: stores and returns a set, a field of the model |
| tatoeba.py `TatoebaIndexReader.sentence_id_subset` | 666-667 | `IndexObj.step`, `keepSet` |
| tatoeba.py `TatoebaIndexReader._base_dict` | 670-671 | `IndexData.getItem`, `IndexData.mapping`, `IndexObj.item` |
| tree.py `TreeNode.__init__` | 23-27 | `TNode`, `TObj`, `TObjs.step`, `make`, `newNode`, `nodeHash`, `orNewAttr`, `orNewKids` |
| tree.py `TreeNode.get_ancestors` | 29-37 | `ancestors`, `ancestorsLoop`, `nodeHash`, `viewUp` |
| tree.py `TreeNode.path_from_root` | 41-54 | `nodeHash`, `pathFromRoot`, `pathLoop` |
| tree.py `TreeNode.walk_preorder` | 58-70 | `PreWalk`, `PreWalk.next`, `PreWalk.start`, `buildIndex`, `nodeHash`, `preLoop`, `walkPre` |
| tree.py `TreeNode.walk` | 72-73 | `PreWalk.start`, `nodeHash`, `walkPre` |
| tree.py `TreeNode.walk_postorder` | 75-92 | `nodeHash`, `postLoop`, `postNext`, `walkPost` |
| tree.py `TreeNode.walk_breadth_first` | 94-114 | `BfsWalk`, `BfsWalk.next`, `BfsWalk.start`, `bfsLoop`, `nodeHash`, `walkBfs` |
| tree.py `TreeNode.unlink` | 116-121 | `nodeHash`, `unlink` |
| tree.py `TreeNode.copy` | 123-146 | `TObjs.step`, `copy`, `copyKids`, `copyLoop`, `makeCopy`, `nodeHash`, `treeCopy` |
| tree.py `TreeNode.prune` | 148-165 | `nodeHash`, `prune`, `pruneLoop`, `pruneLoopAsk`, `pruneNode`, `pruneResult`, `pruneResultAsk`, `treePrune`, `treePruneAsk` |
| tree.py `TreeNode.__len__` | 167-168 | `nodeHash`, `parentTruthy`, `showNode` |
| tree.py `TreeNode.__str__` | 170-171 | `nodeHash`, `showNode` |
| tree.py `TreeNode.__repr__` | 173-174 | `nodeHash`, `showNode` |
| tree.py `TreeNode.add_child` | 176-179 | `addChild`, `nodeHash` |
| tree.py `TreeNode.del_child` | 181-187 | `delChild`, `nodeHash` |
| tree.py `TreeNode.get_path` | 189-199 | `getPath`, `getPathText`, `nodeHash` |
| tree.py `TreeNode.find_node` | 201-210 | `bfsFind`, `nodeHash`, `treeFindNode` |
| tree.py `TreeNode.__getitem__` | 212-214 | `getAttr`, `nodeHash`, `unpackPair` |
| tree.py `TreeNode.__setitem__` | 216-218 | `nodeHash`, `setAttr` |
| tree.py `TreeNode.__contains__` | 220-221 | `hasAttr`, `nodeHash` |
| tree.py `TreeNode.__delitem__` | 223-226 | `delAttr`, `nodeHash` |
| tree.py `TreeNode.__eq__` | 228-231 | `nodeEq`, `nodeEqWith`, `nodeHash`, `nodeReply`, `sameChildren` |
| tree.py `TreeNode.build_index` | 233-245 | `buildIndex`, `nodeHash`, `unpackPair` |
| tree.py `TreeNode.layout` | 247-258 | `labelMethod`, `nestedMethod`, `nodeHash`, `treeLayout`, `treeLayoutIn` |
| tree.py `TreeNode._layout_children` | 260-273 | `layoutCall`, `layoutKids`, `layoutRow`, `nodeHash` |
| tree.py `TreeDist.__init__` | 281-304 | `CountMethod`, `countNode`, `distPasses`, `divVal`, `floatOf`, `freqAll`, `freqNode`, `newDist`, `readCounts`, `treeDist` |
| tree.py `TreeDist.copy` | 306-308 | `treeDistCopy` |
| tree.py `TreeDist.layout` | 310-314 | `distLayout`, `freqMethod`, `nestedMethod` |
| tree.py `TreeDist.combine` | 316-356 | `distCombine` |
| tree.py `TreeDist.union` | 358-359 | `callUnion`, `ownUnionParams` |
| tree.py `TreeDist.diff` | 361-362 | `callDiff` |
| zhuyin_table.py `_default_stream` | 17-18 | `defaultStream`, `openResource`, `zhuyinStream`, `zhuyinToPinyinAt` |
| zhuyin_table.py `parse_lines` | 23-28 | `zhuyinLines`, `zhuyinToPinyinAt` |
| zhuyin_table.py `zhuyin_to_pinyin_table` | 31-38 | `loadZhuyinToPinyin`, `unpack2`, `zhuyinH`, `zhuyinToPinyinAt`, `zhuyinToPinyinLoop`, `zhuyinToPinyinTable` |
| zhuyin_table.py `pinyin_to_zhuyin_table` | 41-48 | `loadPinyinToZhuyin`, `pinyinToZhuyinLoop`, `pinyinToZhuyinTable`, `unpack2`, `zhuyinH` |
| zhuyin_table.py `get_all_pinyin` | 51-59 | `collectPinyin`, `getAllPinyin`, `loadAllPinyin`, `unpack2`, `zhuyinH` |
| zhuyin_table.py `pinyin_regex_pattern` | 62-73 | `loadPinyinRegex`, `longestFirst`, `pinyinRe`, `pinyinRegexPattern`, `zhuyinH` |
| zhuyin_table.py `zhuyin_regex_pattern` | 76-86 | `collectPinyin`, `loadZhuyinRegex`, `unpack2`, `zhuyinH`, `zhuyinRegexPattern` |
| scripts.py `ScriptMapping.__init__` | 53-61 | `ScriptMapping`, `ScriptMapping.init` |
| scripts.py `ScriptMapping.__call__` | 63-76 | `ScriptMapping.call` |
| scripts.py `normalize_ascii` | 91-106 | `normalizeAscii` |
| scripts.py `normalize_kana` | 113-136 | `normalizeKana` |
| scripts.py `normalize` | 139-154 | `normalize` |
| scripts.py `get_script` | 157-168 | `getScript` |
| scripts.py `compare_kana` | 171-187 | `compareKana` |
| scripts.py `contains_script` | 190-207 | `containsScript` |
| scripts.py `script_type` | 210-243 | `scriptType`, `scriptTypeIn`, `scriptTypeLoop` |
| scripts.py `script_boundaries` | 246-281 | `boundariesLoop`, `scriptBoundaries` |
| scripts.py `script_types` | 284-302 | `scriptTypes` |
| scripts.py `unique_kanji` | 305-320 | `uniqueKanji` |
| smart_cache.py `disk_proxy_direct` | 20-57 | `DiskObjects.call`, `EditWorld`, `EditWorld.go`, `Phase`, `Race`, `diskAround`, `diskOutside`, `diskProxy`, `diskProxyArgs`, `diskProxyStream`, `proxyNest`, `raceStep`, `stampStep` |
| smart_cache.py `disk_proxy` | 60-64 | `Wrapped`, `diskProxy` |
| smart_cache.py `memory_proxy` | 67-92 | `CallArgs.keyEq`, `MObs`, `MPhase`, `MemObjects.call`, `Memo`, `StackCall`, `memoSet`, `memoryOutside`, `memoryProxy`, `memoryTwice`, `mstep`, `proxyRec` |
| smart_cache.py `try_cache` | 95-130 | `EditWorld`, `EditWorld.go`, `Race`, `loadCached`, `readCache`, `tryCache`, `tryCacheH`, `tryCacheStream` |
| smart_cache.py `store_cache_object` | 133-152 | `EditWorld.go`, `Race`, `storeCacheH`, `storeStream`, `storedBytes` |
| smart_cache.py `needs_update` | 155-181 | `EditWorld`, `EditWorld.go`, `anyNewer`, `depFiles`, `depsNewer`, `needsUpdate` |
| smart_cache.py `_get_module_dependencies` | 184-196 | `moduleDependencies` |
| load_as_rst.py `_fallback_load` | 23-32 | `fallbackLoad` |
| load_as_rst.py `convert` | 47-77 | `convertRst`, `convertText` |

Not modelled at all: Python 2 branches, decoding of bytes (a text file is a list of code points), the command line entry points, the tests.

## 7. Simplifications, by module

From the headers of the modules.

* `Alternations`: One-character strings used as dictionary keys (`to_voiced`, `from_voiced`) are represented by the character.
* `BilingualDict`: An entry owns its two lists: it is assumed that callers do not pass one list object to two entries (`parse_line`, the only caller in cjktools, builds fresh lists).
* `CacheEdits`: Model/SmartCache.lean takes a call of the proxy as one step. Here a call takes several steps (smart_cache.py:37-53), and between any two of them time may pass and other programs may write files. One program uses the cache, one call after the other. Simplified: the dependencies are file names (`files`, in the order in which `needs_update` looks at them); nobody else writes the cache file; the cache file is read in one step and written in one step, the last of the call, which decides its modification time; what the method computes depends on what it read last from each file.
* `CacheObjects`: `Model/SmartCache.lean` treats arguments and results as values. In Python they are objects: a method may change the arguments it is given, and a caller may change the result it got. `disk_proxy` stores the arguments after the method has run (smart_cache.py:43-46); `memory_proxy` hands out the stored object itself (smart_cache.py:81-88).
* `CacheRace`: Every process calls the proxy of the same method with the same cache file. A call is a sequence of steps, and the steps of different processes happen in any order. Reading and writing a file take any number of system calls of any sizes (Python's buffers decide how many). Simplifications. The dependencies do not change, so that an existing cache file is never outdated. The result of the method is a function of the arguments. A process that dies is one that takes no more steps.
* `CacheStack`: `memory_proxy` around `disk_proxy` and `disk_proxy` around `memory_proxy` (smart_cache.py:25-92). Both proxies take `*args` and `**params`; the memory cache makes a key of them, the disk cache pickles the tuple and the dictionary.
* `CacheStamps`: Model/SmartCache.lean and its histories (`Spec.Reachable`) let the clock run forward only and give a file the time at which it was written. Here the clock may be set, and files may get any modification time (`cp -p`, `tar`, a restored backup, `os.utime`), also the cache file; dependencies may be removed. A call of the proxy is one step, as in Model/SmartCache.lean.
* `CacheStream`: Model/SmartCache.lean takes the cache file for a plain file that can always be opened. Here the file is opened with `sopen` (smart_cache.py:116 and 149 with common.py:30-72): a name that ends in `.gz` or `.bz2` is compressed, the name `-` stands for the standard streams, and the operating system may refuse to open the file. Simplified: a method reads files but writes none; a compressed stream that ends early or is damaged gives the bytes before the damage and then raises.
* `CacheTwice`: In Model/SmartCache.lean the method of a disk cache only reads files. Here it may do anything to the disk, as another proxy does.
* `Cached`: `KanaTable.get_cached` (kana_table.py:112-118), `get_pinyin_table` and `get_pinyin_segmenter` (pinyin_table.py:151-169) construct the object on the first call only. `RadkDict.get_cached` (radkdict.py:81-87) and `Kanjidic.get_cached` (kanjidic.py:112-117) evaluate `cls()` as the default argument of `getattr`, that is on every call. What a constructor does depends on the data files at the time of the call, so every call comes with the outcome the constructor would have if it ran now. A successful constructor gives a new object: a client can tell objects apart with `is`.
* `CachedThreads`: Model/Cached.lean takes every call of a getter as one step. Here the steps of different calls happen in any order; reading or writing the cached variable is one step. Calls have numbers; the calls of one thread are some of them, one after the other. What a constructor does is up to the environment.
* `Compare`: `Tanaka.eq` and `nodeEq` model `==` between two words and between two nodes. Here one side is any other object. It is described by what Python can do with it: read its attributes, call the value of one, compare something with a value, and ask its own `__eq__`. Simplifications: the other object's class is not a subclass of the class in question (then Python would ask it first), and reading attributes has no effects.
* `Convert`: The script converts a file with `pypandoc`, or, where that is not installed, takes it as it is. `setup.py` uses it for the long description. Files are texts; a path may also be a directory, and the system may refuse to open a file. Not modelled: the warnings, decoding, the command line, a write that fails in the middle.
* `Dates`: `tatoeba.py` calls the standard library here. CPython 3.7-3.9 (`Lib/_strptime.py`, `TimeRE` and `_strptime`) turns the format into the regular expression (?P<Y>\d\d\d\d)-(?P<m>1[0-2]|0[1-9]|[1-9])-(?P<d>3[0-1]|[1-2]\d|0[1-9]|[1-9]| [1-9])\s+ (?P<H>2[0-3]|[0-1]\d|\d):(?P<M>[0-5]\d|\d):(?P<S>6[0-1]|[0-5]\d|\d) takes the first match at the start of the text, raises ValueError if there is none or if text is left over, applies `int` to the groups and calls the constructor of `datetime`, which checks the ranges. A matcher is modelled by the list of all its matches, in the order in which the backtracking engine tries them; a match is the text matched and the text left.
* `DiskRec`: Model/SmartCache.lean takes a method as one step. Methods that are wrapped with `disk_proxy` may call each other and themselves; such a call goes through a proxy while an outer call is still running, and so the cache files change during the call. Here the body of a method is a program: it ends, takes some time, or calls a wrapped method and goes on with the outcome (which it may handle, if that is an exception). Simplified: Python's limit on the depth of recursion is not modelled; the methods themselves write no files.
* `Display`: Not modelled: an alias for Python 2 (`__unicode__`).
* `Encoding`: `Model/Sources.lean` starts from the text behind each file name. Here the files hold bytes. `codecs.open(f, 'r', 'utf8')` (kanji_list.py:27, pinyin_table.py:44) decodes them as UTF-8. `open(f)` (radkdict.py:23, zhuyin_table.py:18, split_by_codes.py:19) and `sopen(f, 'r')` (place.py:70, kanjidic.py:106, tatoeba.py:76) leave the choice to Python, which takes the encoding of the locale: on Python 3 `sopen` ignores its argument `encoding` (common.py:51-58, 70). Simplifications: bytes that cannot be decoded are noticed when the file is opened (in fact when the part of the file is read); a `UnicodeError` is a `ValueError`. Compressed files yield bytes whatever the locale (C103).
* `EntryHeap`: `Model/BilingualDict` treats an entry as a value that owns its lists. In the code an entry refers to two list objects, which the caller of the constructor made, and `update` changes list objects in place (`+=`). Here the list objects are explicit: an entry holds two references. A reference to a list is a number below `next`; entries are referred to by their number in order of construction.
* `FilterArgs`: A sentence reader keeps the object it was given as `languages` and asks `lang not in self.languages` for every row (tatoeba.py:113, 221). What `in` means depends on the kind of object. The links and index readers make a set of the given ids (tatoeba.py:400-401, 665-667).
* `FilterRow`: `filter_row` of the class itself keeps every row; a subclass can drop rows with it.
* `Handles`: Which streams are open is a list of flags, indexed by handles; handle 0 is `sys.stdin` and handle 1 is `sys.stdout`. A program maps the flags to a result and the flags afterwards. Simplifications. Closing a file never raises. Reading and parsing are not interleaved: a loader sees the lines that the stream delivers and then the exception of the stream, if any. Python is CPython: an object is destroyed as soon as nothing refers to it, so a generator that only a `for` loop refers to is closed when the loop is left.
* `IndexObjects`: `reader[i]` and `parse_sentence` give out lists of words that `adjust_details` changes in place, and `edict` and `sentence_id_subset` can be assigned at any time. A list of words is named by its number in the order in which the lists were made. Words are not shared between lists: `parse_sentence` makes all of them.
* `KanaObjects`: `_table` is a dictionary object, and so is what `get_table` returns. Dictionaries live in a store, so that the model can say which of them are one object.
* `KanaTable`: Keys and values of the dictionaries are strings, as in the code (`'か'` is the one-character string). The class is built from an arbitrary ordering of the rows of `_table`, because the code iterates over a dictionary.
* `KanaVoiced`: `Model/KanaTable.lean` has both for one character, with the normal forms of kana as tables; here the argument is any text and the Unicode database a parameter.
* `LayoutDepth`: `Model/TreeLayout.lean` draws without a limit. Here a number says how many calls of Python functions may still be made inside the call of `layout`; a call for which none is left raises `RecursionError` before its body runs. `_layout_children` calls itself for every child, so each level of the tree takes one; the method that represents a node is called next to it and may itself make calls, so it is told how many are left for it. Not counted, because they are no Python functions: `print`, `list`, `values` and `%`.
* `LineIter`: `iter_entries`, `iter_coded_entries` and `filter_comments` read their stream while they are being iterated over. `iterEntries`, `iterCodedEntries` and `filterComments` say what they yield when nothing else reads the stream. Here a program calls `next` on any number of them, in any order, and reads lines itself. Simplification: the stream is a file object or another iterator, so that `iter(stream)` is the stream itself (auto_format.py:34, 44).
* `LoadOptions`: Options that are no characters or truth values, `dialect` and `quoting=csv.QUOTE_NONNUMERIC` (which makes numbers of fields) are not modelled; `lineterminator` has no effect on reading.
* `Maps`: Dictionaries are insertion-ordered association lists (`Py.Dict`). Functions passed as arguments may raise, so they have type `α → Except PyErr β`.
* `MapsHeap`: Model/Maps.lean treats the lists and sets in dictionaries as values. Here they are objects in a store, referred to by their index, so that it can be said which objects the functions change and which their results contain. The store has lists and sets alike: a set is a list without duplicates.
* `MapsState`: Model/Maps.lean takes the methods as functions. Here a method may raise, and may read and change a state, which for `map_dict` includes the dictionary itself.
* `MemoryRec`: Model/SmartCache.lean takes a method as one step. A method that is decorated with `memory_proxy` and calls itself goes through the proxy while an outer call is still running, and so the cache changes during the call. Here the body of a method is a program: it ends, or it calls the proxied method and goes on with the outcome (which it may handle, if that is an exception). Simplified: Python's limit on the depth of recursion is not modelled (a call that exceeds it raises `RecursionError`).
* `MemoryThreads`: Model/SmartCache.lean takes every call of a proxy as one step. Here calls overlap: the steps of `proxy_method` (smart_cache.py:79-88) of different calls happen in any order. One operation on a dictionary is one step (CPython does not switch threads inside it). The calls have numbers; the calls of one thread are some of them, one after the other. What the method does is up to the environment: a run may end with any outcome.
* `PatternText`: The other model files describe the regular expressions of cjktools as expressions of `Py.Re`. Here they are the texts that the code hands to `re.compile` (`Py.compile`), and the functions that use them are modelled once more on compiled texts. The theorems of `Props/PatternText.lean` show that both levels agree.
* `Pinyin`: `str.lower` is a parameter `lower` (its full Unicode table is not modelled); what is used of it is stated where it is used. The compiled patterns are modelled as expressions, not as pattern strings: this agrees with the code for syllables without characters that are special in patterns (`Model/PatternText.lean` and theorem `C69_pattern_text`).
* `Place`: A place is a dictionary of places. The methods that only read a hierarchy (`dump`, `walk`, `walk_with_path`, `find_node`, `find_all`) are modelled on hierarchies as values: what they do depends only on the unfolding of the hierarchy. `from_file` builds a hierarchy by assigning into places that are already linked, so it is modelled on a store of mutable places. Not modelled: labels that are not strings (`TypeError`), compressed files and standard input. `__str__` and `__repr__` are in Display.
* `PlaceAppend`: The appended place is taken as it is at the time; PlaceHeap has the same with objects.
* `PlaceEqual`: `Place` is a subclass of `dict` (place.py:20) and defines no `__eq__`, so `==` is that of dictionaries: it compares the entries, and neither the labels of the two places nor their readings and aliases. As in `Model/TreeEqual.lean`, a dictionary does not compare an object with itself, and which side `==` is called on depends on the version of Python.
* `PlaceHeap`: `Model/Place.lean` describes the reading methods of `Place` on hierarchies as values. A program can also enter one place in several places, or in itself: `append` does not look (place.py:108-110). Here the same methods are modelled on a store of objects. A loop that may run for ever is modelled by its first `n` rounds.
* `PlaceText`: `sopen(filename, 'w')` and `sopen(filename, mode='r')` open a text file (common.py:30-72) unless the name ends with `.gz` or `.bz2` or is `-`; those names are not modelled here.
* `PlaceWalks`: `walk` and `walk_with_path` (place.py:155-199) are generator functions: the code up to the next `yield` runs when the program asks for the next place, on the places as they are then. `Model/PlaceHeap.lean` has the same walks for places that do not change in the meantime.
* `Radkdict`: The stream is the list of its (decoded) lines. `get_cached` is modelled in Model/Cached.lean and `print_radicals` in Model/PrintRadicals.lean.
* `ReaderThreads`: A setter computes the dictionaries of a file and then stores them in the attributes of the reader, one after the other (tatoeba.py:239-241, 372-373, 589-590); a lookup loads the attributes it needs, one after the other. One access to an attribute is one step (CPython does not switch threads inside it); the steps of different threads happen in any order. The dictionaries are never changed after they are stored. The files have numbers; which attribute holds the dictionary of which file is the state.
* `ReaderViews`: `sentence_ids` and `iter(reader)` are those of the dictionary that the reader holds at the time (tatoeba.py:37-38, 244-248); an assignment makes a new dictionary and leaves the old one as it is (tatoeba.py:214-241, 335-369, 568-590). `keys()`, `items()` and `values()` come from `collections.Mapping` and hold the reader; their iterators are generators (`_collections_abc.py`: `yield from self._mapping`, `for key in self._mapping: yield (key, self._mapping[key])`, `for key in self._mapping: yield self._mapping[key]`). The dictionaries are in a store. Simplified: the data of a dictionary are those of a `PyMapping` (for a links reader its two dictionaries together).
* `Readers`: The readers inherit from `TatoebaDict` (tatoeba.py:29-41), which defines `__getitem__`, `__iter__` and `__len__` and takes all other methods from `collections.Mapping`. Those are modelled as they are written in the standard library (`_collections_abc.py`).
* `RowGens`: `TatoebaReader.load_file` (tatoeba.py:53-84) is a generator function: it opens its file, reads and parses when the program asks for the next row. Here a program makes any number of such generators over files and over one open stream, asks them for rows in any order, closes them, reads lines of the stream itself and changes files. `loadFileWith` says what one of them yields when nothing else happens. Simplified: the name of a file is not `-` and does not end in `.gz` or `.bz2`; a generator reads its file as it is when it is opened (Python reads ahead in blocks).
* `SentHooks`: Methods of a subclass may keep a state, change the row they are given, change the attribute `languages`, and raise. What they do next is a function of the calls that they have seen, so they are modelled as functions of the history of calls. Model/FilterRow.lean has the case of a `filter_row` that is a predicate. Simplified: the methods do not assign `sentences` themselves, and leave rows as lists of texts.
* `SmartCache`: Python objects, `==`, hashing and `pickle` are parameters. Files are byte strings with a modification time; every call is atomic (no other process acts inside one call except for a crash); for processes that act at the same time see Model/CacheRace.lean. Not modelled: the `CACHE_DEBUG` prints, `proxy_method.__doc__`. For cache files named `-` or ending in `.gz`/`.bz2` (which `sopen` treats specially) and files that cannot be opened see Model/CacheStream.lean.
* `Sources`: A loader is modelled as its result together with the files it opens, in order. Text files are UTF-8, which is also the encoding of `open`. Simplifications. A file that can be opened can be read to its end (failures in the middle of a file are in Model/Handles.lean). `codecs.open` delivers the lines of `str.splitlines(True)`. Module-level caches are empty.
* `SplitByCodes`: Entries are mutable and shared between the sub-dictionaries, so they live in a store and the dictionaries hold references (positions in the store).
* `Tatoeba`: Python 3 branches. A file is the list of lines that iterating over it gives (opening, decoding and newline translation are not modelled). A generator is modelled by its rows and the exception that ends it, if any. `datetime.strptime` is an arbitrary partial function (`strptime`) into an arbitrary type here; `Model/Dates.lean` models the one that is called. Simplifications: the limit of the number of digits that `int` accepts in late Python releases is not modelled; `__repr__` of the readers is not modelled; an EDICT dictionary is a map from headwords to the reading lists of their entries.
* `Tree`: Tree nodes are mutable and linked both ways, so they are modelled on a heap: a reference is an index, and a node holds its label, its own dictionary of children (label to reference, in insertion order), its attributes and its parent. Loops that follow links may run for ever on a heap that is not a tree. They are modelled with a bound on the rounds (`fuel`): `none` means that the bound was too small. The theorems give a bound that is large enough for every tree. Simplifications. A node owns its dictionaries; `TreeNode(label, children=d)` with a dictionary shared with another object is in TreeGiven, where C142_programs shows when the difference matters. Attribute values are numbers (finite floats, as rationals), `None` or other objects that are only passed on. Predicates of `prune` are pure functions of label and attributes; any predicate is in TreeAsk. `layout` is in TreeLayout, `__str__` and `__repr__` are in Display. `TreeDist.combine`, `union` and `diff` are in TreeCombine.
* `TreeAsk`: `Model/Tree.lean` models `prune` for predicates that only depend on the label and the attributes of a node. Here the predicate is any Python callable that looks at the node and its ancestors (labels and attributes), keeps a state of its own, answers with a truth value or raises. It does not change the tree. When it is asked the node has no children.
* `TreeCombine`: A distribution is an object with attributes. The constructor sets `root` (tree.py:285), a program may set more. Of the other objects that play a part only the access to their attributes, `==` and `'%s'` are modelled, each as a function that may raise.
* `TreeEqual`: `Model/Tree.lean` has `nodeEq`, which is enough for trees. Two things in it are simplified: the comparison of two dictionaries takes two values for equal without calling `__eq__` if they are the same object, and, depending on the version of Python, it compares `b[k] == a[k]` or `a[k] == b[k]`. Both matter for nodes that are shared or contain themselves, so they are parameters here.
* `TreeGiven`: `Model/Tree.lean` gives every node dictionaries of its own. In the code a node refers to two dictionary objects, and `TreeNode(label, children, attrib)` takes those of the caller if they are not empty (`children or {}`, tree.py:25-26). Here the dictionaries live in stores of their own, so that several nodes and the program may refer to one. A program may get hold of every dictionary (`node.children`, `node.attrib`), so its operations name dictionaries directly. Simplification: programs do not assign to `node.children`, `node.attrib`, `node.label` or `node.parent` themselves.
* `TreeLayout`: `print(x)` writes the text of `x` and a newline to standard output; the model collects the texts of the calls. The method that represents a node is a function of the node, which may raise. Output that was printed before an exception is kept.
* `TreeWalks`: `walk_preorder`, `walk_postorder` and `walk_breadth_first` (tree.py:58-114) are generator functions: a call makes a generator, and the code up to the next `yield` runs only when the program asks for the next node. Between two such calls the program may do anything with the nodes, so each call gets the heap as it is then. `Model/Tree.lean` has the same walks for a heap that does not change in the meantime.
* `Zhuyin`: The stream is the list of its lines (with their line ends). `stream_codec` is the identity on Python 3 (common.py:75-84) and `_get_stream_context` only chooses the stream (common.py:87-106), so neither appears.

## 8. Behaviour of the code that contradicts a property or its documentation

Each of these is a theorem about the model unless marked (text), which means that it was found by reading only.

* `canonical_segment_forms` raises KeyError for segments that begin with ゔ or ヴ behind another segment (C16).
* The pattern of cj_kdic lacks the digit ６, so sense number 6 is kept in the sense (C32).
* `Place.dump` writes aliases as Python prints a list, `from_file` reads a colon-separated text (C41); the constructor of `Place` rejects only the space character, other white space does not survive (C90); a later line of depth 0 becomes a child of the root (C91).
* `add_child` does not unlink a node from its old parent; `del_child` does not clear the parent (C51), so that `unlink` behind it may raise `KeyError`; removal goes by label, so unlinking a node that was replaced under its label removes the replacement (C128).  `build_index` always raises (C53).  `cum_count` adds only the direct children (C75).  `TreeDist.combine`, `union` and `diff` always raise, because they use attributes and keywords that do not exist (C126).  Nodes compare with `==` but have no hash on Python 3, like `TanakaWord`, and comparing a node with an object that has no label raises AttributeError (C131).
* `TatoebaSentenceReader.language` answers with the first row of an id, `sentence` with the last (C55).  Groups of links are not merged (C59).  Sense 0 is lost by `str` (C60).  A field that begins with a double quote is read as quoted (C65).  The readers leave their file open while the exception of a rejected row is kept (C84).
* `_apply_tone` never marks the first character (C67).  `from_hanzi` drops characters that are not in the table, `from_ascii('#')` raises IndexError (C68).  `is_pinyin` looks only at the beginning (C78).  `zhuyin_regex_pattern` is made of pinyin (see Model/Zhuyin.lean).
* `RadkDict.get_cached` and `Kanjidic.get_cached` read the files on every call (C88).
* `store_cache_object` does not write atomically: processes that share a cache file can get values that no call computed (C95).
* `sopen` accepts `r+`; with the name `-` the loaders close standard input or output; `.gz` and `.bz2` with mode `r` give bytes on Python 3 and with mode `w` take only bytes, so every text loader fails on a compressed file that is not empty and `Place.dump` never writes one (C103).
* `DictionaryEntry.__hash__` uses an attribute that does not exist, so entries cannot be hashed (C131).  `DictionaryEntry.update` extends the list objects it was given, and `BilingualDictionary.update` shares entries (C97).
* `zhuyin_regex_pattern` collects the pinyin instead of the zhuyin and does not sort them, so it matches no zhuyin at all and takes `ni` from `niu` (C101).
* `iter_coded_entries`, documented to take a file name, iterates over the characters of the name and always raises for one; it works for streams (C104).
* The tone mark stands on the vowel behind the first character that comes first, so every syllable with a medial i, u or ü is marked on the medial, and syllables that begin with a or e are not marked there (C105).
* A reload of a Tatoeba reader that raises keeps the old data but reports the new source (C107).
* A `disk_proxy` whose cache file is named `-` never returns a value and closes standard output (C114); one whose cache file cannot be written raises although the method returned (C115).
* `convert` of `scripts/load_as_rst.py` puts an empty line before the text if there is no preamble (C127).
* `from cjktools import *` and `from cjktools.resources import *` raise AttributeError: the lists `__all__` name modules that do not exist (text).
* `Place` inherits `==` from `dict`: labels, readings and aliases of two places are not compared, so any two places without contents are equal (C130).
* The sentence reader asks `lang in self.languages` of the object it was given: a text keeps every language that is a part of it, an iterator is used up, and later changes of a list show in later loads (C132).
* `TreeNode(label, children)` keeps a dictionary that is not empty as its own, so two nodes made from it change together, and takes a new one if it is empty, so later entries are lost (C142).
* `prune` asks about a childless root twice, so a predicate with a state can lose a tree it accepted (C134).
* On Python 3 `sopen` ignores its argument `encoding`, and `open` is called without one: text files are read and written in the encoding of the locale, so in a locale with a one-byte encoding no kanji of `radkfile` is found and no sentence or place label outside this encoding is ever read (C138, C139).
* `disk_proxy` stores the arguments after the method has run: around a method that changes its arguments, a later call whose arguments equal the changed ones gets the result of the first call, and a call with the first arguments is never answered from the cache (C140).
* Methods wrapped with `disk_proxy` that share a cache file return each other's results when they are called with equal arguments; the file does not say which method was called (C143).
* `memory_proxy` hands out the stored object itself: a caller that changes its result changes what all later calls with the same arguments return (C141).
* A dependency that is written while the method of a `disk_proxy` runs, after it was read, is older than the cache file that is stored afterwards: the stale result is returned by all later calls until the file is touched again (C149).
* An iteration over `items()` or `values()` of a Tatoeba reader that goes on while a new file is assigned mixes the two files or raises `KeyError` (C153).
* A thread that looks up a group of a links reader while another assigns a file may get a group that does not contain the sentence; `details` may raise `TypeError`; two assignments at the same time may leave a reader whose groups are wrong for good (C154).
* A dependency of a `disk_proxy` that is replaced by a version with an older time stamp (restored backup, `cp -p`, `tar`) is not noticed: the stale result is returned until a file is touched; a missing dependency makes the call raise `OSError` although the result is cached (C155).
* Dictionary files do not skip comments: a line beginning with '#' makes load_dictionary raise FormatError or becomes an entry. A blank line is refused by every loader but `RadkDict` (C165).
* Spaces do not separate syllables: `segment_pinyin('xi an')` gives `xian`, `'de niu'` loses a syllable, and `strip_tones` of an already stripped text can change it (C167).
* `canonical_forms` undoes a sokuon in every segment but the last, `surface_forms` makes one in the first only: に+がく+き is a canonical form of にがっき, but not the other way round (C168).
* `from_ascii` writes no apostrophe: `'xi1an1'` and `'xian1'` both become `xīan`; whenever two syllables join to a third, the results cannot be told apart (C169).
* `from_hanzi` reads Latin letters one by one: with `'西an'` the letters are lost, although `from_ascii('xi1an')` keeps them (C170).
* `expand_long_vowels('すーー')` gives `すうー`: of several marks behind a kana only the first is expanded, and another call expands the next one (C171).
* `disk_proxy` around `memory_proxy`: after a change of a dependency the disk cache asks the memory cache, gets the old value and stores it with a new time stamp, so that new processes get the old value too (C174).
* Two methods with the same cache file get each other's results: `disk_proxy` stores the arguments, not which method it was (C178).
* A `#` in a pinyin text is taken for a syllable with an empty name (C179).
* `Place.dump` and `from_file`: a file with a place that has several aliases can be loaded but what is saved then cannot be loaded again (ValueError); a single alias becomes the text of a Python list (C183).
* A word of an index with the sense 0 loses it when its text is written and read (C60), so an index that contains one is not read back exactly (C184).
* A sentence reader without sentences (the file has none in the wanted languages) is saved as an empty file, which cannot be loaded: the setter calls next on an empty reader, StopIteration (C185).
* A link that joins two groups leaves an id in two groups (C59); written out and read again such groups may become one (C186).
* `rendaku_variants` voices a kana that already has a separate sound mark, and `onbin_variants` replaces only the mark, so decomposed kana get other variants than composed ones (C191).
* `to_hiragana` leaves ヷ, ヸ, ヹ, ヺ alone but converts ワ, ヰ, ヱ, ヲ with a separate sound mark, so equivalent spellings become different texts (C192).
