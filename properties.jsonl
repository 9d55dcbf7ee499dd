{"id": "C01", "title": "Kana conversion is a lossless character-by-character relabelling", "statement": "to_katakana and to_hiragana never change the length of a string, change only characters of the other syllabary (each to the character at the same place of the target syllabary), and to_hiragana(to_katakana(s)) == to_hiragana(s), to_katakana(to_hiragana(s)) == to_katakana(s). In particular a string without katakana survives to_katakana followed by to_hiragana unchanged, and symmetrically.", "quantifier": "every Unicode string (mixed scripts, any length)", "why_tests_cant": "The tests convert the two complete alphabets once. Strings mix kana with kanji, long vowel marks, Latin letters and half-width forms in any position, and the round trip must hold for all of them; an off-by-one in the character tables that only touches rare kana shows only on a string containing them.", "anchors": ["cjktools/scripts.py:ScriptMapping.__call__", "cjktools/scripts.py:to_hiragana", "cjktools/scripts.py:to_katakana"]}
{"id": "C02", "title": "Script detection is unambiguous", "statement": "script_type(s) depends only on the first character; it names the band containing that character, is Unknown exactly when s is empty or the character is in no band, and does not depend on the iteration order of the band table.", "quantifier": "every string and every iteration order of the band dictionary", "why_tests_cant": "The bands are scanned in the order of a dictionary, which a test cannot vary, and the claim speaks about every character of Unicode: overlapping bands would make the answer depend on the order.", "anchors": ["cjktools/scripts.py:script_type", "cjktools/scripts.py:_known_bands"]}
{"id": "C03", "title": "script_boundaries is the unique maximal script segmentation", "statement": "The blocks returned by script_boundaries concatenate to the input; for non-empty input every block is non-empty, every character after the first of a block has the block's script or is the long vowel mark 'ー', and no block could be extended: the first character of the next block is not 'ー' and has another script. There is exactly one segmentation with these properties. The empty string gives the one-element tuple ('',).", "quantifier": "every Unicode string", "why_tests_cant": "Maximality and uniqueness are statements about all rival segmentations of every string. The tests use no string in which the long vowel mark stands first, or after another script.", "anchors": ["cjktools/scripts.py:script_boundaries"]}
{"id": "C04", "title": "normalize maps to canonical width and is idempotent", "statement": "normalize keeps the length, leaves no full-width ASCII character (U+FF01..U+FF5F), no half-width katakana (U+FF61..U+FF9F) and none of U+3000..U+3002 in the output, leaves every other character alone, and applying it twice equals applying it once. normalize_ascii and normalize_kana are idempotent too.", "quantifier": "every Unicode string", "why_tests_cant": "Tests normalize a few example strings. Idempotence, and that nothing else is altered, concern every character of Unicode and every string; a wrong entry of the translation table shows only for its own character.", "anchors": ["cjktools/scripts.py:normalize", "cjktools/scripts.py:normalize_ascii", "cjktools/scripts.py:normalize_kana"]}
{"id": "C05", "title": "compare_kana is a script-insensitive total preorder", "statement": "compare_kana(a,b) is -1, 0 or 1; compare_kana(a,b) == -compare_kana(b,a); it is transitive; it is 0 exactly when a and b are equal up to hiragana/katakana; converting either argument with to_hiragana or to_katakana does not change the result.", "quantifier": "every pair and triple of Unicode strings", "why_tests_cant": "Sorting relies on transitivity and antisymmetry over all triples of strings; two examples of equal and unequal strings say nothing about the order.", "anchors": ["cjktools/scripts.py:compare_kana"]}
{"id": "C06", "title": "Script membership queries are exact", "statement": "contains_script(x, s) holds iff some character of s has script x; script_types(s) is exactly the set of scripts of the characters of s; unique_kanji(s) is exactly the set of characters of s in the kanji band; get_script(x) lists exactly the characters whose script_type is x, once each, in code point order.", "quantifier": "every string, script and character", "why_tests_cant": "Exactness means that no character outside the bands is accepted and none inside is missed, for more than a million characters and strings of any length.", "anchors": ["cjktools/scripts.py:contains_script", "cjktools/scripts.py:script_types", "cjktools/scripts.py:unique_kanji", "cjktools/scripts.py:get_script"]}
{"id": "C07", "title": "Kana table coordinates round-trip", "statement": "from_coords(*get_coords(k)) == k for every kana k on which get_coords succeeds, get_coords(from_coords(c, v)) == (c, v) for every consonant line c and single vowel v on which from_coords succeeds; get_coords raises KeyError exactly for strings that are not one kana of the 13x5 table.", "quantifier": "every string argument", "why_tests_cant": "The tests look up a few characters. That exactly the characters of the table have coordinates, that the round trip is the identity, and that every other string raises is a statement about all strings.", "anchors": ["cjktools/kana_table.py:KanaTable.get_coords", "cjktools/kana_table.py:KanaTable.from_coords"]}
{"id": "C08", "title": "Kana table lookup does not depend on dictionary order", "statement": "get_coords, to_vowel_line and to_consonant_line return the same answers for every iteration order of the underlying row dictionary; to_vowel_line(k) is the vowel of k's column (and 'あ' for 'わ'), to_consonant_line(k) the first kana of its row, and both return None outside the table.", "quantifier": "every iteration order of the 13 rows and every string argument", "why_tests_cant": "The rows are found by a scan over a dictionary; there are 13! orders and infinitely many arguments, and a run of the tests sees one order.", "anchors": ["cjktools/kana_table.py:KanaTable._build_dicts", "cjktools/kana_table.py:KanaTable.to_vowel_line", "cjktools/kana_table.py:KanaTable.to_consonant_line"]}
{"id": "C09", "title": "invert_mapping transposes the relation", "statement": "In invert_mapping(d) the number of times k occurs under v equals the number of times v occurs in d[k]; the keys of the result are exactly the values that occur; each list keeps the iteration order of d. Inverting twice gives back the same relation, with each key having the same multiset of values, minus keys with no values.", "quantifier": "every dictionary from keys to finite sequences", "why_tests_cant": "Tests invert one dictionary with two keys. Lost or duplicated pairs, and the order of the listed keys, depend on how values repeat within and between the sequences.", "anchors": ["cjktools/maps.py:invert_mapping"]}
{"id": "C10", "title": "Injectivity test and injective inversion agree", "statement": "is_injective(d) holds iff distinct keys have distinct values; invert_injective_mapping(d) fails with AssertionError iff d is not injective and otherwise maps v to k iff d maps k to v; inverting twice gives back d.", "quantifier": "every dictionary with hashable values, every iteration order", "why_tests_cant": "The test inverts one injective dictionary. That the two functions agree on every dictionary, in particular on non-injective ones in any order, is a statement about pairs of functions on all inputs.", "anchors": ["cjktools/maps.py:is_injective", "cjktools/maps.py:invert_injective_mapping"]}
{"id": "C11", "title": "chain_mapping is composition of finite maps", "statement": "chain_mapping(d0,...,dn) has exactly the keys of d0 and maps k to dn(...d1(d0(k))); it raises KeyError iff some value on the way is missing from the next dictionary; no argument dictionary is modified.", "quantifier": "every non-empty sequence of dictionaries", "why_tests_cant": "The test chains two total dictionaries once. Missing keys in the middle of a long chain, and associativity, concern sequences of any length.", "anchors": ["cjktools/maps.py:chain_mapping", "cjktools/maps.py:map_dict"]}
{"id": "C12", "title": "multi_dict groups pairs without loss or reordering", "statement": "multi_dict(pairs)[k] is the list of all values paired with k, in input order; the keys are exactly the first components that occur; the total number of values equals the number of pairs.", "quantifier": "every finite sequence of pairs", "why_tests_cant": "The test groups three pairs. That no pair is lost and no order changed, for any interleaving of any number of keys, needs induction on the sequence.", "anchors": ["cjktools/maps.py:multi_dict"]}
{"id": "C13", "title": "merge_dicts is the pointwise union", "statement": "merge_dicts(d1,...,dn)[k] is the union of the values of k over the dictionaries that contain k; keys are the union of keys; the result is independent of argument order and of repeating arguments; merging twice (associatively) gives the same result.", "quantifier": "every finite sequence of dictionaries of finite collections", "why_tests_cant": "Commutativity, associativity and idempotence quantify over all sequences of dictionaries; the test merges one pair, and one dictionary with itself.", "anchors": ["cjktools/maps.py:merge_dicts"]}
{"id": "C14", "title": "partial_map splits without loss", "statement": "partial_map(f, xs) returns the truthy results in order and the rejected inputs in order; every input contributes to exactly one of the two lists; filtered_map(f, xs) equals the first component. If f raises, the exception propagates at the first raising element.", "quantifier": "every function and finite sequence", "why_tests_cant": "The tests use three functions on ten numbers. Which values count as missing and that order and multiplicity are kept on both sides concerns every function and sequence.", "anchors": ["cjktools/maps.py:partial_map", "cjktools/maps.py:filtered_map"]}
{"id": "C15", "title": "map_dict acts on values only, in place or not", "statement": "map_dict(f, d) has the same keys in the same order with f applied to each value; the in-place variant leaves the dictionary equal to what the copying variant returns; if f raises for some entry, the copying variant leaves d untouched while the in-place variant has updated exactly the entries before the raising one.", "quantifier": "every dictionary and every (possibly raising) function", "why_tests_cant": "The function may raise at any key; the state in which an in-place call leaves the dictionary at each failure point, and that the copying call never touches the argument, cannot be enumerated.", "anchors": ["cjktools/maps.py:map_dict"]}
{"id": "C16", "title": "canonical_segment_forms is exactly the set of undone alternations", "statement": "On a hiragana or katakana segment the result consists of the segment itself, with right context (and length > 1 and a final sokuon) the segment with the sokuon replaced by each of the six onbin kana of its script, and with left context and a voiced first kana also the devoiced version of each of these - nothing else. It raises ValueError exactly when the first character is not hiragana or katakana (or the segment is empty). It never fails on other hiragana/katakana segments.", "quantifier": "every segment string and both context flags", "why_tests_cant": "The set of forms depends on first and last character, length and both flags together; a missing or spurious form for a rare kana shows only on that segment. Both directions of 'exactly' range over all strings.", "anchors": ["cjktools/alternations.py:canonical_segment_forms"]}
{"id": "C17", "title": "surface_forms enumerates exactly the alternation product", "statement": "surface_forms(segs) contains a tuple iff it has the length of segs, its first component is segs[0] or segs[0] with its last kana replaced by the sokuon of its script (length > 1), and every later component is the segment itself or the segment with its first kana voiced (or semi-voiced); no tuple occurs twice. It raises KeyError if the first segment has two or more characters and the first of them is not kana; otherwise the first later segment without a kana start decides: IndexError if it is empty, else KeyError. It raises on no other inputs (IndexError for the empty sequence).", "quantifier": "every non-empty sequence of segments", "why_tests_cant": "The result is a product over a sequence of any length whose factors depend on neighbours; the test looks at one reading with two segments.", "anchors": ["cjktools/alternations.py:surface_forms", "cjktools/alternations.py:rendaku_variants", "cjktools/alternations.py:onbin_variants"]}
{"id": "C18", "title": "canonical_forms undoes surface_forms", "statement": "For every reading whose surface form is produced by surface_forms, the original reading is among canonical_forms(surface form), provided that a geminated first segment ended in one of the six onbin kana of its script and there are at least two segments.", "quantifier": "every reading whose segments start with kana, the later ones not with ゔ or ヴ (on others canonical_forms raises, see C19), and each of its surface forms", "why_tests_cant": "The round trip goes through two different products of alternatives computed by different code; that no surface form of any reading is lost needs a proof about all sequences.", "anchors": ["cjktools/alternations.py:surface_forms", "cjktools/alternations.py:canonical_forms"]}
{"id": "C19", "title": "canonical_forms respects context and is a duplicate-free product", "statement": "canonical_forms(segs) contains a tuple iff each component is a canonical form of the corresponding segment with left context unless it is first and right context unless it is last; the input itself is always included; the number of forms is the product of the numbers of segment forms, with no duplicates; every form has as many components as the input. It raises exactly when some segment does not start with a kana or a later one starts with ゔ or ヴ.", "quantifier": "every sequence of segments (including the empty one)", "why_tests_cant": "Whether a segment may be voiced or doubled depends on its position; the number of forms grows exponentially with the length, so that tests can compare only tiny cases.", "anchors": ["cjktools/alternations.py:canonical_forms"]}
{"id": "C20", "title": "insert_duplicate_kanji terminates and repeats the right kanji", "statement": "insert_duplicate_kanji terminates on every string, preserves its length and every non-々 character; if the string does not start with 々, each 々 becomes the nearest preceding character other than 々, so no 々 remains; if it starts with 々 the string is returned unchanged.", "quantifier": "every string", "why_tests_cant": "The function is a loop over a changing string: that it stops, and on what, concerns strings with any number of iteration marks in any position, also at the start and in runs.", "anchors": ["cjktools/alternations.py:insert_duplicate_kanji"]}
{"id": "C21", "title": "expand_long_vowels is a local rewriting", "statement": "The result has the input's length; a character changes only if it is 'ー' directly after a hiragana or katakana character, and then it becomes the vowel of that kana in that kana's script; everything else, including 'ー' after 'ー' or after other scripts, is unchanged. The call fails exactly when some 'ー' directly follows a hiragana/katakana character that has no vowel line in the table.", "quantifier": "every string", "why_tests_cant": "Segmentation by script, conversion to hiragana and back, and a regular expression that scans without overlap interact; locality, i.e. that nothing else changes, concerns every position of every string.", "anchors": ["cjktools/alternations.py:expand_long_vowels", "cjktools/scripts.py:script_boundaries"]}
{"id": "C22", "title": "Voicing tables are mutually inverse", "statement": "from_voiced[v] == k iff v in to_voiced[k]; every kana v has at most one unvoiced source; voicing never leaves the syllabary and commutes with to_katakana/to_hiragana.", "quantifier": "every pair of characters", "why_tests_cant": "The tables are computed from rows of the kana table when the module is loaded; that they are inverse concerns all pairs of characters, while tests look at single ones.", "anchors": ["cjktools/alternations.py:_create_voicing_map", "cjktools/alternations.py:to_voiced", "cjktools/alternations.py:from_voiced"]}
{"id": "C23", "title": "memory_proxy is transparent", "statement": "For a deterministic method that treats equal arguments alike, and hashable arguments, every call through the proxy in every call history returns what the method returns (or raises what it raises), and the method is called at most once per distinct (args, kwargs) key that did not raise. For an arbitrary (stateful) method every call returns the result of the first successful call with the same key.", "quantifier": "every history of calls, every method", "why_tests_cant": "Transparency speaks about every history of calls of every method, including methods that raise, change state or return unequal objects for equal arguments; tests do not exercise the memory proxy at all.", "anchors": ["cjktools/smart_cache.py:memory_proxy"]}
{"id": "C24", "title": "disk_proxy returns up-to-date results", "statement": "If the result of the method is determined by its arguments and the contents of the declared dependencies, and arguments and results can be pickled, then in every history of proxy calls and dependency edits, with the clock strictly advancing between a cache write and a later edit, every proxy call returns what a direct call would return at that moment.", "quantifier": "every history of calls and file edits", "why_tests_cant": "The tests touch one file once after sleeping a second. Histories in which calls, edits and clock ticks interleave are unbounded, and a stale answer appears only in particular ones.", "anchors": ["cjktools/smart_cache.py:disk_proxy_direct", "cjktools/smart_cache.py:try_cache", "cjktools/smart_cache.py:needs_update", "cjktools/smart_cache.py:store_cache_object"]}
{"id": "C25", "title": "A crash while storing never yields a wrong cache hit", "statement": "If the process dies at any byte of store_cache_object, any later try_cache on that file returns None or exactly the object that was being stored, for the same arguments only; a later proxy call therefore still returns the right result.", "quantifier": "every crash point, every arguments/result", "why_tests_cant": "A crash can happen after any byte of any file; no test interrupts the process while it writes, and the claim needs the pickles' prefix property for all values.", "anchors": ["cjktools/smart_cache.py:store_cache_object", "cjktools/smart_cache.py:try_cache"]}
{"id": "C26", "title": "needs_update compares against every dependency", "statement": "When all dependencies exist and are files or modules, needs_update(target, deps) is true iff the target is missing or some dependency file (for a module: its file or the file of a directly imported module) has a strictly larger modification time; the answer does not depend on the order of deps. A missing dependency raises OSError and an unknown dependency type raises TypeError unless an earlier dependency already forces an update; with a missing target nothing is examined.", "quantifier": "every file system state and dependency list", "why_tests_cant": "The answer depends on the time stamps of all files, the order in which they are looked at, missing files and modules; the tests have one dependency file.", "anchors": ["cjktools/smart_cache.py:needs_update", "cjktools/smart_cache.py:_get_module_dependencies"]}
{"id": "C27", "title": "disk_proxy caches exactly the last non-None result", "statement": "After a call that stored a result r (not None) for arguments a, with no intervening store, no edit and dependencies not newer, a call with equal arguments returns r without calling the method, and a call with different arguments calls the method. A None result is recomputed on every call.", "quantifier": "every method, arguments and state", "why_tests_cant": "Which calls store and which do not depends on arguments, the previous content of the file and the returned value (None is special); the tests call one method with one argument.", "anchors": ["cjktools/smart_cache.py:disk_proxy_direct", "cjktools/smart_cache.py:try_cache"]}
{"id": "C28", "title": "DictionaryEntry keeps readings and senses aligned", "statement": "An entry constructed successfully and then updated with any sequence of homograph entries always has either one reading or as many readings as senses; after at least one update the two lists have equal length; updating with an entry for another word raises and changes nothing.", "quantifier": "every sequence of updates", "why_tests_cant": "Alignment is an invariant of histories: an update pads a short list, and a later update of the result may break what one update leaves intact. Histories are unbounded and no test updates an entry twice.", "anchors": ["cjktools/resources/bilingual_dict.py:DictionaryEntry.__init__", "cjktools/resources/bilingual_dict.py:DictionaryEntry.update"]}
{"id": "C29", "title": "senses_by_reading partitions the senses", "statement": "senses_by_reading maps each reading to the senses given for it in order, loses none and invents none; after a.update(b) the mapping is, reading by reading, the concatenation of a's and b's mappings; the entry is not changed.", "quantifier": "every valid entry with at least one sense and every update", "why_tests_cant": "Partition means that no sense is lost or listed twice for any pattern of repeated readings, and after any update; the patterns are unbounded.", "anchors": ["cjktools/resources/bilingual_dict.py:DictionaryEntry.senses_by_reading"]}
{"id": "C30", "title": "parse_dictionary merges homographs in file order", "statement": "The loaded dictionary has exactly the words of the lines as keys; the senses of a word are the concatenation of the senses of its lines in file order, its readings are aligned likewise; iter_entries yields one entry per line; a malformed line anywhere raises FormatError.", "quantifier": "every file (sequence of lines)", "why_tests_cant": "Merging depends on where in the file the homographs stand and how many there are; a test file has few or none, the claim is about every sequence of lines.", "anchors": ["cjktools/resources/dict_format.py:DictionaryFormat.parse_dictionary", "cjktools/resources/dict_format.py:DictionaryFormat.iter_entries"]}
{"id": "C31", "title": "EDICT lines parse back to their fields", "statement": "For every word, optional reading and non-empty list of senses whose characters are allowed by the EDICT line syntax, parsing the line written from them gives an entry with that word, that reading without its spaces (or the word itself) and those senses; parsing never yields an entry with an empty sense list.", "quantifier": "every well-formed EDICT entry; every line", "why_tests_cant": "The line is split by two regular expressions; which contents of the fields are read back verbatim (brackets, slashes, spaces in any place) is a question about all strings.", "anchors": ["cjktools/resources/auto_format.py:known_formats", "cjktools/resources/dict_format.py:RegexFormat.parse_line"]}
{"id": "C32", "title": "jc_kdic, cj_kdic and CEDICT lines parse back to their fields", "statement": "For each of the three other formats, parsing a line written from a word, a reading and a non-empty list of senses with characters allowed by the format gives back that word, reading and senses (spaces in readings, and in cj_kdic words, are removed; for cj_kdic the full-width sense numbers 1-9 are removed too).", "quantifier": "every well-formed entry of the three formats", "why_tests_cant": "The three formats are described by regular expressions with overlapping separators; which contents are read back verbatim, and which are not, is a question about all strings that sample lines do not answer.", "anchors": ["cjktools/resources/auto_format.py:known_formats", "cjktools/resources/dict_format.py:RegexFormat.parse_line"]}
{"id": "C33", "title": "Format detection is unambiguous", "statement": "At most one known format matches a header line, so detect_format does not depend on the order of known_formats; it raises UnknownFormatError iff none matches.", "quantifier": "every header line and every order of the format list", "why_tests_cant": "A header could match two formats, and then the order of the list decides; exclusion of this for all strings is a statement about the intersection of regular languages.", "anchors": ["cjktools/resources/auto_format.py:detect_format"]}
{"id": "C34", "title": "load_dictionary consumes the header and nothing else", "statement": "load_dictionary on a stream fails with StopIteration iff it is empty, UnknownFormatError iff the first line matches no format, FormatError iff some later line is malformed, and otherwise returns the dictionary of all later lines; load_dictionary and folding iter_entries agree.", "quantifier": "every stream of lines", "why_tests_cant": "Whether the header is consumed once, and nothing else, for every length of the stream and every content of the later lines cannot be seen from sample files, whose second line is never a header.", "anchors": ["cjktools/resources/auto_format.py:load_dictionary", "cjktools/resources/auto_format.py:iter_entries"]}
{"id": "C35", "title": "get_codes finds exactly the parenthesised known codes", "statement": "c is in get_codes(s) iff c is a known code and s contains '(' g ')' with g a non-empty run of ASCII letters, digits, commas and hyphens of which c is one comma-separated part.", "quantifier": "every sense string", "why_tests_cant": "The scan of the regular expression is greedy and does not overlap; nested, unbalanced and adjacent parentheses and lists of codes in any number have to be covered in both directions of 'exactly'.", "anchors": ["cjktools/resources/split_by_codes.py:get_codes"]}
{"id": "C36", "title": "load_coded_dictionary indexes every merged entry by every code of its senses", "statement": "coded[c] contains word w iff some line for w has a sense with code c, and coded[c][w] is the entry merging all lines for w (including lines read after w was first filed under c), the same object for every code.", "quantifier": "every file", "why_tests_cant": "An entry is stored under several codes and merged later with lines that bring new codes; whether every list sees the merged entry depends on aliasing and on the order of the lines.", "anchors": ["cjktools/resources/split_by_codes.py:load_coded_dictionary", "cjktools/resources/split_by_codes.py:iter_coded_entries"]}
{"id": "C37", "title": "Kanjidic reading pools", "statement": "all_readings is exactly the set of kun readings and hiragana-converted on readings with hyphens removed and cut at the okurigana dot; it raises ValueError iff some reading has more than one dot.", "quantifier": "every entry", "why_tests_cant": "The pools are computed by string operations on readings with dots, dashes and mixed scripts; which readings fall together concerns all reading strings.", "anchors": ["cjktools/resources/kanjidic.py:KanjidicEntry.get_all_readings"]}
{"id": "C38", "title": "Kanjidic lines parse back to their fields", "statement": "Parsing a line written from a kanji, a JIS code, codes, readings and glosses gives an entry with these fields: glosses in order, katakana-initial readings in on_readings and hiragana-initial ones in kun_readings in order, stroke count the first S code, skip code the first P code, every other code collected in order under its name.", "quantifier": "every well-formed kanjidic line", "why_tests_cant": "The line is cut into tokens by a regular expression and the tokens are dispatched on their first character; every order and number of fields must be read back, and tests read a few lines of the shipped file.", "anchors": ["cjktools/resources/kanjidic.py:Kanjidic._parse_line"]}
{"id": "C39", "title": "RadkDict inverts the radical file", "statement": "A radical r is listed for kanji k exactly as many times as k occurs on the lines below a '$ r n' line and before the next '$' line; radicals are listed in file order of their first kanji line (lines before any header belong to the radical None); the stroke count of r is that of its last '$' line.", "quantifier": "every radkfile", "why_tests_cant": "The file is a state machine over lines; which radical a kanji belongs to depends on everything above it. The tests read the shipped file and compare a few kanji.", "anchors": ["cjktools/resources/radkdict.py:RadkDict._parse_radkfile"]}
{"id": "C40", "title": "RadkDict rejects malformed header lines only", "statement": "Parsing raises iff some '$' line does not have 3 or 4 fields or a stroke count that is not an integer; comment lines never matter.", "quantifier": "every file", "why_tests_cant": "'Only' is universal: no other line of any file may raise, and every malformed header must; the shipped file contains no malformed line.", "anchors": ["cjktools/resources/radkdict.py:RadkDict._parse_radkfile"]}
{"id": "C41", "title": "Place.dump and Place.from_file are inverse", "statement": "Loading a dumped place hierarchy gives back the same hierarchy: the same labels, readings, aliases and children in the same order, at every depth.", "quantifier": "every place tree of any size and depth", "why_tests_cant": "The round trip goes through indentation and separators in a text file, for trees of any depth and every label and reading, including those with white space or the separator inside; the test writes one tree of depth three.", "anchors": ["cjktools/resources/place.py:Place.dump", "cjktools/resources/place.py:Place.from_file", "cjktools/resources/place.py:Place._to_line", "cjktools/resources/place.py:Place._from_line"]}
{"id": "C42", "title": "Place.walk is the pre-order traversal", "statement": "walk yields every place of the hierarchy exactly once, parents before children, siblings in insertion order, each with its depth.", "quantifier": "every place tree", "why_tests_cant": "Order and completeness of a recursive generator over trees of any depth need induction; the tests do not call walk.", "anchors": ["cjktools/resources/place.py:Place.walk"]}
{"id": "C43", "title": "Place.walk_with_path reports the ancestors", "statement": "walk_with_path yields the nodes in walk order, each with the '/'-joined labels of its proper ancestors from the root down, and never raises.", "quantifier": "every place tree built with append", "why_tests_cant": "The path is one list that is changed while the generator runs; whether each reported path is right depends on the whole history of the walk over a tree of any shape.", "anchors": ["cjktools/resources/place.py:Place.walk_with_path"]}
{"id": "C44", "title": "Place.find_node finds a nearest match whatever the shuffle", "statement": "For the place's own label find_node returns an empty list. Otherwise, if some descendant is entered under the label, find_node returns a node entered under that label and the child labels leading to it, and no node with the label lies at a smaller depth, for every outcome of the random shuffles; it raises KeyError iff neither the place nor a descendant has the label.", "quantifier": "every place tree, label and random outcome", "why_tests_cant": "The search shuffles the children at random; that the result is nearest whatever the outcome is a statement about all outcomes, which a test run cannot force.", "anchors": ["cjktools/resources/place.py:Place.find_node"]}
{"id": "C45", "title": "Place.find_all is complete", "statement": "find_all(l) returns exactly the nodes with label l, each with its ancestor path, in walk order.", "quantifier": "every place tree and label", "why_tests_cant": "Completeness means that no match in any part of a tree of any depth is missed; the tests do not call find_all.", "anchors": ["cjktools/resources/place.py:Place.find_all"]}
{"id": "C46", "title": "TreeNode.walk_preorder visits every node once, parents first", "statement": "walk (walk_preorder) yields every node of the tree exactly once, every node before all its descendants; the nodes of each subtree come in one piece, the children of a node from the one added last to the first.", "quantifier": "every finite tree", "why_tests_cant": "The only test uses a root with two leaves and is skipped on Python 3. That every node of a tree of any shape is visited once, in the right order, needs induction.", "anchors": ["cjktools/resources/tree.py:TreeNode.walk_preorder"]}
{"id": "C47", "title": "TreeNode.walk_postorder visits every node once, children first", "statement": "walk_postorder yields every node of the tree exactly once, every node after all its descendants; the nodes of each subtree come in one piece, the children of a node from the one added last to the first.", "quantifier": "every finite tree", "why_tests_cant": "The only test uses a root with two leaves and is skipped on Python 3; the generator keeps an explicit stack with visited marks, and its correctness for all shapes needs an invariant of that stack.", "anchors": ["cjktools/resources/tree.py:TreeNode.walk_postorder"]}
{"id": "C48", "title": "TreeNode.walk_breadth_first visits level by level", "statement": "For every outcome of the shuffles, walk_breadth_first yields every node exactly once in order of non-decreasing depth; find_node returns a node with the label at the least depth and raises KeyError iff there is none.", "quantifier": "every finite tree, label and random outcome", "why_tests_cant": "Children are shuffled at random and then queued; that levels come in order whatever the shuffles concerns all outcomes and all trees.", "anchors": ["cjktools/resources/tree.py:TreeNode.walk_breadth_first", "cjktools/resources/tree.py:TreeNode.find_node"]}
{"id": "C49", "title": "TreeNode.copy is a faithful, independent copy", "statement": "The copy of a root equals the original (labels, attributes, children), has correct parent links throughout, shares no node with the original, and leaves the original unchanged.", "quantifier": "every finite tree in every heap", "why_tests_cant": "Sharing shows only after later changes: a copy that shares a dictionary passes every comparison. Faithfulness for all shapes needs induction.", "anchors": ["cjktools/resources/tree.py:TreeNode.copy"]}
{"id": "C50", "title": "TreeNode.prune keeps exactly the live branches", "statement": "prune(p) returns None iff no node satisfies p; otherwise the result contains exactly the nodes that satisfy p or have a descendant that does, in the same shape; the original tree is unchanged.", "quantifier": "every finite tree and predicate on label and attributes", "why_tests_cant": "Nodes are unlinked while a generator walks over the tree; whether the walk skips or repeats nodes depends on the shape and on which nodes die. The test prunes one leaf.", "anchors": ["cjktools/resources/tree.py:TreeNode.prune", "cjktools/resources/tree.py:TreeNode.unlink"]}
{"id": "C51", "title": "Parent and child links stay consistent", "statement": "In every history of creating nodes, add_child, unlink and del_child on trees, whenever node c is a child of p under label l then l is c's label and c's parent is p; a node is a child of at most one node.", "quantifier": "every history of tree operations", "why_tests_cant": "Consistency is an invariant of histories of operations; a stale link appears only after particular sequences, such as adding a node to a second parent, and histories are unbounded.", "anchors": ["cjktools/resources/tree.py:TreeNode.add_child", "cjktools/resources/tree.py:TreeNode.unlink", "cjktools/resources/tree.py:TreeNode.del_child"]}
{"id": "C52", "title": "Paths to the root", "statement": "ancestors and path_from_root return the same list; it starts at the root and ends at the node, and each node in it is the parent of the next; get_path with the labels of the path below the root leads back to the node.", "quantifier": "every node of every tree", "why_tests_cant": "Following links upwards stops only if they form no cycle, which is an invariant of everything done before; depth is unbounded and no test asks for a path.", "anchors": ["cjktools/resources/tree.py:TreeNode.get_ancestors", "cjktools/resources/tree.py:TreeNode.path_from_root", "cjktools/resources/tree.py:TreeNode.get_path"]}
{"id": "C53", "title": "TreeNode.build_index indexes every node", "statement": "build_index returns a dictionary mapping each label to the nodes with that label.", "quantifier": "every tree", "why_tests_cant": "No test calls the method. That it fails on every tree is a universal claim, and so is the description of the trees on which it would be right.", "anchors": ["cjktools/resources/tree.py:TreeNode.build_index"]}
{"id": "C54", "title": "Sentence reader lookups reflect the last row per id", "statement": "After loading, sentence(i) is the text of the last accepted row with id i, details(i) its details, InvalidIDError is raised iff no accepted row has id i; len and iteration give the accepted ids once each.", "quantifier": "every file and language filter", "why_tests_cant": "Ids can repeat anywhere in a file of any length; that the last row wins for each id and nothing else is stored concerns every file and filter.", "anchors": ["cjktools/resources/tatoeba.py:TatoebaSentenceReader.sentences", "cjktools/resources/tatoeba.py:TatoebaSentenceReader.sentence", "cjktools/resources/tatoeba.py:TatoebaSentenceReader.details"]}
{"id": "C55", "title": "Sentence reader language filter and language lookup", "statement": "Only rows whose language is in the filter are loaded, and all of those; language(i) is the language of the row that provided sentence(i).", "quantifier": "every file and filter", "why_tests_cant": "Which rows are kept depends on the filter and on repeated ids together; a test file has few rows and no id that changes its language.", "anchors": ["cjktools/resources/tatoeba.py:TatoebaSentenceReader.language", "cjktools/resources/tatoeba.py:TatoebaSentenceReader.sentences"]}
{"id": "C56", "title": "A failed reload keeps the old data", "statement": "If assigning a new source raises, every lookup on the reader answers as before the assignment.", "quantifier": "every file and failure point", "why_tests_cant": "The failure may come at any row of any file; the state before and after must be compared for each failure point.", "anchors": ["cjktools/resources/tatoeba.py:TatoebaSentenceReader.sentences", "cjktools/resources/tatoeba.py:TatoebaLinksReader.links", "cjktools/resources/tatoeba.py:TatoebaIndexReader.jpn_indices"]}
{"id": "C57", "title": "Every linked sentence is in its own group", "statement": "After reading any links file, every id occurring in an accepted row has a group, the group of an id contains that id, has at least one accepted link, contains only ids of accepted rows; ids not in an accepted row raise InvalidIDError.", "quantifier": "every links file and id filter", "why_tests_cant": "Groups are built in one pass over rows of any order; that a sentence ends in its own group after all later merges and overwrites is an invariant over all files.", "anchors": ["cjktools/resources/tatoeba.py:TatoebaLinksReader.links", "cjktools/resources/tatoeba.py:TatoebaLinksReader.group"]}
{"id": "C58", "title": "Translation groups are connected", "statement": "Any two members of a group returned by the links reader are connected by a chain of accepted links.", "quantifier": "every links file", "why_tests_cant": "Connectedness speaks about chains of links of any length in any order of the rows; a test file contains a few groups.", "anchors": ["cjktools/resources/tatoeba.py:TatoebaLinksReader.links"]}
{"id": "C59", "title": "Translation groups are the connected components", "statement": "Two sentences are in the same group iff they are connected by accepted links; the groups partition the linked ids. This holds in whatever order the rows of the file come.", "quantifier": "every links file", "why_tests_cant": "Whether two rows that meet later are merged depends on the order of all rows; the failing orders are easy to miss, and the exact condition quantifies over all files.", "anchors": ["cjktools/resources/tatoeba.py:TatoebaLinksReader.links", "cjktools/resources/tatoeba.py:TatoebaLinksReader.groups"]}
{"id": "C60", "title": "TanakaWord text round-trip", "statement": "For every word object with well-formed fields, TanakaWord.from_text(str(w)) == w with identical fields; for every text that parses, parsing its str gives the same word again.", "quantifier": "every word object and every text", "why_tests_cant": "Fields may contain the very characters that separate them; for which words and which texts the round trip holds is a question about all strings and about a regular expression with optional parts.", "anchors": ["cjktools/resources/tatoeba.py:TanakaWord.from_text", "cjktools/resources/tatoeba.py:TanakaWord.__str__", "cjktools/resources/tatoeba.py:TanakaWord.word_re"]}
{"id": "C61", "title": "TanakaWord equality is an equivalence", "statement": "== on TanakaWords is reflexive, symmetric and transitive, treats an omitted display as the headword, and != is its negation.", "quantifier": "every triple of words", "why_tests_cant": "Symmetry and transitivity concern all pairs and triples of words, with fields that may be missing; tests compare a few pairs.", "anchors": ["cjktools/resources/tatoeba.py:TanakaWord.__eq__", "cjktools/resources/tatoeba.py:TanakaWord.__ne__"]}
{"id": "C62", "title": "parse_sentence inverts writing words with spaces", "statement": "parse_sentence on the space-joined texts of words gives exactly the words these texts stand for in order, whatever number of extra spaces; for words that survive writing (no sense 0, see C60; no space) that is the list that was written; it raises InvalidEntryError iff some non-empty piece is not a word.", "quantifier": "every list of words", "why_tests_cant": "Sentences have any number of words with any fields; that no boundary moves depends on how the text of one word looks beside the next.", "anchors": ["cjktools/resources/tatoeba.py:TatoebaIndexReader.parse_sentence"]}
{"id": "C63", "title": "adjust_details only fills in missing readings", "statement": "adjust_details never changes headword, sense, display or example or an existing reading; a filled-in reading comes from the dictionary entry of the headword and differs from the headword; applying it twice equals applying it once; without a dictionary it is the identity.", "quantifier": "every sentence and dictionary", "why_tests_cant": "That nothing but missing readings changes, for every sentence and whatever the dictionary contains (kana words, several readings, no entry), is universal; tests read a few lines.", "anchors": ["cjktools/resources/tatoeba.py:TatoebaIndexReader.adjust_details"]}
{"id": "C64", "title": "Index reader lookups", "statement": "After loading, link(i) and reader[i] come from the last row with id i in the subset; both have the same ids; rows outside the subset are skipped.", "quantifier": "every index file and id subset", "why_tests_cant": "Ids repeat, are filtered and point to sentences that may be missing; that each lookup reflects exactly the rows of its id concerns all files and subsets.", "anchors": ["cjktools/resources/tatoeba.py:TatoebaIndexReader.jpn_indices", "cjktools/resources/tatoeba.py:TatoebaIndexReader.link"]}
{"id": "C65", "title": "Tab-separated fields are read verbatim", "statement": "Every field without tab, carriage return or newline is delivered by load_file exactly as it stands in the file, row by row.", "quantifier": "every file", "why_tests_cant": "The csv reader has states for quotes; whether a field is taken verbatim depends on where quotes stand, also lines earlier, which only a statement about all files covers.", "anchors": ["cjktools/resources/tatoeba.py:TatoebaReader.load_file"]}
{"id": "C66", "title": "Fully toned pinyin segments uniquely", "statement": "For every sequence of table syllables each followed by a tone digit 0-5, segment_pinyin returns exactly these (syllable, tone) pairs (with r read as er), independent of case and spaces.", "quantifier": "every table and every sequence of syllables", "why_tests_cant": "Uniqueness is about all rival segmentations of strings of any length over every table; greedy matching without backtracking could fail on some concatenation, as the skipped test for deniu2 shows for missing tones.", "anchors": ["cjktools/resources/pinyin_table.py:PinyinSegmenter.segment_pinyin", "cjktools/resources/zhuyin_table.py:pinyin_regex_pattern"]}
{"id": "C67", "title": "Tone marking preserves the syllable", "statement": "Applying a tone keeps the length, changes at most one character, a vowel to the same vowel with the mark of the tone; tones 0 and 5 change nothing; removing the mark gives back the syllable; the tone is recoverable from the result.", "quantifier": "every syllable and tone 0-5", "why_tests_cant": "The position of the mark is found by rules over vowels; that the letters survive and the mark can be taken off again concerns every syllable and tone.", "anchors": ["cjktools/resources/pinyin_table.py:PinyinTable._apply_tone"]}
{"id": "C68", "title": "strip_tones and from_ascii agree on syllables", "statement": "strip_tones(x) is the concatenation of the syllables of segment_pinyin(x); from_ascii(x) is the same string up to tone marks; from_hanzi passes unknown characters through unchanged.", "quantifier": "every string and table", "why_tests_cant": "Two functions that use different tables and regular expressions must agree on every string; tests compare each with a few expected answers.", "anchors": ["cjktools/resources/pinyin_table.py:PinyinTable.strip_tones", "cjktools/resources/pinyin_table.py:PinyinTable.from_ascii", "cjktools/resources/pinyin_table.py:PinyinTable.from_hanzi"]}
{"id": "C69", "title": "Pinyin segmentation always takes the longest syllable", "statement": "At each matched position the segmenter takes the longest table syllable that is a prefix of the rest, whatever the order of the table file; pinyin_regex_pattern lists all syllables of the file and 'r', longest first.", "quantifier": "every table file order and every string", "why_tests_cant": "The pattern is an alternation built from a table in file order; the longest match wins only if the alternatives are ordered well, for every table and string.", "anchors": ["cjktools/resources/zhuyin_table.py:pinyin_regex_pattern", "cjktools/resources/zhuyin_table.py:get_all_pinyin"]}
{"id": "C70", "title": "Zhuyin/pinyin tables are inverse on one-to-one files", "statement": "If no zhuyin and no pinyin occurs twice in the file, pinyin_to_zhuyin_table and zhuyin_to_pinyin_table are inverse functions; in general each maps a key to the value of its last line; comments are ignored and malformed lines raise ValueError.", "quantifier": "every table file", "why_tests_cant": "The tests look up a few syllables of the shipped table. Which files give inverse tables depends on repetitions anywhere in the file.", "anchors": ["cjktools/resources/zhuyin_table.py:zhuyin_to_pinyin_table", "cjktools/resources/zhuyin_table.py:pinyin_to_zhuyin_table"]}
{"id": "C71", "title": "sopen refuses modes with both r and w, and else opens exactly one stream", "statement": "sopen raises before opening anything iff the mode contains both 'r' and 'w'; otherwise it opens exactly one stream, chosen by the file name suffix, in the mode given ('-' meaning standard input exactly in read mode).", "quantifier": "every file name and mode", "why_tests_cant": "The mode is any string, and the name decides between four ways to open; tests open a few files, none of them compressed or standard input.", "anchors": ["cjktools/common.py:sopen"]}
{"id": "C72", "title": "filter_comments drops exactly comment lines", "statement": "filter_comments yields exactly the lines not starting with '#', in order, and is idempotent.", "quantifier": "every stream of lines", "why_tests_cant": "Exactly the comment lines must go, for streams of any length in which comment signs may stand anywhere in a line.", "anchors": ["cjktools/common.py:filter_comments"]}
{"id": "C73", "title": "Data path resolution order", "statement": "find_path returns the CJKDATA environment variable whenever it is set; otherwise the first existing directory of the search path; otherwise it raises MissingCJKDataError; get_resource joins the name below it.", "quantifier": "every environment and file system", "why_tests_cant": "The result depends on an environment variable, on which of several directories exist and on what they contain; a test run sees one environment.", "anchors": ["cjktools/resources/cjkdata.py:find_path", "cjktools/resources/cjkdata.py:get_resource"]}
{"id": "C74", "title": "Language code tables are inverse", "statement": "from_one_char_code and from_two_char_code exist (module import does not fail) and are exactly the inverses of to_one_char_code and to_two_char_code; the codes of one letter are the initials of the English names, those of two letters en, cn and jp.", "quantifier": "every language name and code string", "why_tests_cant": "The tables are computed from one another when the module is loaded; that lookups in both directions agree for every string, including unknown ones, is more than a comparison of some codes.", "anchors": ["cjktools/resources/languages.py:to_one_char_code", "cjktools/resources/languages.py:from_one_char_code"]}
{"id": "C75", "title": "Tree distribution root has frequency one", "statement": "After TreeDist(root, m) with a non-zero total, every node has count m(node), cum_count its count plus the counts below it, freq = cum_count/total, and the root's freq is 1; the original tree is unchanged. The count method may look at the node with everything below it, also at the counts the nodes below have got already; if it raises, the constructor raises the exception of the first call that fails, counting children before their parents. The root's freq is exactly 1 however floating-point sums and quotients are rounded.", "quantifier": "every tree, count method and rounding", "why_tests_cant": "Counts are summed over a tree of any shape with an arbitrary count method, among them methods with total 0; no test makes a distribution.", "anchors": ["cjktools/resources/tree.py:TreeDist.__init__"]}
{"id": "C76", "title": "Kanji lists contain exactly the kanji of the file", "statement": "get_list(name) is exactly the set of kanji-band characters occurring in the list file.", "quantifier": "every file content", "why_tests_cant": "Blank lines, spaces and repetitions can stand anywhere in a file; the tests count the kanji of the shipped lists.", "anchors": ["cjktools/resources/kanji_list.py:get_list"]}
{"id": "C77", "title": "Kanjidic: the last line of a kanji wins, any bad line aborts", "statement": "Kanjidic(files) maps each kanji to the entry of its last non-comment line over all files in the order given and to nothing else; construction raises iff there is no file (TypeError) or some non-comment line does not parse, and then raises the error of the first such line.", "quantifier": "every list of files", "why_tests_cant": "The answer depends on all lines of all files together: repetitions across files, and a bad line after good ones, in any order.", "anchors": ["cjktools/resources/kanjidic.py:Kanjidic.__init__", "cjktools/resources/kanjidic.py:Kanjidic._parse_kanjidic"]}
{"id": "C78", "title": "is_pinyin recognises pinyin strings", "statement": "is_pinyin(s) is True iff s, ignoring case and spaces and reading v as ü, consists of table syllables (or r) with optional tone digits.", "quantifier": "every table and string", "why_tests_cant": "Both directions (all pinyin accepted, nothing else) range over all strings and tables; the exceptions are found only by comparing with an independent grammar.", "anchors": ["cjktools/resources/pinyin_table.py:PinyinSegmenter.is_pinyin"]}
{"id": "C79", "title": "The hanzi table keeps the last line of each hanzi", "statement": "PinyinTable maps each hanzi to the tuple of readings of its last line that is no comment, and has no other keys; construction raises IndexError iff some line is blank.", "quantifier": "every table file", "why_tests_cant": "Repeated hanzi can stand anywhere in a file of any length; the test looks up four characters of the shipped table.", "anchors": ["cjktools/resources/pinyin_table.py:PinyinTable.__init__"]}
{"id": "C80", "title": "Script mappings between arbitrary scripts", "statement": "ScriptMapping(x, y) raises KeyError iff x or y is Unknown and AssertionError iff x has more characters than y; a constructed mapping never fails, replaces the i-th character of x by the i-th character of y, leaves all other characters alone, and is injective on strings without characters of y.", "quantifier": "every pair of scripts and every string", "why_tests_cant": "the class is public and can be instantiated for any of 49 pairs; its effect is quantified over all strings", "anchors": ["cjktools/scripts.py:ScriptMapping"]}
{"id": "C81", "title": "procmap calls the procedure on each item once, in order", "statement": "procmap(f, xs) calls f on the items from left to right, once each; it returns iff no call raises, and otherwise stops at the first raising call and propagates its exception without touching later items.", "quantifier": "every procedure with arbitrary side effects and every list", "why_tests_cant": "The procedure may have any side effects and may raise at any item; that it ran on each earlier item once, in order, concerns all states and lists.", "anchors": ["cjktools/maps.py:procmap"]}
{"id": "C82", "title": "Updating a bilingual dictionary replaces entries word by word", "statement": "d.update(other) with the default policy gives every word of other the entry of other (replacing, not merging, an old entry), leaves all other words alone and keeps the old words in place with the new ones behind them; after any sequence of updates a word has the entry of the last dictionary containing it. With ClashPolicy.Merge it always raises NotYetImplementedError.", "quantifier": "every pair and every sequence of dictionaries", "why_tests_cant": "The tests update with one clash. Word order, chains of updates of any length and that nothing else changes concern all dictionaries.", "anchors": ["cjktools/resources/bilingual_dict.py:BilingualDictionary.update", "cjktools/resources/bilingual_dict.py:ClashPolicy"]}
{"id": "C83", "title": "Loading and saving never leaks a file handle", "statement": "RadkDict, Kanjidic, zhuyin and pinyin tables, kanji lists, Place.dump, Place.from_file, the dictionary loaders, the disk cache and the Tatoeba links reader close every file they open, whatever the content and wherever an exception is raised (opening, reading, parsing), and leave streams of the caller open; only the file name '-' makes them close a standard stream.", "quantifier": "every file content, every failure point and every set of handles already open", "why_tests_cant": "a leak shows only for particular failures in the middle of a read; tests do not look at handles at all", "anchors": ["cjktools/common.py:sopen", "cjktools/resources/radkdict.py:RadkDict.__init__", "cjktools/resources/kanjidic.py:Kanjidic.__init__", "cjktools/resources/place.py:Place.dump", "cjktools/resources/place.py:Place.from_file", "cjktools/smart_cache.py:store_cache_object", "cjktools/resources/tatoeba.py:TatoebaLinksReader"]}
{"id": "C84", "title": "The Tatoeba sentence and index readers close their files", "statement": "TatoebaSentenceReader and TatoebaIndexReader close the file they read before the constructor returns or raises.", "quantifier": "every file content and every failure point", "why_tests_cant": "The failing case needs a rejected row and an exception kept alive by the caller; at which row a file of any length fails is arbitrary.", "anchors": ["cjktools/resources/tatoeba.py:TatoebaSentenceReader", "cjktools/resources/tatoeba.py:TatoebaIndexReader"]}
{"id": "C85", "title": "Tree equality is equality up to order", "statement": "For finite trees, a == b terminates and is True exactly when the trees have the same labels, the same attributes up to order and the same children under the same labels up to order; it is reflexive, symmetric and transitive.", "quantifier": "every pair and triple of finite trees", "why_tests_cant": "An equivalence quantifies over all pairs and triples of trees of any depth, with children in any order; tests compare leaves.", "anchors": ["cjktools/resources/tree.py:TreeNode.__eq__"]}
{"id": "C86", "title": "layout draws every node once, in depth-first order, and the drawing determines the tree shape", "statement": "TreeNode.layout prints exactly one line per node in depth-first order, each with the text of the given method and an indentation that grows by level; it stops at the first node on which the method raises; two trees with the same drawing have the same labels and shape.", "quantifier": "every tree, every method with arbitrary failures", "why_tests_cant": "Depth and width are unbounded and uniqueness of the drawing ranges over all pairs of trees; the method that draws a node may raise at any node.", "anchors": ["cjktools/resources/tree.py:TreeNode.layout", "cjktools/resources/tree.py:TreeNode.__str__"]}
{"id": "C87", "title": "Lazily cached tables are built once and shared", "statement": "KanaTable.get_cached, get_pinyin_table and get_pinyin_segmenter construct their object until construction succeeds once, then always return that very object without touching the data files; failures are not remembered. In every sequence of pinyin calls all tables share one segmenter, and a PinyinTable made directly is never the cached one.", "quantifier": "every sequence of calls with arbitrary failures of the data files in between", "why_tests_cant": "The state belongs to the whole process; histories of calls, with failures of the data files in between, are unbounded, and tests call each function while the files are there.", "anchors": ["cjktools/kana_table.py:KanaTable.get_cached", "cjktools/resources/pinyin_table.py:get_pinyin_table", "cjktools/resources/pinyin_table.py:get_pinyin_segmenter", "cjktools/resources/pinyin_table.py:PinyinTable.__init__"]}
{"id": "C88", "title": "RadkDict.get_cached and Kanjidic.get_cached read the data once", "statement": "After the first successful call RadkDict.get_cached and Kanjidic.get_cached return the same object without reading the data files again and without failing.", "quantifier": "every sequence of calls with arbitrary failures of the data files in between", "why_tests_cant": "Tests only check that the second call returns the same object while the files are there; what a failed first call leaves behind needs all histories.", "anchors": ["cjktools/resources/radkdict.py:RadkDict.get_cached", "cjktools/resources/kanjidic.py:Kanjidic.get_cached"]}
{"id": "C89", "title": "print_radicals prints one sorted line per kanji up to the first unknown one", "statement": "For a readable radical file print_radicals prints, for each argument in order, a line with the kanji and its radicals in code point order, each as often as the file lists the kanji under it; the first argument that is no kanji of the file ends it with KeyError, and the first that stands above the first header line with TypeError, after the lines before have been printed.", "quantifier": "every radical file and every list of arguments", "why_tests_cant": "file order, code point order and the position of the failing argument vary without bound; the function has no test", "anchors": ["cjktools/resources/radkdict.py:print_radicals"]}
{"id": "C90", "title": "Place accepts exactly the details its file format can hold", "statement": "Place(label, reading) raises ValueError exactly for those details that would not survive dump followed by from_file.", "quantifier": "every label and reading", "why_tests_cant": "Ranges over all strings, including every white space character of Unicode and the separators of the format; the test tries one bad label.", "anchors": ["cjktools/resources/place.py:Place.__init__", "cjktools/resources/place.py:Place._to_line", "cjktools/resources/place.py:Place._from_line"]}
{"id": "C91", "title": "A file of places is read as the outline its indentation draws", "statement": "Place.from_file on any file: the first line is the root; every later line becomes a child of the last earlier line whose depth is one less (a later line of depth 0 becomes a child of the root), with exactly the label, reading and aliases of its line; a later sibling with the same label replaces the earlier one. It fails exactly on the first line that cannot be parsed, is negative or jumps by more than one level, with the matching exception.", "quantifier": "every list of lines of any length and any depths", "why_tests_cant": "Outlines have unboundedly many shapes, with jumps of depth in both directions; the tests load one file that was written by dump.", "anchors": ["cjktools/resources/place.py:Place.from_file", "cjktools/resources/place.py:Place._from_line"]}
{"id": "C92", "title": "The four dictionary line formats accept and read exactly the documented grammar", "statement": "For EDICT, CEDICT, jc_kdic and cj_kdic, parse_line on any string finds the same word, reading and senses as a plain left-to-right reader that cuts at the separators without backtracking (the reading is optional for EDICT and CEDICT, empty senses are skipped), and every other string is refused with FormatError and no other exception.", "quantifier": "every Unicode string", "why_tests_cant": "backtracking regular expressions can accept surprising strings; only a statement over all strings excludes them", "anchors": ["cjktools/resources/auto_format.py:known_formats", "cjktools/resources/dict_format.py:RegexFormat.parse_line"]}
{"id": "C93", "title": "A dictionary file gives back every sense under its word and reading", "statement": "After load_dictionary on any file with a known header whose lines can all be read, the words are exactly those of the lines, and for every word w and reading r, d[w].senses_by_reading()[r] lists exactly the senses of the lines with word w and reading r, in file order; iter_entries yields one entry per line. If a line cannot be read, load_dictionary raises FormatError and iter_entries first yields the entries before it.", "quantifier": "every file of any length in each of the four formats", "why_tests_cant": "homographs, repeated readings and their order vary without bound; the property composes header detection, line grammar and merging", "anchors": ["cjktools/resources/auto_format.py:load_dictionary", "cjktools/resources/auto_format.py:iter_entries", "cjktools/resources/dict_format.py:DictionaryFormat.parse_dictionary", "cjktools/resources/bilingual_dict.py:DictionaryEntry.senses_by_reading"]}
{"id": "C94", "title": "Line endings and a missing final newline make no difference", "statement": "load_dictionary, iter_entries, load_coded_dictionary, iter_coded_entries, RadkDict, the zhuyin/pinyin tables and patterns, PinyinSegmenter, Place.from_file and Kanjidic give the same result, or raise the same exception, on two files that have the same lines, whether the lines end with a Unix, Windows or old Mac line ending (also mixed) and whether or not the last line has one. The table of hanzi read by PinyinTable is the same with all line endings of str.splitlines.", "quantifier": "every file, every choice of a line ending for every line", "why_tests_cant": "line endings can be mixed in unboundedly many ways, and the regular expressions treat a newline at the end specially", "anchors": ["cjktools/resources/auto_format.py:load_dictionary", "cjktools/resources/split_by_codes.py:load_coded_dictionary", "cjktools/resources/radkdict.py:RadkDict", "cjktools/resources/kanjidic.py:Kanjidic", "cjktools/resources/zhuyin_table.py:parse_lines", "cjktools/resources/place.py:Place.from_file"]}
{"id": "C95", "title": "Processes that share a cache file never get a wrong value", "statement": "When any number of processes call a method decorated with disk_proxy_direct on the same cache file at the same time, every call that returns gives the result of the method for its arguments; and every call comes to an end when its process gets its steps, whatever the other processes do in between.", "quantifier": "every number of processes, every interleaving of their reads and writes, every sizes of the system calls", "why_tests_cant": "Races depend on timing: the interleavings of the reads and writes of several processes are unbounded in number, and a test cannot force one.", "anchors": ["cjktools/smart_cache.py:disk_proxy_direct", "cjktools/smart_cache.py:try_cache", "cjktools/smart_cache.py:store_cache_object"]}
{"id": "C96", "title": "A Tatoeba export is answered from as it was written", "statement": "For the text of an export of sentences (with or without details), of links or of Japanese indices, written one record per line with tabs between the values and any line endings, the reader loads, and sentence, sentence_ids, details and (if no id occurs twice) language answer with the values of the last record of an id that passes the language filter; group and groups give the connected components of the accepted links exactly if no link joins two existing groups; the index reader gives back the words and the translation id. Values hold no tab, line break or NUL, none begins with a double quote and none exceeds the limit of the csv module.", "quantifier": "every list of records, every choice of line endings, every filter", "why_tests_cant": "composes text decoding into lines, the csv state machine, number parsing and the dictionaries of three readers over files of any size", "anchors": ["cjktools/resources/tatoeba.py:TatoebaReader.load_file", "cjktools/resources/tatoeba.py:TatoebaSentenceReader", "cjktools/resources/tatoeba.py:TatoebaLinksReader", "cjktools/resources/tatoeba.py:TatoebaIndexReader"]}
{"id": "C97", "title": "Changing a dictionary entry changes no other entry", "statement": "entry.update(other) changes entry and at most pads the readings of other; no other entry changes, and a list returned by senses_by_reading can be changed without changing any entry.", "quantifier": "every program that makes lists and entries, updates entries and looks up senses", "why_tests_cant": "Aliasing between list objects depends on the whole history of a program: the same list may have reached two entries many steps earlier.", "anchors": ["cjktools/resources/bilingual_dict.py:DictionaryEntry.update", "cjktools/resources/bilingual_dict.py:DictionaryEntry.senses_by_reading", "cjktools/resources/dict_format.py:DictionaryFormat.parse_dictionary", "cjktools/resources/bilingual_dict.py:BilingualDictionary.update"]}
{"id": "C98", "title": "A rejected Tatoeba file raises the exception of its first problem", "statement": "Loading a sentence file raises StopIteration exactly if it is empty, InvalidFileError if the first row has neither three nor six columns, and otherwise ValueError exactly if some row is too short or, within the language filter, has an id that is no number, too few details or an unreadable date. A links reader raises ValueError exactly for an unknown filter name and otherwise InvalidFileError exactly if some row is not a pair of numbers. An index file raises, for its first bad row, ValueError if the row is not three columns with two numbers and InvalidEntryError if it is wanted and holds a piece that is not a word. A file ended by a csv error raises that error exactly if no row before it is bad.", "quantifier": "every list of rows, every filter, every way the file can end", "why_tests_cant": "which of several faults is reported depends on the order of checks over a file of any length", "anchors": ["cjktools/resources/tatoeba.py:TatoebaSentenceReader", "cjktools/resources/tatoeba.py:TatoebaLinksReader", "cjktools/resources/tatoeba.py:TatoebaIndexReader", "cjktools/resources/tatoeba.py:TanakaWord.from_text"]}
{"id": "C99", "title": "A custom dictionary format reads exactly what its patterns describe", "statement": "A RegexFormat made from pattern texts (of the usual syntax: characters, classes, escapes, groups, alternatives, greedy and lazy repetition, anchors, look-behind) whose line pattern always sets the groups word and senses and whose sense pattern always sets sense: parse_line raises FormatError if the line pattern describes no beginning of the line, or if no sense occurs in the text of senses; otherwise the entry has the word and reading (the word if there is none) without spaces of a way in which the pattern describes the line, and the senses that the sense pattern finds from left to right without overlaps (behind an empty one only one that is not empty). No other exception is raised. With other patterns, KeyError means that the group word or the group sense does not exist, AttributeError that word took no part in a match of the line, TypeError that senses is missing or took no part; each of these mistakes raises its exception for every line concerned, so such a line is never read.", "quantifier": "every pattern text of that syntax and every line", "why_tests_cant": "the patterns are written by users of the library; the statement ranges over all of them and over all lines", "anchors": ["cjktools/resources/dict_format.py:RegexFormat", "cjktools/resources/dict_format.py:RegexFormat.parse_line"]}
{"id": "C100", "title": "pinyin_regex_pattern matches the longest syllable and its tone", "statement": "Compiled with re, the text returned by pinyin_regex_pattern matches a string exactly if it begins with 'r' or a pinyin of the table; group 1 is the longest such syllable, group 2 the digit 0 to 5 behind it if there is one and '' otherwise, and the match is both together.", "quantifier": "every table whose pinyin have no characters with a meaning in patterns, every string", "why_tests_cant": "the pattern is built from data; longest match depends on the order of alternatives for every table and every text", "anchors": ["cjktools/resources/zhuyin_table.py:pinyin_regex_pattern"]}
{"id": "C101", "title": "zhuyin_regex_pattern matches the zhuyin of the table", "statement": "Compiled with re, the text returned by zhuyin_regex_pattern matches a string exactly if it begins with a zhuyin syllable of the table, and group 1 is the longest such syllable.", "quantifier": "every table, every string", "why_tests_cant": "The pattern is built from data and matched with backtracking; no test calls the function, and 'matches exactly' ranges over all strings and tables.", "anchors": ["cjktools/resources/zhuyin_table.py:zhuyin_regex_pattern"]}
{"id": "C102", "title": "A loader reads the stream or the file it is told to, and no other", "statement": "RadkDict and the functions of the zhuyin table parse the stream they are given and then open no file, whatever the environment and the disk; without a stream they open exactly their one file of the data directory and give what a stream with its lines would give. print_radicals reads the same file as RadkDict(). PinyinTable() opens the syllable table, then the hanzi table. Kanjidic(files) opens exactly these files in order and reads them one after the other; Kanjidic() is Kanjidic of kanjidic and kanjd212 of the data directory. load_coded_dictionary and the Tatoeba readers give the same for a file name and for an open stream with the same lines. A file that cannot be opened ends the loader with the exception of opening, and later files are not opened.", "quantifier": "every environment, every disk content, every stream and every list of files", "why_tests_cant": "a wrong default or a stream that is ignored shows only when the two contents differ; environments, disks and streams vary independently", "anchors": ["cjktools/common.py:get_stream_context", "cjktools/resources/radkdict.py:RadkDict.__init__", "cjktools/resources/zhuyin_table.py:_default_stream", "cjktools/resources/pinyin_table.py:PinyinTable.__init__", "cjktools/resources/kanjidic.py:Kanjidic.__init__", "cjktools/resources/split_by_codes.py:load_coded_dictionary", "cjktools/resources/tatoeba.py:TatoebaReader.load_file"]}
{"id": "C103", "title": "Compression is transparent", "statement": "Kanjidic, Place.from_file, Place.dump and the Tatoeba readers, given a file name that ends in .gz or .bz2, work on the compressed file as they do on an uncompressed file with the same text.", "quantifier": "every text, every compressed file name", "why_tests_cant": "Ranges over all file contents, line ends and texts; no test uses a compressed file.", "anchors": ["cjktools/common.py:sopen", "cjktools/resources/kanjidic.py:Kanjidic.__init__", "cjktools/resources/place.py:Place.from_file", "cjktools/resources/place.py:Place.dump", "cjktools/resources/tatoeba.py:TatoebaReader.load_file"]}
{"id": "C104", "title": "iter_coded_entries yields the coded entries of a file or stream", "statement": "For a file name or an open stream iter_coded_entries yields the entries with their codes, such that load_coded_dictionary of the same source files a word under a code iff the word is yielded with the code.", "quantifier": "every dictionary file, given by name or as a stream", "why_tests_cant": "relates two functions over all files; the name and the stream take different paths through the code", "anchors": ["cjktools/resources/split_by_codes.py:iter_coded_entries", "cjktools/resources/split_by_codes.py:load_coded_dictionary"]}
{"id": "C105", "title": "Tone marks stand where pinyin orthography puts them", "statement": "from_ascii writes the tone mark of a syllable over the vowel that Hanyu Pinyin orthography prescribes: over a or e if there is one, over the o of ou, and otherwise over the last vowel; tones 1 to 4 use the four accents.", "quantifier": "for every syllable made of an initial without vowels and a final, every tone", "why_tests_cant": "There are hundreds of syllables times five tones, and the tests in the repository assert an unorthodox result for one of them; whether the rule holds for all syllables is a statement about the rule, not about samples.", "anchors": ["cjktools/resources/pinyin_table.py:PinyinTable.from_ascii", "cjktools/resources/pinyin_table.py:PinyinTable._apply_tone"]}
{"id": "C106", "title": "The Tatoeba readers are consistent dictionaries", "statement": "After any file has been read, the dictionary interface of a reader is consistent: iteration yields every id of an accepted row exactly once and nothing else, len counts them, `in`, [], get, items and values agree with it, lookups of other ids raise KeyError, the named lookups (sentence, language, details, group, link) succeed for the same ids and raise InvalidIDError for all others, and two readers are equal exactly if they know the same ids with equal values (sentences, groups as sets, words with a missing display standing for the headword).", "quantifier": "for every file that is read without an exception, every filter and every id", "why_tests_cant": "The links reader keeps two dictionaries that are updated in different branches, and the methods of Mapping are derived from three methods that look at different ones; tests compare a few ids of small files.", "anchors": ["cjktools/resources/tatoeba.py:TatoebaDict", "cjktools/resources/tatoeba.py:TatoebaLinksReader.__getitem__", "cjktools/resources/tatoeba.py:TatoebaSentenceReader._base_dict", "cjktools/resources/tatoeba.py:TatoebaIndexReader._base_dict"]}
{"id": "C107", "title": "A reader reports the source of its data", "statement": "After any sequence of assignments to sentences, links or jpn_indices, whether they raised or not, the attribute reports the source of the data that the reader holds.", "quantifier": "for all sequences of assignments of files, good or bad", "why_tests_cant": "Needs a sequence of reloads some of which fail, and a look at both the data and the reported source after each; no finite set of sequences covers all of them.", "anchors": ["cjktools/resources/tatoeba.py:TatoebaSentenceReader.sentences", "cjktools/resources/tatoeba.py:TatoebaLinksReader.links", "cjktools/resources/tatoeba.py:TatoebaIndexReader.jpn_indices"]}
{"id": "C108", "title": "Times in detailed exports are read exactly", "statement": "parse_date gives None exactly for \\N and 0000-00-00 00:00:00. A time written as 2010-04-23 07:05:09 is read back as that time if it exists in the calendar of the years 1 to 9999, and gives ValueError otherwise. In general a text is read as a time exactly if it consists of a year of four digits, month, day, hour, minute and second with the separators of this form, where leading zeros may be missing and the space may be any white space, and the time exists; every other text gives ValueError. So details answers with the times that were written.", "quantifier": "for every text and every time", "why_tests_cant": "The texts accepted depend on the order in which a regular expression with overlapping alternatives is matched, and on the calendar; samples show neither what else is accepted nor that every time can be read back.", "anchors": ["cjktools/resources/tatoeba.py:TatoebaSentenceReader.parse_date", "cjktools/resources/tatoeba.py:TatoebaSentenceReader.details"]}
{"id": "C109", "title": "A distribution can be copied and drawn", "statement": "`TreeDist.copy()` gives a distribution on new nodes with the same labels, attributes (hence the same counts and frequencies) and shape, and changes nothing that existed. `TreeDist.layout()` of a distribution made with a count method prints exactly one line per node, in depth-first order with the children in order: the columns of `layout`, the label, a space and the frequency to four places; it never raises. The copy is drawn like the original. A distribution made without a count method from a root without frequency raises KeyError and prints nothing.", "quantifier": "all trees of any size and depth, all count methods with a total other than 0, all ways of writing a number", "why_tests_cant": "Tests draw one small tree; that every node has its frequency whatever the shape and count method, and that the copied nodes are all new, is a statement about all trees and needs induction on the tree.", "anchors": ["cjktools/resources/tree.py:TreeDist.copy", "cjktools/resources/tree.py:TreeDist.layout", "cjktools/resources/tree.py:TreeDist.__init__"]}
{"id": "C110", "title": "What is done to one tree does not show in another", "statement": "Take a tree whose root has no parent and do any sequence of operations (new nodes, `add_child`, `unlink`, `del_child`, setting and deleting attributes, also ones that raise) on its nodes and on nodes created meanwhile: every other node keeps its label, children, attributes and parent. In particular after `copy()` no sequence of operations on the copy changes the original, and none on the original (and other older nodes) changes the copy.", "quantifier": "all heaps, all trees, all finite histories of operations of any length", "why_tests_cant": "Aliasing bugs (a shared dictionary, a stale parent link) only show after particular sequences of operations; a test tries a few sequences, the claim is about all of them and needs an invariant.", "anchors": ["cjktools/resources/tree.py:TreeNode.copy", "cjktools/resources/tree.py:TreeNode.add_child", "cjktools/resources/tree.py:TreeNode.unlink", "cjktools/resources/tree.py:TreeNode.del_child", "cjktools/resources/tree.py:TreeNode.__setitem__", "cjktools/resources/tree.py:TreeNode.__delitem__"]}
{"id": "C111", "title": "The attributes of a node are a dictionary of its own", "statement": "After `node[key] = value`, `node[key]` is the value and `key in node` holds, all other keys and all other nodes read as before, and no label, child or parent changes. `key in node` holds exactly if `node[key]` gives a value; otherwise `node[key]` raises KeyError. `del node[key]` raises KeyError exactly if the key is not there; otherwise the key is gone, and all other attributes of all nodes, and all labels, children and parents, are as before.", "quantifier": "all heaps reached by any history, all nodes, keys and values", "why_tests_cant": "A test reads back what it wrote; that nothing else changed, for every other key and node of every tree, is a universal statement.", "anchors": ["cjktools/resources/tree.py:TreeNode.__getitem__", "cjktools/resources/tree.py:TreeNode.__setitem__", "cjktools/resources/tree.py:TreeNode.__contains__", "cjktools/resources/tree.py:TreeNode.__delitem__"]}
{"id": "C112", "title": "The text that stands for an object identifies what it counts", "statement": "str and repr of a dictionary entry determine its word, its number of different readings and its number of senses, whatever the word contains; those of a tree node its label and number of children; those of a place, if its label contains no ' /', its label, reading and number of entries. After entry.update(other) the text of entry counts the different readings of both entries and all senses, and the text of other is as before, provided both have senses. Those of a Tatoeba sentence or links reader determine its class and the source it reports.", "quantifier": "every entry, node, place and reader, every word and label, every pair of merged entries", "why_tests_cant": "That no two different objects share a text is a statement about all pairs of words with digits, brackets and spaces in any place; a test compares a few fixed strings. The effect of merging on the counts depends on padding, which a single example does not separate.", "anchors": ["cjktools/resources/bilingual_dict.py:DictionaryEntry.__str__", "cjktools/resources/bilingual_dict.py:DictionaryEntry.update", "cjktools/resources/tree.py:TreeNode.__str__", "cjktools/resources/place.py:Place.__str__", "cjktools/resources/tatoeba.py:TatoebaSentenceReader.__repr__", "cjktools/resources/tatoeba.py:TatoebaLinksReader.__repr__"]}
{"id": "C113", "title": "Kana conversion keeps the script structure of a text", "statement": "`script_type(to_katakana(s))` is Katakana if `script_type(s)` is Hiragana and is unchanged otherwise; the converted text contains no hiragana, contains katakana exactly if `s` contained kana of either sort, and contains each other script exactly if `s` did (likewise for `to_hiragana`). Conversion never makes or moves a boundary: `script_boundaries` of the converted text consists of the converted blocks of `s`, with some neighbours joined, and it is exactly the list of converted blocks iff no hiragana block stands directly beside a katakana block. `normalize` and `to_katakana` can be applied in either order with the same result; none of the three functions changes the set of kanji; `normalize` leaves no full-width ASCII and no half-width katakana and neither adds nor removes hiragana.", "quantifier": "all strings of any length over all code points", "why_tests_cant": "Where the blocks of a converted text lie depends on every pair of neighbouring characters and on long vowel marks at block ends; a test tries a handful of words. 'Never makes a boundary' ranges over all strings and needs induction over the blocks.", "anchors": ["cjktools/scripts.py:to_katakana", "cjktools/scripts.py:to_hiragana", "cjktools/scripts.py:script_boundaries", "cjktools/scripts.py:script_type", "cjktools/scripts.py:script_types", "cjktools/scripts.py:contains_script", "cjktools/scripts.py:unique_kanji", "cjktools/scripts.py:normalize"]}
{"id": "C114", "title": "The disk cache works whatever the name of its file", "statement": "`disk_proxy` gives the same results, runs the wrapped method in the same calls and is as safe after a crash with a cache file named `*.gz` or `*.bz2` as with a plain one: in every history of calls, crashes, waiting, edits of dependencies and removals of the cache file, each call returns or raises what the method would at that moment, and a stored result is used again. The standard streams are left alone.", "quantifier": "all methods determined by their dependencies, all file names, all finite histories, all compression formats that give back what was written", "why_tests_cant": "That a cache file cut short anywhere inside a compressed stream never yields a wrong value ranges over all contents, all cut points and all later histories; a test writes one file and cuts it once or not at all.", "anchors": ["cjktools/smart_cache.py:disk_proxy", "cjktools/smart_cache.py:disk_proxy_direct", "cjktools/smart_cache.py:try_cache", "cjktools/smart_cache.py:store_cache_object", "cjktools/common.py:sopen"]}
{"id": "C115", "title": "Trouble with the cache file does not lose a result", "statement": "If the cache file of a `disk_proxy` cannot be opened for reading, the call behaves as if there were no cache: the method runs and its result is returned or its exception raised. If the file cannot be opened for writing, the result of the method is still returned.", "quantifier": "all methods, arguments, file systems and reasons for which the system refuses to open the file", "why_tests_cant": "Failures of the operating system are hard to provoke in a test and come in any combination of reading and writing, before and after a hit; the claim is about all of them.", "anchors": ["cjktools/smart_cache.py:disk_proxy_direct", "cjktools/smart_cache.py:try_cache", "cjktools/smart_cache.py:store_cache_object"]}
{"id": "C116", "title": "memory_proxy works around a method that calls itself", "statement": "A deterministic method that calls itself through its own memory_proxy (as a decorated recursive function does) returns, for every history of calls, what the recursion without a cache returns, raises what it raises and ends exactly when it ends; counting the calls that the method makes of itself, it runs at most once for each distinct call that succeeds.", "quantifier": "every method body (any sequence of calls of itself, any handling of exceptions), every history of calls, every depth of recursion", "why_tests_cant": "The cache changes while outer calls are running; the order of the nested calls and the states of the cache that they meet are unbounded.", "anchors": ["cjktools/smart_cache.py:memory_proxy"]}
{"id": "C117", "title": "Which texts a TanakaWord keeps", "statement": "str of the word that TanakaWord.from_text parses from a text is the same text exactly when the text has no legacy tag and its sense number, if it has one, is written as str writes it: ASCII digits, at least two, not all zero, with a leading zero only in front of a single digit. The text that str gives for a word with well-formed fields is always such a text: parsing and writing it again changes nothing.", "quantifier": "every text that parses, every word with well-formed fields", "why_tests_cant": "ranges over all texts; the numbers have no bound and the legacy tag is dropped silently", "anchors": ["cjktools/resources/tatoeba.py:TanakaWord.from_text", "cjktools/resources/tatoeba.py:TanakaWord.__str__", "cjktools/resources/tatoeba.py:TanakaWord.word_re"]}
{"id": "C118", "title": "Threads may share a memory_proxy", "statement": "When any number of threads call a method through one memory_proxy, with the steps of the calls interleaved in any way: a call that ends returns a value that the method had returned for the same arguments, raises what the method raised when this very call ran it, or raises TypeError for unhashable arguments; so a deterministic method gives the same through the proxy to all threads. A call that begins after a call with the same arguments has returned never runs the method. A call that has begun ends, once and for its own arguments, when it gets its steps and the method ends; other calls cannot hold it up.", "quantifier": "every number of calls, every interleaving of their steps, every behaviour of the method", "why_tests_cant": "The interleavings of threads are unbounded and a test meets a few of them; a lost update or an error between the test of the key and the second lookup would show up rarely.", "anchors": ["cjktools/smart_cache.py:memory_proxy"]}
{"id": "C119", "title": "Threads share the memory-cached tables", "statement": "KanaTable.get_cached, RadkDict.get_cached, Kanjidic.get_cached, get_pinyin_table and get_pinyin_segmenter give the same object to all threads, however their calls overlap; a call raises only what the constructor raised that it started itself; and a call that has begun ends, once, when it gets its steps and the constructor ends, whatever the other calls do.", "quantifier": "every number of calls, every interleaving of their steps, every behaviour of the constructors", "why_tests_cant": "The interleavings of threads are unbounded; whether two callers can get different tables depends on overlaps that a test does not produce on demand.", "anchors": ["cjktools/kana_table.py:KanaTable.get_cached", "cjktools/resources/radkdict.py:RadkDict.get_cached", "cjktools/resources/kanjidic.py:Kanjidic.get_cached", "cjktools/resources/pinyin_table.py:get_pinyin_table", "cjktools/resources/pinyin_table.py:get_pinyin_segmenter"]}
{"id": "C120", "title": "Walking and searching places ends", "statement": "For everything that a program can build out of places (creating places, appending them, setting and deleting entries, relabelling), walk, walk_with_path, find_all, find_node and dump end; every way to a place, as a sequence of keys, is walked exactly once with its depth, and find_node returns a shortest way to the label or raises KeyError if there is none. What from_file reads never contains a loop.", "quantifier": "every program over any number of places, shared places included; every outcome of the shuffles; every file that loads", "why_tests_cant": "Places are shared objects: the shapes that programs can build are unbounded, and whether a search ends cannot be observed by running it.", "anchors": ["cjktools/resources/place.py:Place.walk", "cjktools/resources/place.py:Place.walk_with_path", "cjktools/resources/place.py:Place.find_all", "cjktools/resources/place.py:Place.find_node", "cjktools/resources/place.py:Place.dump", "cjktools/resources/place.py:Place.append", "cjktools/resources/place.py:Place.from_file"]}
{"id": "C121", "title": "Walks, searches, copies and paths of tree nodes end", "statement": "For everything that a program can build with TreeNode (creating nodes, add_child, unlink, del_child, attributes), the walks, find_node, copy, prune, path and ancestors end, and so do making and copying a TreeDist; however nodes are shared, a walk yields a node once for every way down to it (a sequence of labels), breadth first in the order of the lengths of the ways, and find_node returns a node at the end of a shortest way to the label or raises KeyError if there is none.", "quantifier": "every program over any number of nodes, shared nodes included; every outcome of the shuffles", "why_tests_cant": "Nodes are shared mutable objects: the graphs that programs can build are unbounded, and whether a walk ends cannot be observed by running it.", "anchors": ["cjktools/resources/tree.py:TreeNode.walk_preorder", "cjktools/resources/tree.py:TreeNode.walk_postorder", "cjktools/resources/tree.py:TreeNode.walk_breadth_first", "cjktools/resources/tree.py:TreeNode.find_node", "cjktools/resources/tree.py:TreeNode.copy", "cjktools/resources/tree.py:TreeNode.prune", "cjktools/resources/tree.py:TreeNode.path_from_root", "cjktools/resources/tree.py:TreeNode.add_child", "cjktools/resources/tree.py:TreeNode.del_child"]}
{"id": "C122", "title": "The order of the records of a data file does not matter where keys are unique", "statement": "Reading the records of a data file in another order gives the same lookups if no key has two different records: for kanjidic files (lines in any order, divided over files in any way; exactly if no kanji has two different lines), the zhuyin/pinyin tables, the hanzi table, Tatoeba sentences (all rows with the same number of columns) and Tanaka indices. The blocks of a radical file and the lines of a bilingual dictionary can come in any order without any condition: every kanji keeps its radicals and every word its senses, up to their order.", "quantifier": "every file and every reordering of it", "why_tests_cant": "Files and reorderings are unbounded; a test compares two orders of one file.", "anchors": ["cjktools/resources/kanjidic.py:Kanjidic.__init__", "cjktools/resources/radkdict.py:RadkDict._parse_radkfile", "cjktools/resources/tatoeba.py:TatoebaSentenceReader.sentences", "cjktools/resources/tatoeba.py:TatoebaIndexReader.jpn_indices", "cjktools/resources/tatoeba.py:TatoebaLinksReader.links", "cjktools/resources/zhuyin_table.py:zhuyin_to_pinyin_table", "cjktools/resources/zhuyin_table.py:pinyin_to_zhuyin_table", "cjktools/resources/pinyin_table.py:PinyinTable.__init__", "cjktools/resources/auto_format.py:load_dictionary"]}
{"id": "C123", "title": "Filtering while loading is loading a filtered file", "statement": "A Tatoeba reader with a filter (languages for sentences; a subset of sentence ids for links, with each of the three kinds of filter, and for indices) holds the same as a reader without a filter on the file that has only the rows that pass, and raises the same exceptions, provided the rows that do not pass have the right columns; for sentences some row must pass, otherwise the reader is empty while an empty file raises StopIteration. Two language filters one after the other are their intersection. Overriding filter_row likewise is loading the file without the rows it drops, whatever form they have, if the first row of the file has as many columns as the first row left.", "quantifier": "every file, filter and exception of the file", "why_tests_cant": "Files and filters are unbounded; whether a filter changes the way later rows are read depends on all rows before.", "anchors": ["cjktools/resources/tatoeba.py:TatoebaSentenceReader.sentences", "cjktools/resources/tatoeba.py:TatoebaSentenceReader.filter_row", "cjktools/resources/tatoeba.py:TatoebaLinksReader.links", "cjktools/resources/tatoeba.py:TatoebaIndexReader.jpn_indices"]}
{"id": "C124", "title": "Comparing and drawing nodes that are shared or contain themselves", "statement": "For everything that a program can build with TreeNode: whenever == returns, it returns True exactly if the same labels lead down from both nodes and nodes at the ends of the same way have equal labels and attributes; it is symmetric and transitive as far as it returns; a node is always equal to itself, also if it contains itself; the comparison returns unless both nodes contain themselves somewhere below, given enough nested calls, and equal nodes need more nested calls than the length of every way down on which the two sides have no node in common; more nested calls never change the answer. layout ends for every node that does not contain itself, and for no other if the method never raises.", "quantifier": "every program over any number of nodes, shared and circular ones included; every recursion limit; both orders in which versions of Python compare dictionary values", "why_tests_cant": "Graphs of nodes are unbounded, and a comparison that does not end cannot be observed by running it.", "anchors": ["cjktools/resources/tree.py:TreeNode.__eq__", "cjktools/resources/tree.py:TreeNode.layout", "cjktools/resources/tree.py:TreeNode.add_child"]}
{"id": "C125", "title": "load_file reads back what was written with the same csv options", "statement": "For every choice of the options delimiter, quotechar, doublequote, escapechar, skipinitialspace, strict and quoting, load_file gives back a table (of fields without NUL characters and within the size limit of the csv module) that was written accordingly: fields with or without quotes around them, quotes doubled or escaped, delimiters and line feeds inside quotes or escaped, rows without fields, skipped spaces in front of fields, any line endings, the last one present or not. Each option given is followed and the others have their defaults; TypeError is raised only when quotes are asked for together with quotechar=None. With quoting=csv.QUOTE_NONE every field without line breaks, NUL and delimiter is read exactly as it stands. Without options, load_file reads what csv.writer(f, delimiter='\\t') wrote, exactly if and only if no field contains a carriage return; carriage returns come back as line feeds.", "quantifier": "every table, every choice of options and every way of quoting and escaping", "why_tests_cant": "The csv reader is an automaton with nine states and records may span lines; which fields survive depends on the whole text before them.", "anchors": ["cjktools/resources/tatoeba.py:TatoebaReader.load_file"]}
{"id": "C126", "title": "combine, union and diff combine two distributions", "statement": "combine(rhs, f) of a TreeDist returns a distribution over the union of the two trees whose frequencies are f of the two frequencies, 0 standing for a missing node; union takes the mean, diff the difference.", "quantifier": "all distributions, whatever attributes a program has given to them, and all subclasses that replace union", "why_tests_cant": "That a method never returns, whatever the program does first, is a statement about all programs; the tests never call these methods.", "anchors": ["cjktools/resources/tree.py:TreeDist.combine", "cjktools/resources/tree.py:TreeDist.union", "cjktools/resources/tree.py:TreeDist.diff"]}
{"id": "C127", "title": "Converting the readme loses nothing and writes only its own file", "statement": "convert(fname) returns the text that pypandoc makes of the file; where pypandoc or pandoc is missing, the text of the file itself, or ImportError if strict. A preamble stands on lines of its own before it. With fname_out it writes what it would have returned and a newline to that file, and changes no other; when it raises it changes no file. A file may be converted onto itself.", "quantifier": "all files, preambles and converters, whether or not pypandoc is installed, and any number of conversions", "why_tests_cant": "The converter, its exceptions and the files are arbitrary, and the two versions of load_text cannot both exist in one process.", "anchors": ["scripts/load_as_rst.py:convert", "scripts/load_as_rst.py:load_text", "scripts/load_as_rst.py:_fallback_load"]}
{"id": "C128", "title": "Adding and removing a child changes nothing else", "statement": "p.add_child(c) makes c a child of p under its label and loses no other child. p.del_child(c) raises KeyError exactly if c is not a child of p; otherwise it takes c and no other child away from p. c.unlink() takes c and no other child away from its parent. The order of the other children, all other nodes, their labels, parents and attributes are as before (del_child sets the attribute named parent of c).", "quantifier": "every state that a program can build with TreeNode", "why_tests_cant": "the effect depends on which node currently holds a label; it has to hold for all histories, not only for trees with distinct labels", "anchors": ["cjktools/resources/tree.py:TreeNode.add_child", "cjktools/resources/tree.py:TreeNode.del_child", "cjktools/resources/tree.py:TreeNode.unlink"]}
{"id": "C129", "title": "Changing a table from get_table shows nowhere else", "statement": "Whatever a program does with the tables it got from KanaTable.get_table (setting, deleting and clearing entries), every KanaTable, also the one the table came from, goes on answering get_coords, from_coords, to_vowel_line and to_consonant_line as a new one does, later calls of get_table give the table of the source again, and no other table the program holds changes.", "quantifier": "every program that creates KanaTables, gets tables, changes and looks at them and asks questions, in any order", "why_tests_cant": "Programs are unbounded; aliasing shows only for particular sequences of calls and changes.", "anchors": ["cjktools/kana_table.py:KanaTable.get_table", "cjktools/kana_table.py:KanaTable.from_coords", "cjktools/kana_table.py:KanaTable.get_coords"]}
{"id": "C130", "title": "Two places are equal exactly if they agree in everything", "statement": "p == q for two places is true exactly if they have the same label, reading and aliases and contain equal places under the same labels; it is an equivalence relation and returns unless both contain themselves.", "quantifier": "every pair of places in every store of places that programs can build", "why_tests_cant": "Hierarchies are unbounded, may be shared and circular; a test compares a few of them.", "anchors": ["cjktools/resources/place.py:Place"]}
{"id": "C131", "title": "Objects can be compared with anything and be put in sets", "statement": "Comparing a TanakaWord or a TreeNode with any object by == and != , from either side, returns; an object of another kind that does not look like it is unequal; looking for it in a list returns; words, nodes and dictionary entries can be hashed, so that they can be members of sets and keys.", "quantifier": "every word and node, every other object described by its attributes and its own __eq__, every list", "why_tests_cant": "The other objects are arbitrary; tests compare with a few of them.", "anchors": ["cjktools/resources/tatoeba.py:TanakaWord.__eq__", "cjktools/resources/tatoeba.py:TanakaWord.__ne__", "cjktools/resources/tree.py:TreeNode.__eq__", "cjktools/resources/bilingual_dict.py:DictionaryEntry.__hash__"]}
{"id": "C132", "title": "A filter may be given by any collection", "statement": "languages of TatoebaSentenceReader and sentence_ids of the other readers may be given as a list, tuple, set, dictionary, iterator or, for one language, as its code: the rows are kept whose language (id) is among the given ones, the given collection is not changed, and changing it later does not change what a reader that is assigned a new file keeps.", "quantifier": "every given object, every list of rows, every sequence of later changes of the collections of the program", "why_tests_cant": "What `in` means depends on the kind of object and, for iterators, on the order of all rows; tests pass a set and one file.", "anchors": ["cjktools/resources/tatoeba.py:TatoebaSentenceReader.__init__", "cjktools/resources/tatoeba.py:TatoebaSentenceReader.sentences", "cjktools/resources/tatoeba.py:TatoebaLinksReader.sentence_id_subset", "cjktools/resources/tatoeba.py:TatoebaIndexReader.sentence_id_subset"]}
{"id": "C133", "title": "Iterators take the lines they need and no more", "statement": "However a program calls next on several iterators from iter_entries, iter_coded_entries and filter_comments over one stream and reads lines of the stream itself: every line goes to exactly one of them, in order; one result takes one line (for filter_comments the comments in front of it as well, for the first result of iter_coded_entries the header); an iterator yields what the lines it took say, then raises what they raise, and is at its end from then on; it ends otherwise only when the stream does. iter_entries takes the header when it is called.", "quantifier": "every stream, every number of iterators, every order of calls", "why_tests_cant": "The interleavings are unbounded; a reader that looks ahead gives the same results whenever it is alone.", "anchors": ["cjktools/resources/auto_format.py:iter_entries", "cjktools/resources/dict_format.py:DictionaryFormat.iter_entries", "cjktools/resources/split_by_codes.py:iter_coded_entries", "cjktools/common.py:filter_comments"]}
{"id": "C134", "title": "TreeNode.prune with any predicate", "statement": "prune asks the predicate about a node and its ancestors, children before parents and the last child first, and only about nodes that have no child left; a node refused is dropped, every other node stays in its place. At the end a root without children is asked about again, and this answer decides whether the tree or None is returned. If answers do not change, the nodes left are exactly those that are accepted or have an accepted descendant, and the predicate is asked exactly about the nodes without an accepted proper descendant, once each except for that root. prune raises only what the predicate raised, which is not asked again; the original tree is unchanged.", "quantifier": "every finite tree with labels as keys; every predicate on the labels and attributes of a node and its ancestors, with any state of its own and any exceptions", "why_tests_cant": "Predicates with a state see the order and the number of the questions, which the shape of the tree and all earlier answers determine.", "anchors": ["cjktools/resources/tree.py:TreeNode.prune", "cjktools/resources/tree.py:TreeNode.walk_postorder", "cjktools/resources/tree.py:TreeNode.unlink"]}
{"id": "C135", "title": "What load_file reads from any file", "statement": "Every file consists of records, and without options load_file delivers exactly these, in order: a field that begins with a double quote reaches to the next quote that is not doubled, over tabs and line ends, and then to the next tab or line end; a quote that is not closed reaches to the end of the file; every other field reaches to the next tab or line end; an empty line gives an empty row. load_file raises exactly if the file contains a NUL or a field is longer than csv.field_size_limit(), after the records in front of that one. Reading one file behind the other is reading the first and then the second, whatever the second contains, exactly if the first is empty or ends with a line feed outside quotes.", "quantifier": "every text, with any line endings; every limit", "why_tests_cant": "Quotes, tabs and line ends interact over any distance; samples of files are finite.", "anchors": ["cjktools/resources/tatoeba.py:load_file"]}
{"id": "C136", "title": "Composed and decomposed kana are equally voiced", "statement": "KanaTable.is_voiced and is_semivoiced give canonically equivalent texts (Unicode) the same answer. A text is voiced iff it is canonically equivalent to one character followed by a combining voiced or semi-voiced sound mark; letter by letter: it is one of the composed kana, or a single character and a sound mark, or a sound mark and a mark of a lower combining class. Texts with more letters, or without sound mark, are not voiced.", "quantifier": "every text, every Unicode database (that knows the sound marks)", "why_tests_cant": "canonical equivalence relates infinitely many texts, and the database differs between Python versions", "anchors": ["cjktools/kana_table.py:KanaTable.is_voiced", "cjktools/kana_table.py:KanaTable.is_semivoiced"]}
{"id": "C137", "title": "Composed and decomposed kana have the same alternations", "statement": "For canonically equivalent segments, canonical_segment_forms gives canonically equivalent forms.", "quantifier": "every pair of canonically equivalent segments", "why_tests_cant": "the segments are arbitrary texts", "anchors": ["cjktools/alternations.py:canonical_segment_forms", "cjktools/kana_table.py:KanaTable.is_voiced"]}
{"id": "C138", "title": "The data files are read in their encoding, whatever the locale", "statement": "RadkDict(), Kanjidic(), zhuyin_to_pinyin_table(), load_coded_dictionary, the Tatoeba readers, Place.from_file, kanji_list.get_list and sopen(..., encoding='utf8') read UTF-8 files as the text they contain, on every system.", "quantifier": "every file, every locale whose encoding is UTF-8 or has one byte for each character", "why_tests_cant": "The encoding of open() is that of the machine that runs the tests; tests run in one locale.", "anchors": ["cjktools/resources/radkdict.py:_default_stream", "cjktools/resources/kanjidic.py:Kanjidic.__init__", "cjktools/resources/zhuyin_table.py:_default_stream", "cjktools/resources/split_by_codes.py:load_coded_dictionary", "cjktools/resources/tatoeba.py:load_file", "cjktools/resources/place.py:Place.from_file", "cjktools/resources/kanji_list.py:get_list", "cjktools/common.py:sopen"]}
{"id": "C139", "title": "A dumped hierarchy of places can be read on another system", "statement": "Whatever the locales of the writing and the reading program: Place.dump writes every hierarchy of places that can be stored (C41), and Place.from_file restores it.", "quantifier": "every hierarchy, every locale whose encoding is UTF-8 or has one byte for each character", "why_tests_cant": "Two machines with different locales, and every label.", "anchors": ["cjktools/resources/place.py:Place.dump", "cjktools/resources/place.py:Place.from_file", "cjktools/common.py:sopen"]}
{"id": "C140", "title": "disk_proxy works around a method that changes its arguments", "statement": "A method wrapped with disk_proxy may change the objects it is given as arguments. Every call of the proxy still returns what the method itself would return for the arguments of the call, and leaves the arguments as the method would leave them.", "quantifier": "every method that maps arguments to a result and new contents of the arguments; every sequence of calls; every pickle that is a faithful codec", "why_tests_cant": "A wrong hit needs two calls with related arguments around a method with a side effect, and every such pair has to be considered.", "anchors": ["cjktools/smart_cache.py:disk_proxy_direct", "cjktools/smart_cache.py:store_cache_object", "cjktools/smart_cache.py:try_cache"]}
{"id": "C141", "title": "What a caller does to a cached result does not show in other results", "statement": "A caller may change the object that a proxied method returned to it. For disk_proxy this changes neither what any other call returns nor any other result. For memory_proxy too, a change of the result of one call does not change what another call returns.", "quantifier": "every program of calls, changes of results and looks at results; every method that makes a new object", "why_tests_cant": "Aliasing shows only in the right order of calls and changes; a test fixes one.", "anchors": ["cjktools/smart_cache.py:memory_proxy", "cjktools/smart_cache.py:disk_proxy_direct"]}
{"id": "C142", "title": "Which tree nodes share their dictionaries", "statement": "TreeNode(label, children, attrib, parent) shows the entries of the dictionaries it is given and changes no other node: the children keep their parents and the parent its children. A given dictionary that is not empty is from then on the dictionary of the node; a change made through the program's own reference, through the node or through another node made from it shows in exactly the nodes made from it. If a dictionary is left out or empty, the node gets one of its own, and changes of the empty one do not show. Nodes that were given no dictionary with anybody else behave as if they held their children and attributes themselves. copy and prune give, whatever is shared, the result for nodes that share nothing, change no node and no dictionary, and every node they make has dictionaries of its own.", "quantifier": "every heap of nodes and dictionaries with any sharing, every program of constructor calls, method calls and direct changes of dictionaries, every predicate", "why_tests_cant": "children or {} treats empty and other dictionaries differently; whether sharing shows depends on the whole history of the program.", "anchors": ["cjktools/resources/tree.py:TreeNode.__init__", "cjktools/resources/tree.py:TreeNode.copy", "cjktools/resources/tree.py:TreeNode.prune", "cjktools/resources/tree.py:TreeNode.add_child", "cjktools/resources/tree.py:TreeNode.del_child", "cjktools/resources/tree.py:TreeNode.unlink"]}
{"id": "C143", "title": "Methods with disk caches may call each other", "statement": "Methods wrapped with disk_proxy may call each other and themselves, handle the exceptions of such calls and take time. If every method has a cache file of its own and does not distinguish equal arguments, then after any history of calls, every call ends with an outcome exactly if it ends with this outcome without caches. If methods share a cache file, this is so exactly if methods with the same file give the same value for equal arguments; otherwise they return each other's results. The file holds the outermost call that ended last: the same call is answered from it and no method runs; with other arguments, the method runs.", "quantifier": "every set of methods with any bodies, every assignment of cache files, every history of calls", "why_tests_cant": "While an outer call runs, inner calls read and overwrite the file it will be stored in; tests call wrapped methods one at a time.", "anchors": ["cjktools/smart_cache.py:disk_proxy_direct", "cjktools/smart_cache.py:disk_proxy", "cjktools/smart_cache.py:try_cache", "cjktools/smart_cache.py:store_cache_object"]}
{"id": "C144", "title": "Results of the functions on mappings are new objects", "statement": "invert_mapping, multi_dict and merge_dicts change none of the lists, sets and dictionaries they are given, also when the same object occurs under several keys or in several arguments. The lists or sets in the result are new objects, a different one for every key, with the contents that the arguments determine. So whatever the program later does to an entry of the result shows neither in the arguments nor in other entries.", "quantifier": "every store of lists and sets with any sharing, every dictionary or sequence of pairs or dictionaries, every later change", "why_tests_cant": "Whether a result shares objects with an argument shows only after a later change; the functions build their results by changing objects that they have already put into them.", "anchors": ["cjktools/maps.py:invert_mapping", "cjktools/maps.py:multi_dict", "cjktools/maps.py:merge_dicts"]}
{"id": "C145", "title": "How the functions on mappings call their methods", "statement": "partial_map and filtered_map call the method once for each item, from the first to the last, each time followed by the truth test of the result; map_dict calls it once for each key, in the order of the dictionary, with the value that the key has at that time, and with in_place stores each result before the next call. They return exactly if no call and no truth test raises; otherwise they raise the first exception, make no further call, and in place the results until then stay. If the method adds keys to the dictionary, map_dict raises RuntimeError right after the call that does. A method that does not use the dictionary makes both forms of map_dict agree.", "quantifier": "every method acting on any state, including the dictionary (it may change values and add keys, but not delete them), every truth test, every sequence and dictionary", "why_tests_cant": "Methods that raise, count, or change the dictionary that is being mapped interleave with the loop; tests use pure functions.", "anchors": ["cjktools/maps.py:map_dict", "cjktools/maps.py:partial_map", "cjktools/maps.py:filtered_map"]}
{"id": "C146", "title": "A dictionary or filter given to an index reader later", "statement": "Assigning edict or sentence_id_subset of a TatoebaIndexReader changes no answer until a file is assigned; the answers are those of a new reader of the last file that was read without an exception, made with the dictionary and the ids that were in force then. adjust_details changes only the list it is given: a missing reading becomes the first that one of the dictionaries gives in which the list was looked up. A list from reader[i] is changed by nothing else, also not by assigning files; every assignment makes new lists, a different one for every id. So a reader without dictionary, whose edict is assigned later and whose sentences are all adjusted then, answers like one made with the dictionary. A dictionary whose entries have readings makes no file unreadable.", "quantifier": "every program of assignments of files, dictionaries and ids and of calls of parse_sentence and adjust_details, including those that raise; every dictionary whose entries have readings", "why_tests_cant": "The effect depends on the order of assignments and calls, and shows in lists that were handed out before.", "anchors": ["cjktools/resources/tatoeba.py:TatoebaIndexReader.jpn_indices", "cjktools/resources/tatoeba.py:TatoebaIndexReader.adjust_details", "cjktools/resources/tatoeba.py:TatoebaIndexReader.parse_sentence", "cjktools/resources/tatoeba.py:TatoebaIndexReader.sentence_id_subset"]}
{"id": "C147", "title": "Changing a tree while walking it", "statement": "The walks of a tree node are generators: a walk that is under way sees the children of a node as they are when the program asks for the node after it (pre-order, breadth first), or when it first goes to the node or below it (post-order), not as they were before or become later. So a loop whose body leaves all children alone, such as the loops of TreeDist that set attributes, treats the nodes in the order of a walk made beforehand, up to the first exception. In pre-order and breadth first, if no node's children change after the walk has gone on from it, the nodes visited are those of a walk of the tree as it is in the end. A loop that unlinks every node it gets raises nothing, in all three orders, and leaves every node of the tree without children and parent, with its label and attributes; other nodes change only in that the parent of the root loses it.", "quantifier": "every heap, every sequence of changes between the calls of next, every outcome of the shuffles, every loop body, every tree with consistent links", "why_tests_cant": "Which children are seen depends on the interleaving of the generator with arbitrary changes; tests walk trees that stay as they are.", "anchors": ["cjktools/resources/tree.py:TreeNode.walk_preorder", "cjktools/resources/tree.py:TreeNode.walk_postorder", "cjktools/resources/tree.py:TreeNode.walk_breadth_first", "cjktools/resources/tree.py:TreeNode.unlink", "cjktools/resources/tree.py:TreeNode.prune", "cjktools/resources/tree.py:TreeDist.__init__"]}
{"id": "C148", "title": "Changing places while walking over them", "statement": "walk and walk_with_path of a place are generators. Whatever the program does to places between two steps, a walk looks at the entries of a place when the program asks for the place after it, neither before nor again: it yields what a walk over places with these entries yields. The root comes first, at depth 0; every other place was, at that moment, an entry of the place that was yielded last one level higher, with only deeper places in between. walk_with_path raises nothing, yields the same places, and gives each a path of as many labels as its depth: at every level the label of the place yielded last there, as it was when the program asked for the place after it.", "quantifier": "every store of places with any sharing, every sequence of changes between the steps, walks that end and walks that do not", "why_tests_cant": "The yielded places and paths depend on the interleaving of two nested generators with arbitrary changes; tests walk over places that stay as they are.", "anchors": ["cjktools/resources/place.py:Place.walk", "cjktools/resources/place.py:Place.walk_with_path"]}
{"id": "C149", "title": "Dependencies may change while a disk_proxy call runs", "statement": "Other programs may write the dependencies of a disk_proxy at any time, also while a call of the proxy is under way. Every call returns (or raises) what the method gives for contents which its dependencies had during this very call; with dependencies that do not change during the call, what the method gives for them.", "quantifier": "every method that depends on its arguments and the contents of the dependencies, every interleaving of the steps of calls (the check of every dependency, reading the cache file, the reads of the method, storing) with writes of other programs and passing time, any number of calls; the clock moves on between a store and a later write", "why_tests_cant": "A stale result needs a write between the end of the method and the store of its result; tests change files between calls.", "anchors": ["cjktools/smart_cache.py:disk_proxy_direct", "cjktools/smart_cache.py:try_cache", "cjktools/smart_cache.py:store_cache_object", "cjktools/smart_cache.py:needs_update"]}
{"id": "C150", "title": "load_file reads when rows are asked for", "statement": "load_file of the Tatoeba readers is a generator function: calling it opens nothing, reads nothing and raises nothing. A generator over a file opens it when it is first asked and then yields what load_file makes of the file as it is at that time; it has the file open from its first row until it ends, raises or is closed. A generator over an open stream takes the lines of one row at a time and no more: every line goes to one generator, or to the program if it reads the stream itself, and each generator yields what load_file makes of the lines it took. So several generators over one stream with the same options share its rows, each row whole and in order. After its end, after an exception and after close it yields nothing and takes nothing.", "quantifier": "every program that makes any number of generators with any options over files and a stream, asks and closes them in any order, reads the stream itself and writes files; all contents, with records of any number of lines", "why_tests_cant": "The rows depend on the interleaving of the generators and on records that span lines; tests run one generator to its end.", "anchors": ["cjktools/resources/tatoeba.py:TatoebaReader.load_file", "cjktools/common.py:_NullContextWrapper"]}
{"id": "C151", "title": "Subclasses of the sentence reader", "statement": "A subclass of TatoebaSentenceReader may override filter_row and parse_date in any way: the methods may keep a state, change the row they get, change the attribute languages, and raise. While a file is loaded, filter_row is asked about every row once, in file order, the first one included, and right after it, if the row passes and the file is detailed, parse_date about its two dates; whether it is detailed is decided by the first row, whether it passes or not. Afterwards ids, sentences and languages are those of the unchanged class for a file of the rows that passed, as the methods left them, and the details are those of the last such row of an id, with the dates that parse_date gave for it. If a method raises no other call follows, the assignment raises this exception, and the reader keeps what it had; it also does for a row left too short or without a number.", "quantifier": "every pair of methods whose behaviour depends on the calls so far in any way, all files, with and without exceptions", "why_tests_cant": "The methods and their states are unbounded; the record of the calls and the loaded data have to agree for each.", "anchors": ["cjktools/resources/tatoeba.py:TatoebaSentenceReader.filter_row", "cjktools/resources/tatoeba.py:TatoebaSentenceReader.parse_date", "cjktools/resources/tatoeba.py:TatoebaSentenceReader.sentences", "cjktools/resources/tatoeba.py:TatoebaSentenceReader.details"]}
{"id": "C152", "title": "Readings of index words from a dictionary file", "statement": "A TatoebaIndexReader whose edict was loaded by load_dictionary from a readable dictionary file reads an index if and only if it reads it without dictionary, and holds the same sentences with the same words. A word that has a reading of its own keeps it. A word without one gets the reading of the line with the meaning that its sense number counts, through the meanings of all lines of the word in file order from 1; with sense number 0 that of the last line of the word; with no number, or one larger than the number of meanings, the reading of the word if all its lines have the same. It gets none if the word has no line, if its lines differ in that case, or if the reading is the headword itself. An unreadable dictionary file raises when it is loaded.", "quantifier": "every dictionary file in each of the four formats, with words on any number of lines; every index file and set of ids", "why_tests_cant": "The entries of a loaded dictionary have one reading or one per meaning, depending on the number of lines; tests use a few words.", "anchors": ["cjktools/resources/tatoeba.py:TatoebaIndexReader.adjust_details", "cjktools/resources/auto_format.py:load_dictionary", "cjktools/resources/bilingual_dict.py:DictionaryEntry.update"]}
{"id": "C153", "title": "What a reader handed out before a new file was assigned", "statement": "sentence_ids, once taken from a sentence reader, and every iterator of it go on to show the ids of the file that was in force when it was taken; iter(reader) gives the ids of the file in force when it was made, each once; lookups and the views keys(), items() and values(), whenever taken, answer for the last file that could be read; and every iteration that has begun, over any of them, shows one file, whatever is assigned meanwhile.", "quantifier": "every reader, every program that assigns readable and unreadable files, takes any number of these objects and asks them in any order", "why_tests_cant": "What an iterator shows depends on the interleaving of its steps with assignments; tests read a reader to its end.", "anchors": ["cjktools/resources/tatoeba.py:TatoebaSentenceReader.sentence_ids", "cjktools/resources/tatoeba.py:TatoebaDict.__iter__", "cjktools/resources/tatoeba.py:TatoebaDict.__getitem__", "cjktools/resources/tatoeba.py:TatoebaSentenceReader.sentences", "cjktools/resources/tatoeba.py:TatoebaLinksReader.links", "cjktools/resources/tatoeba.py:TatoebaIndexReader.jpn_indices"]}
{"id": "C154", "title": "Threads may use a Tatoeba reader while a file is assigned", "statement": "While a thread assigns files to a Tatoeba reader, other threads may use it: every lookup (sentence, details, language, sentence_ids, group, groups, link, [], in, len, iter) answers as a reader of one file does, either the one assigned last before the lookup began or one whose assignment began later and before the lookup ended; and when no assignment is under way it answers for the last one. In every schedule a thread makes the calls of its program in their order, and has ended them after as many of its own steps as they have.", "quantifier": "any number of threads, any calls, every interleaving of their accesses to the attributes of the reader, all files", "why_tests_cant": "The wrong answers need a switch of threads between two accesses to attributes; tests do not control the scheduler.", "anchors": ["cjktools/resources/tatoeba.py:TatoebaSentenceReader.sentences", "cjktools/resources/tatoeba.py:TatoebaSentenceReader.details", "cjktools/resources/tatoeba.py:TatoebaLinksReader.links", "cjktools/resources/tatoeba.py:TatoebaLinksReader.__getitem__", "cjktools/resources/tatoeba.py:TatoebaIndexReader.jpn_indices"]}
{"id": "C155", "title": "Dependencies of a disk_proxy may be replaced by files of any age", "statement": "Dependencies may be replaced by files with any modification time (a restored backup, cp -p, tar, os.utime), removed and put back, the cache file may get another time, and the clock may be set. If the method is determined by its arguments and the contents of the dependencies, every call of the proxy still returns what the method would return at that moment.", "quantifier": "all histories of calls, writes, removals, changes of time stamps (also of the cache file) and settings of the clock, all dependencies, methods and arguments that can be pickled", "why_tests_cant": "Depends on the order of calls and replacements and on the time stamps of all files; tests have one or two edits, each with the time of the clock.", "anchors": ["cjktools/smart_cache.py:needs_update", "cjktools/smart_cache.py:try_cache", "cjktools/smart_cache.py:store_cache_object", "cjktools/smart_cache.py:disk_proxy_direct"]}
{"id": "C156", "title": "Texts may be processed in pieces", "statement": "Cutting a text anywhere makes no difference for to_hiragana, to_katakana, any ScriptMapping, normalize, normalize_kana, normalize_ascii (results are joined), script_types, contains_script, unique_kanji (united) and compare_kana (later pieces count if the first, of equal length, are the same kana). script_boundaries gives the blocks of the pieces exactly if the second piece begins neither in the script of the last block of the first nor with the long vowel mark; in the first case the last block of one and the first of the other are joined, and a mark goes to the last block of the first piece, after which the rest is joined by the same rule. expand_long_vowels gives the results of the pieces exactly if the cut is not between a kana and its long vowel mark, and raises on the whole if it raises on a piece. insert_duplicate_kanji gives the results of the pieces exactly if the cut does not leave the mark at the beginning of the second piece (for a first piece that begins with the mark: exactly if the second begins with it or has none). from_hanzi gives the results of the pieces, exceptions included; segment_pinyin, from_ascii and strip_tones do if the first piece ends with a character that occurs in no syllable, such as a tone digit.", "quantifier": "all texts and all places to cut them", "why_tests_cant": "Every text and every cut; tests look at whole words.", "anchors": ["cjktools/scripts.py:ScriptMapping.__call__", "cjktools/scripts.py:normalize", "cjktools/scripts.py:script_boundaries", "cjktools/scripts.py:compare_kana", "cjktools/alternations.py:expand_long_vowels", "cjktools/alternations.py:insert_duplicate_kanji", "cjktools/resources/pinyin_table.py:PinyinTable.from_hanzi", "cjktools/resources/pinyin_table.py:PinyinSegmenter.segment_pinyin"]}
{"id": "C157", "title": "Data files may be joined", "statement": "Joining two data files, or cutting one, is the same as loading the pieces and updating the first with the second, including the order of keys and the exception of a file that cannot be read: for groups of kanjidic files, the zhuyin/pinyin tables (the list of all pinyin is the two lists, with the leading 'r' once) and the hanzi table. The lines of two bilingual dictionaries under one header give the words of both, and a word of both has the entry of the first after update with that of the second (not what BilingualDictionary.update gives, unless no word is in both). Joined radical files load if both do; every kanji has the radicals of both exactly if the second file has no kanji before its first $ line or the first file has no $ line; stroke counts of the second file win. Joined rows of Tatoeba sentences (same number of columns, neither file empty) or Tanaka indices are loaded exactly if both files are, and a lookup answers as in the second file, or as in the first if the second does not have the id. Joined links files are loaded exactly if both are; the members of a group of the first are in one group, and if no sentence is in links of both, the groups are those of the first followed by those of the second and every id has the group of its file.", "quantifier": "all pairs of files of these formats", "why_tests_cant": "Files are unbounded and the cut may be anywhere, also between lines that belong together; tests load one sample file per format.", "anchors": ["cjktools/resources/kanjidic.py:Kanjidic.__init__", "cjktools/resources/radkdict.py:RadkDict._parse_radkfile", "cjktools/resources/tatoeba.py:TatoebaSentenceReader.sentences", "cjktools/resources/tatoeba.py:TatoebaIndexReader.jpn_indices", "cjktools/resources/tatoeba.py:TatoebaLinksReader.links", "cjktools/resources/zhuyin_table.py:zhuyin_to_pinyin_table", "cjktools/resources/zhuyin_table.py:get_all_pinyin", "cjktools/resources/pinyin_table.py:PinyinTable.__init__", "cjktools/resources/auto_format.py:load_dictionary", "cjktools/resources/bilingual_dict.py:DictionaryEntry.update"]}
{"id": "C158", "title": "Tatoeba readers built on one another agree", "statement": "A links reader that is given the ids of a sentence reader, with the default filter, has only groups all of whose members the sentence reader knows (sentence and language), so looking up the members of a group never raises InvalidIDError; the same with the ids of two sentence readers, each member being known to one of them. With the filters on one side, every group still has a known member, and all members are known exactly if every link that passes has both ends among the ids. An index reader that is given the ids has exactly the known ids with a row in its file; its links to translations are known exactly if those of the last rows of these ids are.", "quantifier": "every sentences file, language filter, links file, spelling of the filter and indices file", "why_tests_cant": "Three files of unbounded size are combined; a test fixes one of each.", "anchors": ["cjktools/resources/tatoeba.py:TatoebaSentenceReader.sentence", "cjktools/resources/tatoeba.py:TatoebaSentenceReader.language", "cjktools/resources/tatoeba.py:TatoebaLinksReader.links", "cjktools/resources/tatoeba.py:TatoebaLinksReader.group", "cjktools/resources/tatoeba.py:TatoebaLinksReader.groups", "cjktools/resources/tatoeba.py:TatoebaIndexReader.jpn_indices", "cjktools/resources/tatoeba.py:TatoebaIndexReader.link"]}
{"id": "C159", "title": "Drawing deep trees ends", "statement": "layout always ends, whatever the depth of the tree and also for a node that contains itself. Where n nested calls are left before Python's recursion limit and the method that represents a node needs k of them (one for the default method, two for that of TreeDist.layout) and does not raise, it draws the node exactly if no way down from it has more than n - k steps; otherwise it raises RecursionError, having printed exactly the lines that come in the drawing before the first node that is deeper. With enough calls left it prints what it prints without a limit (C86).", "quantifier": "every node of every heap, shared and circular ones included; every method; every limit", "why_tests_cant": "Depths and limits are unbounded and output before an exception is not looked at; tests draw one small tree.", "anchors": ["cjktools/resources/tree.py:TreeNode.layout", "cjktools/resources/tree.py:TreeNode._layout_children", "cjktools/resources/tree.py:TreeDist.layout"]}
{"id": "C160", "title": "Alternations are the same in both syllabaries", "statement": "The sound alternations do not depend on the syllabary a reading is written in. For segments without katakana, canonical_segment_forms, canonical_forms, surface_forms, rendaku_variants and onbin_variants of the segments written in katakana give the forms written in katakana, in every context, and raise the same exception on the same segments; segments without hiragana have the forms of their hiragana spelling, written in katakana, and the other way round. A segment that mixes the syllabaries goes by its first character, and there this fails (the hiragana sokuon after katakana is not undone). expand_long_vowels and insert_duplicate_kanji give the same, in katakana, on every text, mixed or not.", "quantifier": "all segments, sequences of segments, contexts and texts", "why_tests_cant": "Two sets of tables have to agree for texts of any length; tests use one word in one syllabary.", "anchors": ["cjktools/alternations.py:canonical_forms", "cjktools/alternations.py:canonical_segment_forms", "cjktools/alternations.py:surface_forms", "cjktools/alternations.py:rendaku_variants", "cjktools/alternations.py:onbin_variants", "cjktools/alternations.py:expand_long_vowels", "cjktools/alternations.py:insert_duplicate_kanji", "cjktools/scripts.py:to_katakana", "cjktools/scripts.py:to_hiragana"]}
{"id": "C161", "title": "The functions on mappings obey the laws of functions and relations", "statement": "Two map_dict in a row are one with the composed method (the identity changes nothing). Chaining is associative: where a chain of mappings could be formed, using it as the first or as a later mapping of another chain gives the dictionary, in the same order, that chaining all mappings at once gives, or KeyError in both cases. A mapping without repeated values, chained with its inverse, is the identity on its keys, and the other way round. invert_mapping is multi_dict of the reversed pairs; on one-element lists it gives the one-element lists of invert_injective_mapping; inverting the union of relations (merge_dicts) is the union of the inverses. A sequence may be given in pieces to partial_map, filtered_map, procmap and multi_dict: results are joined, and the second piece is looked at exactly if the first raised nothing.", "quantifier": "all dictionaries, methods and sequences", "why_tests_cant": "Laws over several unbounded mappings and arbitrary methods that may raise; tests use one small dictionary per function.", "anchors": ["cjktools/maps.py:chain_mapping", "cjktools/maps.py:map_dict", "cjktools/maps.py:invert_mapping", "cjktools/maps.py:invert_injective_mapping", "cjktools/maps.py:multi_dict", "cjktools/maps.py:merge_dicts", "cjktools/maps.py:partial_map", "cjktools/maps.py:filtered_map", "cjktools/maps.py:procmap"]}
{"id": "C162", "title": "The basic and the detailed export of the same sentences agree", "statement": "Reading a detailed Tatoeba sentences file (six columns) and reading the basic file with the same rows cut to three columns give the same sentences, the same languages and the same ids in the same order, with any language filter; the basic reader answers details() with MissingDataError for every id. Conversely the detailed file loads exactly if the basic one does and every row in a wanted language has its six columns, with a null mark, a zero date or a readable date in the last two; rows in other languages need not.", "quantifier": "For all rows whose first row has six columns, all language filters and every date parser.", "why_tests_cant": "The agreement is between two whole families of files; tests read one sample of each.", "anchors": ["cjktools/resources/tatoeba.py: TatoebaSentenceReader.sentences, sentence, language, details, sentence_ids"]}
{"id": "C163", "title": "Links that are given again", "statement": "Giving a link again right after itself, any number of times and in either direction, changes no group and no lookup of a links reader, whatever the rest of the file. As long as no link has joined two groups, the same holds of links between sentences that earlier links connect, directly or through others, in either direction and anywhere after them, so a file with all links in both directions has the groups of the file with one. In general a last link between two sentences with a group changes no answer of group() exactly if the groups of the two sentences have the same members.", "quantifier": "For all links files that load, all filters and subsets, all positions and numbers of repetitions.", "why_tests_cant": "Groups depend on the order of all rows before the repetition; no sample of files covers the histories.", "anchors": ["cjktools/resources/tatoeba.py: TatoebaLinksReader.links, group, groups, __getitem__"]}
{"id": "C164", "title": "Normalising and converting between the syllabaries work together", "statement": "normalize and to_katakana may be applied in either order. normalize and to_hiragana may be swapped exactly if the text has no half-width katakana letter. to_hiragana after normalize is a search form: it depends neither on the syllabary nor on the width in which the kana of a text are written, a second application changes nothing, and two texts have the same search form exactly if compare_kana finds the normalised texts equal. Converting a normalised text in either direction leaves it normalised.", "quantifier": "For all texts.", "why_tests_cant": "Two conversion tables have to agree at every character and texts are unbounded; tests convert single words.", "anchors": ["cjktools/scripts.py: normalize, to_hiragana, to_katakana, compare_kana"]}
{"id": "C165", "title": "Comment lines and blank lines are skipped in the data files", "statement": "Lines that begin with '#' make no difference to what is loaded from a kanjidic, a radkfile, a zhuyin table, a hanzi table or a dictionary file, wherever they stand, and neither do lines with nothing but whitespace.", "quantifier": "For all files, positions and numbers of such lines.", "why_tests_cant": "The positions and contents of such lines are unbounded; test files have them, if at all, at the top.", "anchors": ["cjktools/resources/kanjidic.py: Kanjidic", "cjktools/resources/radkdict.py: RadkDict", "cjktools/resources/zhuyin_table.py: zhuyin_to_pinyin_table, pinyin_to_zhuyin_table, get_all_pinyin, pinyin_regex_pattern", "cjktools/resources/pinyin_table.py: PinyinTable", "cjktools/resources/auto_format.py: load_dictionary", "cjktools/common.py: filter_comments"]}
{"id": "C166", "title": "Sorting words with compare_kana", "statement": "Words may be sorted with compare_kana (functools.cmp_to_key): a stable sort has one and only one outcome; lists in this order that hold the same words, in whichever syllabary each is written, are the same up to the syllabary; comparing neighbours is enough to test the order; and in a sorted list the words that sound like a given one stand together, behind all lesser and before all greater ones, so that grouping and binary search work.", "quantifier": "all lists of words, all sorting algorithms, all words to look for", "why_tests_cant": "A comparison that is not a strict weak order makes the outcome of a sort depend on the algorithm and the order of the input; a test sorts a few lists.", "anchors": ["cjktools/scripts.py:compare_kana", "cjktools/scripts.py:to_katakana"]}
{"id": "C167", "title": "Pinyin typed without some of its tones", "statement": "A text of table syllables, each with or without a tone digit, with spaces or apostrophes between them or not, is segmented into exactly these syllables, with tone 0 where no digit stands. So strip_tones gives the bare syllables, and stripping the tones of the result changes nothing and finds the same syllables.", "quantifier": "every table, every sequence of its syllables, every choice of digits left out and of characters in between", "why_tests_cant": "The readings of a text are combinations of syllables of unbounded length; tests show single words.", "anchors": ["cjktools/resources/pinyin_table.py:PinyinSegmenter.segment_pinyin", "cjktools/resources/pinyin_table.py:PinyinTable.strip_tones", "cjktools/resources/zhuyin_table.py:pinyin_regex_pattern"]}
{"id": "C168", "title": "Making and undoing alternations fit together", "statement": "Undoing alternations once is enough: canonical_forms of a canonical form gives nothing new, and surface_forms of a surface form gives nothing new; neither raises. The two functions are converse: a reading is among the surface forms of each of its canonical forms.", "quantifier": "all readings, as any number of segments, on which the functions return", "why_tests_cant": "The number of forms grows exponentially with the number of segments; tests compare a few words.", "anchors": ["cjktools/alternations.py:canonical_forms", "cjktools/alternations.py:surface_forms", "cjktools/alternations.py:canonical_segment_forms", "cjktools/alternations.py:onbin_variants", "cjktools/alternations.py:rendaku_variants"]}
{"id": "C169", "title": "What can be read off a text with tone marks", "statement": "Two texts of table syllables with tone digits that from_ascii turns into the same text consist of the same syllables with the same tones, 0 and 5 both being the neutral tone.", "quantifier": "every table, every two sequences of its syllables and tones", "why_tests_cant": "It is about pairs of texts of unbounded length; a test compares the results for a few texts with literals.", "anchors": ["cjktools/resources/pinyin_table.py:PinyinTable.from_ascii", "cjktools/resources/pinyin_table.py:PinyinTable._apply_tone", "cjktools/resources/pinyin_table.py:PinyinSegmenter.segment_pinyin"]}
{"id": "C170", "title": "The three results of from_hanzi fit together", "statement": "from_hanzi with tone marks is from_ascii of from_hanzi with tone digits, and from_hanzi without tones is strip_tones of it, with the same exceptions.", "quantifier": "every table of syllables, every table of hanzi, every text", "why_tests_cant": "It relates three calls on texts of unbounded length; tests compare single calls with literals.", "anchors": ["cjktools/resources/pinyin_table.py:PinyinTable.from_hanzi", "cjktools/resources/pinyin_table.py:PinyinTable.from_ascii", "cjktools/resources/pinyin_table.py:PinyinTable.strip_tones"]}
{"id": "C171", "title": "Expanding again changes nothing", "statement": "insert_duplicate_kanji and expand_long_vowels expand whatever they can: applying them to their own result changes nothing, and expand_long_vowels leaves no long vowel mark in a row of marks behind a kana.", "quantifier": "every text", "why_tests_cant": "The rows of marks have any length; tests expand single marks once.", "anchors": ["cjktools/alternations.py:insert_duplicate_kanji", "cjktools/alternations.py:expand_long_vowels"]}
{"id": "C172", "title": "Merging entries and dictionaries in any grouping", "statement": "Homographs may be merged in any grouping: updating a with b and then c gives the same entry as updating b with c first and then a with it. Merging in the other order gives the same senses for each reading, in another order; merging a homograph twice gives its senses twice. Updates of bilingual dictionaries may be grouped in any way, order of the words included; updating with itself, with an empty dictionary or with the same one again changes nothing.", "quantifier": "all entries that can be constructed, all dictionaries", "why_tests_cant": "The laws quantify over all triples of entries and dictionaries; tests merge one pair.", "anchors": ["cjktools/resources/bilingual_dict.py:DictionaryEntry.update", "cjktools/resources/bilingual_dict.py:DictionaryEntry.senses_by_reading", "cjktools/resources/bilingual_dict.py:BilingualDictionary.update"]}
{"id": "C173", "title": "Pruning a tree in several steps", "statement": "If every node accepted by p is accepted by q, then pruning with q and then with p, or with p and then with q, gives the same tree as pruning with p alone, or None in the same cases; so pruning again with the same predicate changes nothing. Pruning with a predicate that accepts everything gives a copy.", "quantifier": "every finite tree with labels as keys, all predicates on labels and attributes", "why_tests_cant": "The laws are about all trees and pairs of predicates; tests prune one tree once.", "anchors": ["cjktools/resources/tree.py:TreeNode.prune", "cjktools/resources/tree.py:TreeNode.copy"]}
{"id": "C174", "title": "A method wrapped with both proxies", "statement": "A method may be wrapped with memory_proxy around disk_proxy or the other way round: calls return what the method would return now, whatever calls, changes of the dependencies and new processes came before.", "quantifier": "all methods determined by their dependencies and arguments, every history of calls, edits, removals of the cache file and restarts", "why_tests_cant": "The two caches go wrong only together and only over several processes; tests wrap a method once and call it in one process.", "anchors": ["cjktools/smart_cache.py:memory_proxy", "cjktools/smart_cache.py:disk_proxy", "cjktools/smart_cache.py:disk_proxy_direct"]}
{"id": "C175", "title": "find_node and find_all of places agree", "statement": "For a label other than the place's own, find_node raises KeyError exactly if find_all finds nothing. What find_node returns is one of the places find_all finds, with the same ancestors, and find_all finds no nearer one. For the place's own label find_node returns the empty list and find_all begins with the place itself.", "quantifier": "every hierarchy built with append, every label and random outcome", "why_tests_cant": "It relates two searches over hierarchies of any size and depth, for every outcome of the shuffles; tests look up single labels.", "anchors": ["cjktools/resources/place.py:Place.find_node", "cjktools/resources/place.py:Place.find_all", "cjktools/resources/place.py:Place.walk_with_path"]}
{"id": "C176", "title": "A copy of a tree answers like the tree", "statement": "After copy(), the tree and its copy answer every question alike: the walks yield the same labels, attributes and keys of children in the same order, walk_breadth_first the same ones on each level; get_path succeeds for the same paths and leads to nodes with the same label and attributes; layout prints the same; find_node finds a node on the same level or raises KeyError for both; prune gives equal trees or None for both.", "quantifier": "every finite tree with labels as keys, all paths, labels, predicates, drawing methods on label and attributes, and outcomes of the shuffles", "why_tests_cant": "Every pair of a tree and a question is quantified over; tests copy one tree and look at a few nodes.", "anchors": ["cjktools/resources/tree.py:TreeNode.copy", "cjktools/resources/tree.py:TreeNode.walk_preorder", "cjktools/resources/tree.py:TreeNode.walk_postorder", "cjktools/resources/tree.py:TreeNode.get_path", "cjktools/resources/tree.py:TreeNode.find_node", "cjktools/resources/tree.py:TreeNode.layout", "cjktools/resources/tree.py:TreeNode.prune"]}
{"id": "C177", "title": "Wrapping a method twice in the same proxy", "statement": "memory_proxy applied twice to a method gives the same results or exceptions as applied once, and the method runs at the same calls; disk_proxy applied twice with the same cache file and dependencies gives the same results or exceptions and leaves the same files.", "quantifier": "all methods, whatever they change; every history of calls; every content of the cache file", "why_tests_cant": "It is about all histories of calls and all methods; tests wrap a method once.", "anchors": ["cjktools/smart_cache.py:memory_proxy", "cjktools/smart_cache.py:disk_proxy", "cjktools/smart_cache.py:disk_proxy_direct"]}
{"id": "C178", "title": "Several methods may keep their results in one cache file", "statement": "Methods wrapped with disk_proxy and the same cache file and dependencies each return what they would return now, whichever of them was called before.", "quantifier": "all families of methods determined by their dependencies and arguments, every history of calls, crashes, edits and removals", "why_tests_cant": "Whether the methods disturb each other depends on the interleaving of their calls, of which there are infinitely many; tests use one method for each file.", "anchors": ["cjktools/smart_cache.py:disk_proxy", "cjktools/smart_cache.py:disk_proxy_direct", "cjktools/smart_cache.py:try_cache", "cjktools/smart_cache.py:store_cache_object"]}
{"id": "C179", "title": "From pinyin to zhuyin and back", "statement": "With a one-to-one table file that has er: every syllable segment_pinyin finds in a text without # is in pinyin_to_zhuyin_table; zhuyin_to_pinyin_table leads back to it; and the pinyin got back, joined, is strip_tones of the text. Conversely, zhuyin with tones spelled in pinyin with tone digits by the table is segmented into syllables that lead back to the same zhuyin and tones. A # in the text gives a syllable that is not in the table.", "quantifier": "every one-to-one table file, every text, every sequence of zhuyin and tones", "why_tests_cant": "It relates four functions on texts of any length and any table; tests look at single syllables.", "anchors": ["cjktools/resources/zhuyin_table.py:zhuyin_to_pinyin_table", "cjktools/resources/zhuyin_table.py:pinyin_to_zhuyin_table", "cjktools/resources/pinyin_table.py:PinyinSegmenter.segment_pinyin", "cjktools/resources/pinyin_table.py:PinyinTable.strip_tones"]}
{"id": "C180", "title": "A distribution of a copy, and of a distribution", "statement": "TreeDist of a tree and of its copy are equal distributions, or both raise the same exception. TreeDist of the root of a distribution is constructed and is an equal distribution, with the default method, with any method that looks at the node and what is below it but not at count, cum_count and freq, and with the method that reads count; whatever the rounding of the arithmetic.", "quantifier": "every finite tree with labels as keys, every count method as described", "why_tests_cant": "The two passes over the first distribution find attributes left by earlier passes at every node; tests build one distribution of one tree.", "anchors": ["cjktools/resources/tree.py:TreeDist.__init__", "cjktools/resources/tree.py:TreeNode.copy"]}
{"id": "C181", "title": "The order of the fields of a kanjidic line", "statement": "After the kanji and the JIS code, the fields of a kanjidic line may come in any order, as long as the glosses, the readings of each kind and the values of each code stay in order among themselves: the entries agree in everything, or both lines are rejected with the same exception. The markers T1 and T2 may stand anywhere.", "quantifier": "all lines of fields as in kanjidic, all rearrangements", "why_tests_cant": "There are infinitely many lines and exponentially many orders of their fields; tests parse a few lines of the file.", "anchors": ["cjktools/resources/kanjidic.py:Kanjidic._parse_line", "cjktools/resources/kanjidic.py:KanjidicEntry"]}
{"id": "C182", "title": "Appending a place", "statement": "After place.append(q), walk() gives what it gave before, with the changed place at its head, followed by the walk over q one level deeper, if q's label is new among the entries; otherwise the walk over q stands exactly where the walk over the entry it replaces stood. The dump after appending a new label is the dump of before with the lines of q one level deeper behind it, so that extending a file of places by such lines, for hierarchies without aliases, reads back as the hierarchy with q appended. find_node finds q itself under its label, unless that is the label of the place searched; find_all finds what it found before and then what it finds in q. Appending q twice is appending it once, of two places with the same label the last one appended counts, and places with different labels may be appended in either order, as far as what is found under each label is concerned.", "quantifier": "all places, all hierarchies, all labels searched for, all orders of search", "why_tests_cant": "Hierarchies are unbounded in depth and width; tests read one file and look one place up.", "anchors": ["cjktools/resources/place.py:Place.append", "cjktools/resources/place.py:Place.walk", "cjktools/resources/place.py:Place.dump", "cjktools/resources/place.py:Place.from_file", "cjktools/resources/place.py:Place.find_node", "cjktools/resources/place.py:Place.find_all"]}
{"id": "C183", "title": "A file of places, loaded, saved and loaded again", "statement": "A file that Place.from_file accepts describes one hierarchy of places. Saving the hierarchy with dump and loading it again gives the same hierarchy.", "quantifier": "for all texts of files, of any length and depth, also with repeated labels and several lines of depth 0", "why_tests_cant": "whether a file survives depends on every line of it, and on how the text of a Python list looks to the line reader; tests use files with one form of line", "anchors": ["cjktools/resources/place.py:Place.dump", "cjktools/resources/place.py:Place.from_file", "cjktools/resources/place.py:Place._to_line", "cjktools/resources/place.py:Place._from_line"]}
{"id": "C184", "title": "An index that was read can be written out and read again", "statement": "An index of sentences that was loaded, with or without a dictionary that supplies readings, and written with csv.writer (id, linked id, text of the words with spaces between them) can be loaded again without the dictionary, and then has the same sentences in the same order with the same words, readings and links. Saving and loading once more changes nothing. The readings of the dictionary are not empty and contain no closing parenthesis, space, carriage return or NUL, and no field exceeds the limit of the csv module.", "quantifier": "every text of an index file, every dictionary with such readings, every choice of sentences", "why_tests_cant": "composes text decoding, the csv reader and writer, the word grammar in both directions and the filling in of readings over files of any size; tests load one small file and never save", "anchors": ["cjktools/resources/tatoeba.py:TatoebaIndexReader", "cjktools/resources/tatoeba.py:TatoebaReader.load_file", "cjktools/resources/tatoeba.py:TanakaWord.__str__", "cjktools/resources/tatoeba.py:TanakaWord.from_text", "cjktools/resources/tatoeba.py:TatoebaIndexReader.adjust_details"]}
{"id": "C185", "title": "Sentences that were read can be written out and read again", "statement": "Sentences that were loaded, with or without details and with or without a choice of languages, and written with csv.writer (id, language, sentence, and the details with \\N for what is missing) can be loaded again, and then the reader has the same ids in the same order and sentence, language and details answer the same for every id. The dates are written in a form that is read back, and no field exceeds the limit of the csv module.", "quantifier": "every text of a file of sentences, also with repeated ids, every choice of languages, every way of writing dates that is read back", "why_tests_cant": "composes text decoding, the csv reader and writer, number and date parsing and three dictionaries over files of any size; tests load one small file and never save", "anchors": ["cjktools/resources/tatoeba.py:TatoebaSentenceReader", "cjktools/resources/tatoeba.py:TatoebaReader.load_file", "cjktools/resources/tatoeba.py:TatoebaSentenceReader.language", "cjktools/resources/tatoeba.py:TatoebaSentenceReader.details"]}
{"id": "C186", "title": "Groups of sentences can be written out as links and read again", "statement": "Every family of disjoint sets of ids is what a links reader gives for some file: for each set one link from one of its members to each member. In this way the groups of a links reader can be written out and read again, in whatever order the sets give their members, and group and groups answer the same.", "quantifier": "all families of sets of ids, all files of links, all orders of the members of sets", "why_tests_cant": "the groups depend on all links and on their order, and the order of the members of a set is not fixed; tests load one small file", "anchors": ["cjktools/resources/tatoeba.py:TatoebaLinksReader", "cjktools/resources/tatoeba.py:TatoebaLinksReader.group", "cjktools/resources/tatoeba.py:TatoebaLinksReader.groups", "cjktools/resources/tatoeba.py:TatoebaReader.load_file"]}
{"id": "C187", "title": "A table of radicals that was read can be written out and read again", "statement": "Whatever radkfile a RadkDict was read from, it can be saved in the format of that file and nothing is lost: with the kanji that precede the first header written first, then a header for each radical, then for each radical its header and an indented line of its kanji, the saved file is read as an equal table - the same radicals for each kanji, the same stroke counts and the same kanji of each radical, in the same order - whichever line ending it is saved with. Without the indentation a radical whose first kanji is # or $ would lose its kanji.", "quantifier": "for all lines or text of a radkfile that can be read, and each of the three line endings", "why_tests_cant": "comments, repeated radicals, headers without kanji, kanji before the first header, white space inside a line, the characters # and $ among the kanji and negative stroke counts combine freely; a test saves one file", "anchors": ["cjktools/resources/radkdict.py:RadkDict", "cjktools/resources/radkdict.py:RadkDict._parse_radkfile"]}
{"id": "C188", "title": "A dictionary that was read can be saved in its format and read again", "statement": "Whatever file in one of the four formats a dictionary was loaded from, it can be saved in that format and nothing is lost: with one line for an entry that has a single reading and otherwise one line per sense, readings that equal the word left out where the format allows it, empty fields written as a space and the senses of cj_kdic numbered, load_dictionary gives an equal dictionary - the same words, readings and senses in the same order - with any header of the format and any line ending. An EDICT dictionary can be saved as CEDICT and the other way round. Any other dictionary of entries is read again from its saved lines iff its entries stand under their words and fit the format: words, readings and senses are without the separators of the format and without spaces (words and readings) or newlines (senses), and each entry has a sense and one reading or one per sense.", "quantifier": "for all files that load_dictionary reads, all dictionaries of entries, the four formats, all headers and the three line endings", "why_tests_cant": "readings made of spaces, words that contain brackets, homographs merged from several lines, senses that begin with a number and missing final separators combine freely; a test saves one dictionary", "anchors": ["cjktools/resources/auto_format.py:load_dictionary", "cjktools/resources/auto_format.py:known_formats", "cjktools/resources/dict_format.py:RegexFormat.parse_line", "cjktools/resources/dict_format.py:DictionaryFormat.parse_dictionary", "cjktools/resources/bilingual_dict.py:DictionaryEntry.update"]}
{"id": "C189", "title": "A kanjidic that was read can be saved and read again", "statement": "Whatever files a Kanjidic was read from, it can be saved in the same format and nothing is lost: with one line for each kanji - the kanji, its JIS code in hexadecimal, its codes, meanings in braces, on and kun readings, stroke count, frequency and skip code - the saved file is read as an equal Kanjidic, with the same kanji in the same order and the same attributes for each, including the order of the values of each code. A line whose kanji begins with # has to be indented, and the values 1 and 2 of the code T have to be written with a zero in front, since T1 and T2 are markers. The one exception is a kanji that begins with white space, which can only come from a line with a stray opening brace: it loses the white space.", "quantifier": "for all lists of files that can be read, with any lines at all, provided no kanji begins with white space; for lines and for the text of files with each of the three line endings", "why_tests_cant": "lines with white space other than spaces, stray braces, repeated codes, unknown letters, values that are numbers or not, negative JIS codes, suffix readings and comments combine freely; a test saves one file", "anchors": ["cjktools/resources/kanjidic.py:Kanjidic._parse_kanjidic", "cjktools/resources/kanjidic.py:Kanjidic._parse_line", "cjktools/resources/kanjidic.py:KanjidicEntry"]}
{"id": "C190", "title": "A table of zhuyin and pinyin that was read can be written out and read again", "statement": "The table that zhuyin_to_pinyin_table or pinyin_to_zhuyin_table reads from a file can be saved with one line per entry (the line indented if its zhuyin begins with #), and is read as an equal table, in the same order, whichever line ending the saved file uses. A PinyinSegmenter made from the saved table from pinyin to zhuyin divides every text exactly as one made from the original file. If no zhuyin is repeated in the file, the saved table from zhuyin to pinyin stands for the whole file: the other table, the list of all pinyin and both patterns are unchanged; with a repeated zhuyin the pinyin of an earlier line can be lost.", "quantifier": "for all table files that can be read, all texts, and each of the three line endings", "why_tests_cant": "comments, indentation, repeated zhuyin and pinyin and fields that begin with # combine freely, and the texts to divide are unbounded; a test saves one table", "anchors": ["cjktools/resources/zhuyin_table.py:parse_lines", "cjktools/resources/zhuyin_table.py:zhuyin_to_pinyin_table", "cjktools/resources/zhuyin_table.py:pinyin_to_zhuyin_table", "cjktools/resources/zhuyin_table.py:get_all_pinyin", "cjktools/resources/pinyin_table.py:PinyinSegmenter"]}
{"id": "C191", "title": "Composed and decomposed kana have the same surface variants", "statement": "rendaku_variants, onbin_variants and surface_forms give canonically equivalent segments (Unicode) the same variants up to canonical equivalence, or the same exception: it does not matter whether voiced kana are written as one character or as a kana and a separate sound mark.", "quantifier": "every pair of canonically equivalent texts of kana and sound marks", "why_tests_cant": "the equivalent spellings of a text are exponentially many in its length, and texts are unbounded; a test compares two spellings", "anchors": ["cjktools/alternations.py:rendaku_variants", "cjktools/alternations.py:onbin_variants", "cjktools/alternations.py:surface_forms"]}
{"id": "C192", "title": "Converting between the syllabaries does not depend on how voiced kana are written", "statement": "Texts of kana and sound marks that are canonically equivalent (Unicode: が as one character, or か and a separate mark) are still so after to_hiragana or to_katakana.", "quantifier": "every pair of canonically equivalent texts of kana, iteration marks and sound marks", "why_tests_cant": "the equivalent spellings of a text are exponentially many in its length, and texts are unbounded; a test compares two spellings", "anchors": ["cjktools/scripts.py:to_hiragana", "cjktools/scripts.py:to_katakana"]}
