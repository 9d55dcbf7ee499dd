{
 "claims": [
  {
   "property": "C01",
   "status": "proved",
   "theorems": [
    "Cjk.C01_constructed",
    "Cjk.C01_conversion_is_relabelling",
    "Cjk.C01_round_trips",
    "Cjk.C01_lossless",
    "Cjk.toHiragana_eq_call",
    "Cjk.toKatakana_eq_call"
   ],
   "note": ""
  },
  {
   "property": "C02",
   "status": "proved",
   "theorems": [
    "Cjk.C02_order_independent",
    "Cjk.C02_script_type_exact",
    "Cjk.C02_unambiguous"
   ],
   "note": ""
  },
  {
   "property": "C03",
   "status": "proved",
   "theorems": [
    "Cjk.C03_boundaries_segmentation",
    "Cjk.C03_boundaries_unique"
   ],
   "note": ""
  },
  {
   "property": "C04",
   "status": "proved",
   "theorems": [
    "Cjk.C04_constructed",
    "Cjk.C04_parts",
    "Cjk.C04_normalize_pointwise",
    "Cjk.C04_normalize_output",
    "Cjk.C04_idempotent",
    "Cjk.toAscii_eq_call"
   ],
   "note": ""
  },
  {
   "property": "C05",
   "status": "proved",
   "theorems": [
    "Cjk.C05_sign_antisymmetric",
    "Cjk.C05_transitive",
    "Cjk.C05_zero_iff_same_kana",
    "Cjk.C05_script_insensitive",
    "Cjk.C05_is_code_point_order"
   ],
   "note": ""
  },
  {
   "property": "C06",
   "status": "proved",
   "theorems": [
    "Cjk.C06_script_types_exact",
    "Cjk.C06_unique_kanji_exact",
    "Cjk.C06_get_script_exact"
   ],
   "note": ""
  },
  {
   "property": "C07",
   "status": "proved",
   "theorems": [
    "Cjk.C07_coords_round_trip",
    "Cjk.C07_from_coords_round_trip",
    "Cjk.C07_from_coords_substring"
   ],
   "note": ""
  },
  {
   "property": "C08",
   "status": "proved",
   "theorems": [
    "Cjk.C08_order_independent",
    "Cjk.C08_lines_exact",
    "Cjk.C08_outside_table"
   ],
   "note": ""
  },
  {
   "property": "C09",
   "status": "proved",
   "theorems": [
    "Cjk.C09_invert_exact",
    "Cjk.C09_invert_transposes",
    "Cjk.C09_invert_WF",
    "Cjk.C09_invert_keys",
    "Cjk.C09_invert_twice"
   ],
   "note": ""
  },
  {
   "property": "C10",
   "status": "proved",
   "theorems": [
    "Cjk.C10_is_injective_iff",
    "Cjk.C10_invert_injective",
    "Cjk.C10_order_independent"
   ],
   "note": ""
  },
  {
   "property": "C11",
   "status": "proved",
   "theorems": [
    "Cjk.C11_chain_mapping",
    "Cjk.C11_chain_mapping_empty"
   ],
   "note": ""
  },
  {
   "property": "C12",
   "status": "proved",
   "theorems": [
    "Cjk.C12_multi_dict_exact",
    "Cjk.C12_multi_dict_keys",
    "Cjk.C12_multi_dict_total"
   ],
   "note": ""
  },
  {
   "property": "C13",
   "status": "proved",
   "theorems": [
    "Cjk.C13_merge_is_union",
    "Cjk.C13_merge_order",
    "Cjk.C13_merge_assoc"
   ],
   "note": ""
  },
  {
   "property": "C14",
   "status": "proved",
   "theorems": [
    "Cjk.C14_partial_map_split",
    "Cjk.C14_partial_map_error"
   ],
   "note": ""
  },
  {
   "property": "C15",
   "status": "proved",
   "theorems": [
    "Cjk.C15_map_dict_exact",
    "Cjk.C15_in_place_agrees"
   ],
   "note": ""
  },
  {
   "property": "C16",
   "status": "partial",
   "theorems": [
    "Cjk.C16_canonical_segment_forms_partial",
    "Cjk.C16_vu_raises"
   ],
   "note": "Exact behaviour for all inputs is proved; the stated property fails for segments starting with ゔ/ヴ with left context (KeyError), see C16_vu_raises."
  },
  {
   "property": "C17",
   "status": "proved",
   "theorems": [
    "Cjk.C17_surface_forms_exact",
    "Cjk.C17_surface_forms_errors"
   ],
   "note": ""
  },
  {
   "property": "C18",
   "status": "proved",
   "theorems": [
    "Cjk.C18_canonical_undoes_surface",
    "Cjk.C18_needs_onbin"
   ],
   "note": ""
  },
  {
   "property": "C19",
   "status": "proved",
   "theorems": [
    "Cjk.C19_canonical_forms_exact",
    "Cjk.C19_canonical_forms_count",
    "Cjk.C19_canonical_forms_domain"
   ],
   "note": ""
  },
  {
   "property": "C20",
   "status": "proved",
   "theorems": [
    "Cjk.C20_terminates_and_fills",
    "Cjk.C20_leading_mark"
   ],
   "note": ""
  },
  {
   "property": "C21",
   "status": "proved",
   "theorems": [
    "Cjk.C21_expand_long_vowels_local",
    "Cjk.C21_expand_long_vowels_fails",
    "Cjk.C21_pattern_text"
   ],
   "note": ""
  },
  {
   "property": "C22",
   "status": "proved",
   "theorems": [
    "Cjk.C22_voicing_inverse",
    "Cjk.C22_voicing_structure",
    "Cjk.C22_tables_total",
    "Cjk.C22_is_voiced"
   ],
   "note": ""
  },
  {
   "property": "C23",
   "status": "proved",
   "theorems": [
    "Cjk.C23_first_success_wins",
    "Cjk.C23_transparent",
    "Cjk.C23_at_most_one_success",
    "Cjk.C23_keyword_order_matters"
   ],
   "note": ""
  },
  {
   "property": "C24",
   "status": "proved",
   "theorems": [
    "Cjk.C24_up_to_date",
    "Cjk.C24_unpicklable",
    "Cjk.C24_same_tick_goes_stale"
   ],
   "note": ""
  },
  {
   "property": "C25",
   "status": "proved",
   "theorems": [
    "Cjk.C25_crash_safe",
    "Cjk.C25_never_raises",
    "Cjk.C25_call_after_crash"
   ],
   "note": ""
  },
  {
   "property": "C26",
   "status": "proved",
   "theorems": [
    "Cjk.C26_needs_update_exact",
    "Cjk.C26_order_independent",
    "Cjk.C26_errors"
   ],
   "note": ""
  },
  {
   "property": "C27",
   "status": "proved",
   "theorems": [
    "Cjk.C27_last_result_cached"
   ],
   "note": ""
  },
  {
   "property": "C28",
   "status": "proved",
   "theorems": [
    "Cjk.C28_aligned",
    "Cjk.C28_equal_after_update",
    "Cjk.C28_other_word"
   ],
   "note": ""
  },
  {
   "property": "C29",
   "status": "proved",
   "theorems": [
    "Cjk.C29_partition",
    "Cjk.C29_no_sense_lost",
    "Cjk.C29_update"
   ],
   "note": ""
  },
  {
   "property": "C30",
   "status": "proved",
   "theorems": [
    "Cjk.C30_merge",
    "Cjk.C30_senses",
    "Cjk.C30_error",
    "Cjk.C30_iter"
   ],
   "note": ""
  },
  {
   "property": "C31",
   "status": "proved",
   "theorems": [
    "Cjk.C31_never_empty",
    "Cjk.C31_roundtrip"
   ],
   "note": ""
  },
  {
   "property": "C32",
   "status": "partial",
   "theorems": [
    "Cjk.C32_cj_kdic_exact",
    "Cjk.C32_cj_kdic_iff",
    "Cjk.C32_cedict",
    "Cjk.C32_jc_kdic",
    "Cjk.C32_cj_kdic_partial",
    "Cjk.C32_six_kept"
   ],
   "note": "CEDICT and jc_kdic are proved in full. For cj_kdic the digit 6 is missing from the pattern: what is parsed is given exactly for all entries (C32_cj_kdic_exact), and the claim holds for an entry iff no sense number contains a 6 (C32_cj_kdic_iff); C32_six_kept is the counterexample."
  },
  {
   "property": "C33",
   "status": "proved",
   "theorems": [
    "Cjk.C33_unambiguous",
    "Cjk.C33_detect_exact",
    "Cjk.C33_order_independent"
   ],
   "note": ""
  },
  {
   "property": "C34",
   "status": "proved",
   "theorems": [
    "Cjk.C34_errors",
    "Cjk.C34_agrees_with_iter"
   ],
   "note": ""
  },
  {
   "property": "C35",
   "status": "proved",
   "theorems": [
    "Cjk.C35_pattern_text",
    "Cjk.C35_get_codes"
   ],
   "note": ""
  },
  {
   "property": "C36",
   "status": "proved",
   "theorems": [
    "Cjk.C36_index",
    "Cjk.C36_errors",
    "Cjk.C36_iter"
   ],
   "note": ""
  },
  {
   "property": "C37",
   "status": "proved",
   "theorems": [
    "Cjk.C37_pool",
    "Cjk.C37_raises"
   ],
   "note": ""
  },
  {
   "property": "C38",
   "status": "proved",
   "theorems": [
    "Cjk.C38_line",
    "Cjk.C38_missing",
    "Cjk.C38_pattern_text"
   ],
   "note": ""
  },
  {
   "property": "C39",
   "status": "proved",
   "theorems": [
    "Cjk.C39_radicals",
    "Cjk.C39_counts",
    "Cjk.C39_strokes",
    "Cjk.C39_kanji"
   ],
   "note": ""
  },
  {
   "property": "C40",
   "status": "proved",
   "theorems": [
    "Cjk.C40_raises",
    "Cjk.C40_comments"
   ],
   "note": ""
  },
  {
   "property": "C41",
   "status": "partial",
   "theorems": [
    "Cjk.C41_roundtrip_partial",
    "Cjk.C41_aliases_refuted",
    "Cjk.C41_files",
    "Cjk.C41_exact"
   ],
   "note": "Exact condition proved: for a place hierarchy of any size, reading the text that dump writes gives the hierarchy back iff no place has aliases, every label is a word and every reading is a word other than 'None' or the file's empty form (C41_exact, on the file text). With aliases the claim is false: dump prints the list as Python prints lists, from_file reads a colon-separated text (C41_aliases_refuted, for every such place)."
  },
  {
   "property": "C42",
   "status": "proved",
   "theorems": [
    "Cjk.C42_walk",
    "Cjk.C42_walk_length"
   ],
   "note": ""
  },
  {
   "property": "C43",
   "status": "proved",
   "theorems": [
    "Cjk.C43_paths",
    "Cjk.C43_order"
   ],
   "note": ""
  },
  {
   "property": "C44",
   "status": "proved",
   "theorems": [
    "Cjk.C44_find_node",
    "Cjk.C44_own_label"
   ],
   "note": ""
  },
  {
   "property": "C45",
   "status": "proved",
   "theorems": [
    "Cjk.C45_find_all"
   ],
   "note": ""
  },
  {
   "property": "C46",
   "status": "proved",
   "theorems": [
    "Cjk.C46_preorder",
    "Cjk.C46_order"
   ],
   "note": ""
  },
  {
   "property": "C47",
   "status": "proved",
   "theorems": [
    "Cjk.C47_postorder",
    "Cjk.C47_order"
   ],
   "note": ""
  },
  {
   "property": "C48",
   "status": "proved",
   "theorems": [
    "Cjk.C48_breadth_first",
    "Cjk.C48_find_node"
   ],
   "note": ""
  },
  {
   "property": "C49",
   "status": "proved",
   "theorems": [
    "Cjk.C49_copy",
    "Cjk.C49_refuses",
    "Cjk.C49_equal"
   ],
   "note": ""
  },
  {
   "property": "C50",
   "status": "proved",
   "theorems": [
    "Cjk.C50_trim_nodes",
    "Cjk.C50_prune"
   ],
   "note": ""
  },
  {
   "property": "C51",
   "status": "partial",
   "theorems": [
    "Cjk.C51_links_exact",
    "Cjk.C51_links_partial",
    "Cjk.C51_links_refuted",
    "Cjk.C51_del_child_keeps_parent"
   ],
   "note": "Proved for every history in which no node is added while it is a child of another node (C51_links_partial), and that condition is exact: the links are consistent at every moment of a history iff it holds (C51_links_exact). Without it the claim is false: add_child does not unlink the node from its old parent (C51_links_refuted). C51_del_child_keeps_parent: del_child does not remove the parent pointer, against its documentation."
  },
  {
   "property": "C52",
   "status": "proved",
   "theorems": [
    "Cjk.C52_same",
    "Cjk.C52_chain",
    "Cjk.C52_tree",
    "Cjk.C52_text"
   ],
   "note": ""
  },
  {
   "property": "C53",
   "status": "partial",
   "theorems": [
    "Cjk.C53_build_index_refuted"
   ],
   "note": "The claim is false for every node of every heap: build_index unpacks tree nodes as pairs and always raises (C53_build_index_refuted); no true part remains."
  },
  {
   "property": "C54",
   "status": "proved",
   "theorems": [
    "Cjk.C54_load_iff",
    "Cjk.C54_sentence",
    "Cjk.C54_details",
    "Cjk.C54_ids"
   ],
   "note": ""
  },
  {
   "property": "C55",
   "status": "partial",
   "theorems": [
    "Cjk.C55_language_iff",
    "Cjk.C55_language_exact",
    "Cjk.C55_language_partial",
    "Cjk.C55_filter",
    "Cjk.C55_language_refuted"
   ],
   "note": "False as stated: when two accepted rows share an id, language() answers with the language of the first row and sentence() with the text of the last (C55_language_refuted). Proved: which rows are accepted, what language() returns exactly, the statement when no id has rows of two languages (C55_language_partial), and the exact condition for it (C55_language_iff)."
  },
  {
   "property": "C56",
   "status": "proved",
   "theorems": [
    "Cjk.C56_history",
    "Cjk.C56_sentences",
    "Cjk.C56_links",
    "Cjk.C56_indices"
   ],
   "note": ""
  },
  {
   "property": "C57",
   "status": "proved",
   "theorems": [
    "Cjk.C57_names",
    "Cjk.C57_load_names",
    "Cjk.C57_load_iff",
    "Cjk.C57_own_group",
    "Cjk.C57_invalid_id"
   ],
   "note": ""
  },
  {
   "property": "C58",
   "status": "proved",
   "theorems": [
    "Cjk.C58_connected"
   ],
   "note": ""
  },
  {
   "property": "C59",
   "status": "partial",
   "theorems": [
    "Cjk.C59_any_order_iff",
    "Cjk.C59_order_refuted",
    "Cjk.C59_components_partial",
    "Cjk.C59_components_refuted",
    "Cjk.C59_disjoint_iff",
    "Cjk.C59_components_iff"
   ],
   "note": "False as stated: a link that joins two groups that already exist does not merge them (C59_components_refuted), so the groups depend on the order of the rows (C59_order_refuted). Proved: same group implies connected (C58_connected); the full statement for link files where no accepted link joins two ids that occurred before in different components (C59_components_partial); that this condition is also necessary (C59_components_iff, C59_disjoint_iff); and that it holds in every order of the rows exactly if any two connected links have a sentence in common (C59_any_order_iff)."
  },
  {
   "property": "C60",
   "status": "partial",
   "theorems": [
    "Cjk.C60_roundtrip_iff",
    "Cjk.C60_pattern_text",
    "Cjk.C60_parse",
    "Cjk.C60_sound",
    "Cjk.C60_write_read",
    "Cjk.C60_roundtrip_partial",
    "Cjk.C60_reparse_partial",
    "Cjk.C60_roundtrip_refuted"
   ],
   "note": "False for sense 0: '[00]' parses to sense 0, which str() leaves out (C60_roundtrip_refuted). The round trip holds iff the sense is not 0 (C60_roundtrip_iff); the exact result for all words is C60_write_read."
  },
  {
   "property": "C61",
   "status": "proved",
   "theorems": [
    "Cjk.C61_equivalence",
    "Cjk.C61_eq_iff",
    "Cjk.C61_reparse_eq"
   ],
   "note": ""
  },
  {
   "property": "C62",
   "status": "proved",
   "theorems": [
    "Cjk.C62_pieces",
    "Cjk.C62_error",
    "Cjk.C62_roundtrip"
   ],
   "note": ""
  },
  {
   "property": "C63",
   "status": "proved",
   "theorems": [
    "Cjk.C63_adjust",
    "Cjk.C63_which",
    "Cjk.C63_no_dictionary",
    "Cjk.C63_total"
   ],
   "note": ""
  },
  {
   "property": "C64",
   "status": "proved",
   "theorems": [
    "Cjk.C64_lookups",
    "Cjk.C64_loads"
   ],
   "note": ""
  },
  {
   "property": "C65",
   "status": "partial",
   "theorems": [
    "Cjk.C65_fields_partial",
    "Cjk.C65_blank_line",
    "Cjk.C65_fields_refuted",
    "Cjk.C65_exact"
   ],
   "note": "False for fields beginning with a double quote, which csv.reader takes as quoting (C65_fields_refuted). C65_exact is the exact condition for clean fields: a file is read back verbatim iff no field begins with a double quote, no field is longer than the limit and no row is a single empty field (C65_fields_partial is the sufficient direction, for more lines)."
  },
  {
   "property": "C66",
   "status": "proved",
   "theorems": [
    "Cjk.C66_toned",
    "Cjk.C66_spelling"
   ],
   "note": ""
  },
  {
   "property": "C67",
   "status": "partial",
   "theorems": [
    "Cjk.C67_recover_iff",
    "Cjk.C67_exact",
    "Cjk.C67_preserves",
    "Cjk.C67_recover_partial",
    "Cjk.C67_recover_refuted"
   ],
   "note": "False as stated: the first character is never marked, so 'e4' or 'an4' lose their tone (C67_recover_refuted). Proved: everything except that the tone can be recovered (C67_preserves, C67_exact), and that it can be recovered iff there is a vowel behind the first character or no tone to mark (C67_recover_iff)."
  },
  {
   "property": "C68",
   "status": "partial",
   "theorems": [
    "Cjk.C68_hanzi_chars",
    "Cjk.C68_unknown_iff",
    "Cjk.C68_strip",
    "Cjk.C68_from_ascii",
    "Cjk.C68_hanzi_partial",
    "Cjk.C68_hanzi_known",
    "Cjk.C68_unknown_dropped",
    "Cjk.C68_hanzi_refuted"
   ],
   "note": "False as stated: with tone marks or without tones, from_hanzi drops characters that are not in the table (C68_hanzi_refuted, C68_unknown_dropped), and from_ascii raises IndexError on '#'. Proved: strip_tones and from_ascii agree with segment_pinyin for texts without '#'; from_hanzi works character by character in all settings (C68_hanzi_chars) and passes characters through with numbered tones (C68_hanzi_partial); with tone marks or without tones a character outside the table is passed through exactly if it is itself a syllable of the table other than r (C68_unknown_iff)."
  },
  {
   "property": "C69",
   "status": "proved",
   "theorems": [
    "Cjk.C69_pattern_text",
    "Cjk.C69_longest",
    "Cjk.C69_total",
    "Cjk.C69_order",
    "Cjk.C69_pattern",
    "Cjk.C69_malformed"
   ],
   "note": ""
  },
  {
   "property": "C70",
   "status": "proved",
   "theorems": [
    "Cjk.C70_tables",
    "Cjk.C70_inverse"
   ],
   "note": ""
  },
  {
   "property": "C71",
   "status": "proved",
   "theorems": [
    "Cjk.C71_refuses",
    "Cjk.C71_standard",
    "Cjk.C71_opens"
   ],
   "note": ""
  },
  {
   "property": "C72",
   "status": "proved",
   "theorems": [
    "Cjk.C72_filter",
    "Cjk.C72_idempotent"
   ],
   "note": ""
  },
  {
   "property": "C73",
   "status": "proved",
   "theorems": [
    "Cjk.C73_variable",
    "Cjk.C73_search",
    "Cjk.C73_home",
    "Cjk.C73_resource",
    "Cjk.C73_missing"
   ],
   "note": ""
  },
  {
   "property": "C74",
   "status": "proved",
   "theorems": [
    "Cjk.C74_inverse",
    "Cjk.C74_lengths",
    "Cjk.C74_initials",
    "Cjk.C74_pairs"
   ],
   "note": ""
  },
  {
   "property": "C75",
   "status": "partial",
   "theorems": [
    "Cjk.C75_dist_partial",
    "Cjk.C75_zero_total",
    "Cjk.C75_cum_count_leaves",
    "Cjk.C75_cum_count_refuted",
    "Cjk.C75_any_method",
    "Cjk.C75_root_one",
    "Cjk.C75_leaf_method",
    "Cjk.C75_exact"
   ],
   "note": "Everything is proved for trees of any size except that cum_count adds the counts of the direct children only; the claimed sum over all descendants is false in general (C75_cum_count_refuted). C75_exact gives the exact condition: with counts that are not negative the claimed attributes result iff every node two or more levels below the root has count 0."
  },
  {
   "property": "C76",
   "status": "proved",
   "theorems": [
    "Cjk.C76_list",
    "Cjk.C76_lists"
   ],
   "note": ""
  },
  {
   "property": "C77",
   "status": "proved",
   "theorems": [
    "Cjk.C77_last_wins",
    "Cjk.C77_raises"
   ],
   "note": ""
  },
  {
   "property": "C78",
   "status": "partial",
   "theorems": [
    "Cjk.C78_exact",
    "Cjk.C78_accepts_partial",
    "Cjk.C78_accepts_refuted"
   ],
   "note": "False as stated: is_pinyin looks only at the beginning of the string, so it accepts 'de!' (C78_accepts_refuted). Proved: every pinyin string is accepted (C78_accepts_partial), and exactly which strings are accepted (C78_exact)."
  },
  {
   "property": "C79",
   "status": "proved",
   "theorems": [
    "Cjk.C79_table"
   ],
   "note": ""
  },
  {
   "property": "C80",
   "status": "proved",
   "theorems": [
    "Cjk.C80_alphabet",
    "Cjk.C80_construct_errors",
    "Cjk.C80_call_exact",
    "Cjk.C80_lossless"
   ],
   "note": ""
  },
  {
   "property": "C81",
   "status": "proved",
   "theorems": [
    "Cjk.C81_procmap_returns",
    "Cjk.C81_procmap_raises"
   ],
   "note": ""
  },
  {
   "property": "C82",
   "status": "proved",
   "theorems": [
    "Cjk.C82_overwrite",
    "Cjk.C82_merge",
    "Cjk.C82_sequence"
   ],
   "note": ""
  },
  {
   "property": "C83",
   "status": "proved",
   "theorems": [
    "Cjk.C83_results",
    "Cjk.C83_results_rest",
    "Cjk.C83_written",
    "Cjk.C83_clean",
    "Cjk.C83_dash",
    "Cjk.C83_closed_stream"
   ],
   "note": ""
  },
  {
   "property": "C84",
   "status": "partial",
   "theorems": [
    "Cjk.C84_iff",
    "Cjk.C84_clean_partial",
    "Cjk.C84_left_open",
    "Cjk.C84_refuted"
   ],
   "note": "The file is closed when construction succeeds, when opening fails or when the error comes from the csv layer (C84_clean_partial). When a row is rejected, the generator that holds the file is a local variable of the constructor, so the file stays open as long as the exception is kept (C84_left_open, C84_refuted). C84_iff gives the exact condition."
  },
  {
   "property": "C85",
   "status": "proved",
   "theorems": [
    "Cjk.C85_eq_iff",
    "Cjk.C85_equivalence"
   ],
   "note": ""
  },
  {
   "property": "C86",
   "status": "proved",
   "theorems": [
    "Cjk.C86_layout",
    "Cjk.C86_default",
    "Cjk.C86_lines_determine",
    "Cjk.C86_text_determines"
   ],
   "note": ""
  },
  {
   "property": "C87",
   "status": "proved",
   "theorems": [
    "Cjk.C87_lazy",
    "Cjk.C87_lazy_failing",
    "Cjk.C87_pinyin",
    "Cjk.C87_stays_cached"
   ],
   "note": ""
  },
  {
   "property": "C88",
   "status": "partial",
   "theorems": [
    "Cjk.C88_eager_partial",
    "Cjk.C88_eager_refuted",
    "Cjk.C88_iff"
   ],
   "note": "The same object is returned by all successful calls (C88_eager_partial), but the constructor runs on every call, so every call reads the files again and fails when they are gone (C88_eager_refuted). The claim holds for a sequence of calls exactly if none follows the first that succeeds (C88_iff)."
  },
  {
   "property": "C89",
   "status": "proved",
   "theorems": [
    "Cjk.C89_prints",
    "Cjk.C89_unknown",
    "Cjk.C89_headless",
    "Cjk.C89_bad_file"
   ],
   "note": ""
  },
  {
   "property": "C90",
   "status": "partial",
   "theorems": [
    "Cjk.C90_init",
    "Cjk.C90_storable",
    "Cjk.C90_complete_partial",
    "Cjk.C90_refuted"
   ],
   "note": "The constructor rejects exactly the details with a space character (C90_init) and everything that can be stored is accepted (C90_complete_partial); C90_storable gives the exact condition for surviving. Other white space, empty labels and readings and the reading 'None' are accepted but do not survive (C90_refuted)."
  },
  {
   "property": "C91",
   "status": "proved",
   "theorems": [
    "Cjk.C91_outline",
    "Cjk.C91_error",
    "Cjk.C91_first_line",
    "Cjk.C91_cases",
    "Cjk.C91_line",
    "Cjk.C91_line_error"
   ],
   "note": ""
  },
  {
   "property": "C92",
   "status": "proved",
   "theorems": [
    "Cjk.C92_edict",
    "Cjk.C92_cedict",
    "Cjk.C92_jc_kdic",
    "Cjk.C92_cj_kdic",
    "Cjk.C92_only_format_error",
    "Cjk.C92_pattern_texts"
   ],
   "note": ""
  },
  {
   "property": "C93",
   "status": "proved",
   "theorems": [
    "Cjk.C93_lookup",
    "Cjk.C93_bad_line",
    "Cjk.C93_iter"
   ],
   "note": ""
  },
  {
   "property": "C94",
   "status": "proved",
   "theorems": [
    "Cjk.C94_hanzi",
    "Cjk.C94_every_hanzi_file",
    "Cjk.C94_readers",
    "Cjk.C94_kanjidic",
    "Cjk.C94_every_file"
   ],
   "note": ""
  },
  {
   "property": "C95",
   "status": "partial",
   "theorems": [
    "Cjk.C95_exact_condition",
    "Cjk.C95_small_values_partial",
    "Cjk.C95_same_call_partial",
    "Cjk.C95_torn_refuted",
    "Cjk.C95_one_writer_partial",
    "Cjk.C95_whole_reads_partial",
    "Cjk.C95_same_call_one_writer_partial",
    "Cjk.C95_mixed_refuted",
    "Cjk.C95_ends"
   ],
   "note": "False as stated, for two reasons. Two processes that store at the same time can leave a mixture that a third reads as a value (C95_torn_refuted; all three make the same call). A process that reads with two system calls can get the beginning of one value and the end of another (C95_mixed_refuted; one process stores at a time). Proved for any number of processes, values of any size and system calls of any sizes when the file is opened for writing only while no process stores and none has read a part of it (C95_one_writer_partial). With at most one process storing at a time it also holds if each read takes one system call (C95_whole_reads_partial) or if all processes make the same call (C95_same_call_one_writer_partial). With several processes storing at the same time it holds if each value is written with one system call, and either read with one (C95_small_values_partial) or all calls are the same (C95_same_call_partial). C95_exact_condition: for calls in a given set it holds in all histories if and only if no mixture, byte by byte, of what these calls store (with zeros from gaps) can be read as the stored result of another call."
  },
  {
   "property": "C96",
   "status": "proved",
   "theorems": [
    "Cjk.C96_rows_exact",
    "Cjk.C96_sentences",
    "Cjk.C96_detailed",
    "Cjk.C96_links",
    "Cjk.C96_indices",
    "Cjk.C96_quoted_refuted"
   ],
   "note": ""
  },
  {
   "property": "C97",
   "status": "partial",
   "theorems": [
    "Cjk.C97_update_exact",
    "Cjk.C97_programs_exact",
    "Cjk.C97_by_reading",
    "Cjk.C97_values_partial",
    "Cjk.C97_shared_refuted",
    "Cjk.C97_load",
    "Cjk.C97_dictionaries_share"
   ],
   "note": "False when two entries were made from the same list object: the constructor keeps the list and update extends it in place (C97_shared_refuted). C97_programs_exact and C97_update_exact give the exact condition under which an update changes another entry, with any sharing: it holds the updated entry's list of senses, or its list of readings when that is not padded. Proved for every program in which each entry has two lists of its own that the program does not write to afterwards (C97_values_partial, a refinement of the value model); C97_by_reading needs no such hypothesis; C97_load shows that loading a file makes such entries and leaves all older entries alone. C97_dictionaries_share: BilingualDictionary.update shares entry objects between the two dictionaries."
  },
  {
   "property": "C98",
   "status": "proved",
   "theorems": [
    "Cjk.C98_sentence_dates",
    "Cjk.C98_sentences",
    "Cjk.C98_links",
    "Cjk.C98_links_assign",
    "Cjk.C98_indices",
    "Cjk.C98_indices_needs_readings"
   ],
   "note": ""
  },
  {
   "property": "C99",
   "status": "proved",
   "theorems": [
    "Cjk.C99_no_word",
    "Cjk.C99_word_left_out",
    "Cjk.C99_no_senses",
    "Cjk.C99_no_gloss",
    "Cjk.C99_exceptions",
    "Cjk.C99_custom_format",
    "Cjk.C99_unambiguous",
    "Cjk.C99_known_formats",
    "Cjk.C99_pattern_syntax",
    "Cjk.C99_grammar_unambiguous"
   ],
   "note": ""
  },
  {
   "property": "C100",
   "status": "proved",
   "theorems": [
    "Cjk.C100_pinyin_regex"
   ],
   "note": ""
  },
  {
   "property": "C101",
   "status": "partial",
   "theorems": [
    "Cjk.C101_zhuyin_regex_partial",
    "Cjk.C101_no_zhuyin"
   ],
   "note": "The code violates this: it collects the pinyin, in file order. C101_zhuyin_regex_partial states exactly what the pattern matches (the first pinyin of the file that the text begins with, and a digit 0-4); C101_no_zhuyin shows that it matches no zhuyin of any table in which neither script's spellings begin with the other's."
  },
  {
   "property": "C102",
   "status": "proved",
   "theorems": [
    "Cjk.C102_hanzi_file",
    "Cjk.C102_radkdict",
    "Cjk.C102_zhuyin",
    "Cjk.C102_print_radicals",
    "Cjk.C102_pinyin_table",
    "Cjk.C102_pinyin_table_first",
    "Cjk.C102_kanjidic_files",
    "Cjk.C102_kanjidic_unreadable",
    "Cjk.C102_kanjidic_default",
    "Cjk.C102_path_or_stream"
   ],
   "note": ""
  },
  {
   "property": "C103",
   "status": "partial",
   "theorems": [
    "Cjk.C103_from_file_exact",
    "Cjk.C103_dump_unopened",
    "Cjk.C103_empty_partial",
    "Cjk.C103_kanjidic_refuted",
    "Cjk.C103_kanjidic_exact",
    "Cjk.C103_tatoeba_refuted",
    "Cjk.C103_from_file_refuted",
    "Cjk.C103_dump_refuted"
   ],
   "note": "The code violates it: on Python 3 sopen returns the binary stream of gzip and bz2, so a non-empty compressed file makes Kanjidic raise TypeError, the Tatoeba readers csv.Error and Place.from_file an exception, and dump always raises TypeError (the _refuted theorems, for every text). Proved part: empty files (C103_empty_partial). C103_kanjidic_exact gives the result of Kanjidic for every mixture of compressed and uncompressed files."
  },
  {
   "property": "C104",
   "status": "partial",
   "theorems": [
    "Cjk.C104_stream_partial",
    "Cjk.C104_filename_refuted"
   ],
   "note": "The code violates it for file names: every name is taken for the dictionary itself and raises (C104_filename_refuted). Proved part: streams."
  },
  {
   "property": "C105",
   "status": "partial",
   "theorems": [
    "Cjk.C105_exact",
    "Cjk.C105_partial",
    "Cjk.C105_medial_refuted",
    "Cjk.C105_initial_refuted"
   ],
   "note": "False: the mark is put on the vowel behind the first character that comes first. Wrong for every syllable with a medial (C105_medial_refuted) and for those that begin with a, e or ou (C105_initial_refuted); the exact condition is C105_exact, the remaining syllables are C105_partial."
  },
  {
   "property": "C106",
   "status": "proved",
   "theorems": [
    "Cjk.C106_sentences",
    "Cjk.C106_links",
    "Cjk.C106_indices",
    "Cjk.C106_equality",
    "Cjk.C106_compared"
   ],
   "note": ""
  },
  {
   "property": "C107",
   "status": "partial",
   "theorems": [
    "Cjk.C107_exact",
    "Cjk.C107_partial",
    "Cjk.C107_refuted"
   ],
   "note": "False for readers whose last assignment raised: the source is overwritten before the file is read (C107_refuted, for every reader and every such file). What is reported is given exactly (C107_exact), and it is the source of the data if the last assignment did not raise (C107_partial)."
  },
  {
   "property": "C108",
   "status": "proved",
   "theorems": [
    "Cjk.C108_exact",
    "Cjk.C108_missing",
    "Cjk.C108_error",
    "Cjk.C108_fixed_form",
    "Cjk.C108_read_back",
    "Cjk.C108_details",
    "Cjk.C108_date_ok"
   ],
   "note": ""
  },
  {
   "property": "C109",
   "status": "proved",
   "theorems": [
    "Cjk.C109_copy",
    "Cjk.C109_layout",
    "Cjk.C109_copy_layout",
    "Cjk.C109_no_counts"
   ],
   "note": ""
  },
  {
   "property": "C110",
   "status": "proved",
   "theorems": [
    "Cjk.C110_frame",
    "Cjk.C110_disjoint",
    "Cjk.C110_original",
    "Cjk.C110_copy"
   ],
   "note": ""
  },
  {
   "property": "C111",
   "status": "proved",
   "theorems": [
    "Cjk.C111_set",
    "Cjk.C111_in",
    "Cjk.C111_del",
    "Cjk.C111_histories"
   ],
   "note": ""
  },
  {
   "property": "C112",
   "status": "proved",
   "theorems": [
    "Cjk.C112_entry",
    "Cjk.C112_node",
    "Cjk.C112_place",
    "Cjk.C112_place_slash",
    "Cjk.C112_update",
    "Cjk.C112_update_other",
    "Cjk.C112_reader",
    "Cjk.C112_sources"
   ],
   "note": "C112_entry, C112_node and C112_place are equivalences. C112_place_slash shows that the condition on labels is needed. C112_update_other gives the exact condition for the second entry: with one reading and no sense it is shown with no reading afterwards."
  },
  {
   "property": "C113",
   "status": "proved",
   "theorems": [
    "Cjk.C113_script_types",
    "Cjk.C113_boundaries_coarser",
    "Cjk.C113_boundaries_iff",
    "Cjk.C113_normalize"
   ],
   "note": ""
  },
  {
   "property": "C114",
   "status": "partial",
   "theorems": [
    "Cjk.C114_same_as_plain",
    "Cjk.C114_up_to_date",
    "Cjk.C114_reused",
    "Cjk.C114_standard_refuted"
   ],
   "note": "Proved for every name but '-' (refinement of the plain cache, C114_same_as_plain). With the name '-' sopen gives the standard streams: C114_standard_refuted shows that no call ever returns a value and standard output is closed."
  },
  {
   "property": "C115",
   "status": "partial",
   "theorems": [
    "Cjk.C115_unreadable",
    "Cjk.C115_unwritable_exact"
   ],
   "note": "Reading: proved (C115_unreadable). Writing: false in the code; C115_unwritable_exact says exactly what happens: every call that has to run the method raises the exception of opening the file, although the method returned a value."
  },
  {
   "property": "C116",
   "status": "proved",
   "theorems": [
    "Cjk.C116_same_outcome",
    "Cjk.C116_history",
    "Cjk.C116_runs_once"
   ],
   "note": ""
  },
  {
   "property": "C117",
   "status": "proved",
   "theorems": [
    "Cjk.C117_keeps_text",
    "Cjk.C117_stable"
   ],
   "note": ""
  },
  {
   "property": "C118",
   "status": "proved",
   "theorems": [
    "Cjk.C118_origin",
    "Cjk.C118_transparent",
    "Cjk.C118_not_again",
    "Cjk.C118_ends"
   ],
   "note": ""
  },
  {
   "property": "C119",
   "status": "partial",
   "theorems": [
    "Cjk.C119_origin_partial",
    "Cjk.C119_settled_partial",
    "Cjk.C119_one_object_partial",
    "Cjk.C119_not_shared",
    "Cjk.C119_ends"
   ],
   "note": "The full statement is refuted: two calls that overlap can return different objects, for each of the getters (C119_not_shared). Proved for all interleavings: every returned object was constructed before and every exception is from the constructor that the call started; once a call has succeeded and none is under way, all later calls give one object and a lazy getter constructs nothing any more; if constructors do not overlap, all calls give the same object."
  },
  {
   "property": "C120",
   "status": "partial",
   "theorems": [
    "Cjk.C120_programs",
    "Cjk.C120_walk_ends_iff",
    "Cjk.C120_walk",
    "Cjk.C120_walk_ways",
    "Cjk.C120_reports",
    "Cjk.C120_find_node",
    "Cjk.C120_append_iff",
    "Cjk.C120_programs_iff",
    "Cjk.C120_refuted",
    "Cjk.C120_from_file"
   ],
   "note": "False as stated: a place can be entered in itself or below itself without an error, and then walk, find_all and dump never end, nor does find_node when the label is nowhere below (C120_refuted). Proved: walk ends exactly if no place below contains itself (C120_walk_ends_iff); an append or a set entry makes a loop exactly if the parent is below the child already (C120_append_iff), so everything ends at every moment of a program exactly if the program never does that (C120_programs_iff); what from_file reads has no loops (C120_from_file); without loops the results are those on the hierarchy that the objects unfold to, each way once (C120_walk, C120_walk_ways, C120_reports); find_node exactly on all shapes (C120_find_node)."
  },
  {
   "property": "C121",
   "status": "partial",
   "theorems": [
    "Cjk.C121_dist_ends_iff",
    "Cjk.C121_walks_end_iff",
    "Cjk.C121_walks",
    "Cjk.C121_find_node",
    "Cjk.C121_path_ends_iff",
    "Cjk.C121_copy_ends_iff",
    "Cjk.C121_nodes_ok",
    "Cjk.C121_programs_iff",
    "Cjk.C121_refuted",
    "Cjk.C121_path_refuted"
   ],
   "note": "False as stated: a.add_child(a) raises nothing and then no walk, path or unsuccessful search ends (C121_refuted); since del_child leaves the parent pointer, path can run for ever although no node ever contains itself (C121_path_refuted). Proved: walks end exactly if there is no loop below (C121_walks_end_iff), path and ancestors exactly if there is none above (C121_path_ends_iff), copy and prune of roots likewise (C121_copy_ends_iff), and distributions (C121_dist_ends_iff); the exact condition on programs (C121_programs_iff); without loops each way is walked once (C121_walks); find_node exactly on all graphs (C121_find_node)."
  },
  {
   "property": "C122",
   "status": "proved",
   "theorems": [
    "Cjk.C122_kanjidic",
    "Cjk.C122_zhuyin",
    "Cjk.C122_hanzi",
    "Cjk.C122_dictionary",
    "Cjk.C122_sentences",
    "Cjk.C122_indices",
    "Cjk.C122_radicals"
   ],
   "note": "For kanjidic files an exact condition (C122_kanjidic); for the tables, sentences and indices a sufficient one. Links files are in C59."
  },
  {
   "property": "C123",
   "status": "proved",
   "theorems": [
    "Cjk.C123_sentences",
    "Cjk.C123_sentences_none",
    "Cjk.C123_languages_twice",
    "Cjk.C123_links",
    "Cjk.C123_indices",
    "Cjk.C123_filter_row_default",
    "Cjk.C123_filter_row",
    "Cjk.C123_filter_row_first"
   ],
   "note": ""
  },
  {
   "property": "C124",
   "status": "proved",
   "theorems": [
    "Cjk.C124_answer",
    "Cjk.C124_returns",
    "Cjk.C124_calls",
    "Cjk.C124_itself",
    "Cjk.C124_equivalence",
    "Cjk.C124_plain",
    "Cjk.C124_programs",
    "Cjk.C124_circular",
    "Cjk.C124_layout_ends_iff"
   ],
   "note": ""
  },
  {
   "property": "C125",
   "status": "proved",
   "theorems": [
    "Cjk.C125_default",
    "Cjk.C125_options",
    "Cjk.C125_written",
    "Cjk.C125_verbatim",
    "Cjk.C125_writer",
    "Cjk.C125_writer_iff"
   ],
   "note": ""
  },
  {
   "property": "C126",
   "status": "partial",
   "theorems": [
    "Cjk.C126_combine_refuted",
    "Cjk.C126_union_refuted",
    "Cjk.C126_union_always",
    "Cjk.C126_diff_iff"
   ],
   "note": "The code violates it: C126_combine_refuted, C126_union_refuted and C126_union_always show that combine, union and diff never return, whatever attributes the objects have; C126_diff_iff says exactly when diff works for a subclass."
  },
  {
   "property": "C127",
   "status": "partial",
   "theorems": [
    "Cjk.C127_output",
    "Cjk.C127_returns",
    "Cjk.C127_refuted",
    "Cjk.C127_missing",
    "Cjk.C127_in_place"
   ],
   "note": "The code violates one part: without a preamble the returned text is not the converted text but has an empty line before it (C127_refuted). The rest is proved: C127_returns, C127_output, C127_missing, C127_in_place."
  },
  {
   "property": "C128",
   "status": "partial",
   "theorems": [
    "Cjk.C128_del_child",
    "Cjk.C128_unlink",
    "Cjk.C128_add_child",
    "Cjk.C128_iff",
    "Cjk.C128_refuted",
    "Cjk.C128_del_then_unlink"
   ],
   "note": "The code removes whatever child currently has the label: exact effects in C128_add_child, C128_del_child, C128_unlink; the claim holds exactly under the conditions of C128_iff (c is the child held under its label; no other child has the label) and fails otherwise (C128_refuted: unlinking a replaced node removes its replacement; C128_del_then_unlink: unlink after del_child raises KeyError if other children are left, because del_child leaves the parent)."
  },
  {
   "property": "C129",
   "status": "proved",
   "theorems": [
    "Cjk.C129_tables_independent",
    "Cjk.C129_answers"
   ],
   "note": ""
  },
  {
   "property": "C130",
   "status": "partial",
   "theorems": [
    "Cjk.C130_answer",
    "Cjk.C130_iff",
    "Cjk.C130_partial",
    "Cjk.C130_refuted",
    "Cjk.C130_equivalence"
   ],
   "note": "False as stated: Place inherits == from dict, so labels of the two places themselves and all readings and aliases are ignored; two places without contents are always equal (C130_refuted). Proved: the exact condition, that the same ways of labels lead down from both (C130_iff), for shared and circular places too; places that agree in everything are equal, and unequal contents make places unequal (C130_partial); == is an equivalence as far as it answers (C130_equivalence)."
  },
  {
   "property": "C131",
   "status": "partial",
   "theorems": [
    "Cjk.C131_word_returns",
    "Cjk.C131_word_iff",
    "Cjk.C131_node_iff",
    "Cjk.C131_node_refuted",
    "Cjk.C131_search",
    "Cjk.C131_hash_refuted"
   ],
   "note": "Proved for words: comparisons return whatever the other object is, if it raises nothing but AttributeError, and say whether it looks like the word (C131_word_returns, C131_word_iff). False for nodes: comparing with an object that has no label raises AttributeError, also when a node is looked for in a list (C131_node_refuted; exact condition C131_node_iff). Hashing raises for all three classes (C131_hash_refuted)."
  },
  {
   "property": "C132",
   "status": "partial",
   "theorems": [
    "Cjk.C132_collection",
    "Cjk.C132_text_exact",
    "Cjk.C132_iterator_iff",
    "Cjk.C132_iterator_partial",
    "Cjk.C132_iterator_refuted",
    "Cjk.C132_later_changes"
   ],
   "note": "True for lists, tuples, sets and dictionaries (C132_collection). The sentence reader asks 'lang in self.languages' on the object itself: with a text it keeps every language that is a part of the text (C132_text_exact), with an iterator the file must begin with items in their order (C132_iterator_iff is exact; C132_iterator_partial, C132_iterator_refuted). Links and index readers copy the ids, so later changes do not matter; the sentence reader follows later changes (C132_later_changes)."
  },
  {
   "property": "C133",
   "status": "proved",
   "theorems": [
    "Cjk.C133_each_line_once",
    "Cjk.C133_generators",
    "Cjk.C133_no_lookahead",
    "Cjk.C133_header",
    "Cjk.C133_calls"
   ],
   "note": ""
  },
  {
   "property": "C134",
   "status": "proved",
   "theorems": [
    "Cjk.C134_prune",
    "Cjk.C134_kept",
    "Cjk.C134_asked",
    "Cjk.C134_raises",
    "Cjk.C134_leaf",
    "Cjk.C134_ends"
   ],
   "note": ""
  },
  {
   "property": "C135",
   "status": "proved",
   "theorems": [
    "Cjk.C135_every_file",
    "Cjk.C135_rows",
    "Cjk.C135_raises_iff",
    "Cjk.C135_append_iff"
   ],
   "note": ""
  },
  {
   "property": "C136",
   "status": "proved",
   "theorems": [
    "Cjk.C136_canonical",
    "Cjk.C136_meaning",
    "Cjk.C136_voiced_iff",
    "Cjk.C136_semivoiced_iff",
    "Cjk.C136_character"
   ],
   "note": ""
  },
  {
   "property": "C137",
   "status": "partial",
   "theorems": [
    "Cjk.C137_iff",
    "Cjk.C137_composed_partial",
    "Cjk.C137_decomposed",
    "Cjk.C137_refuted"
   ],
   "note": "The property fails: a devoiced form is found only if the first kana is composed (C137_refuted, for every voiced kana and every rest of the segment; C137_decomposed gives the forms of a decomposed segment). Exactly when it holds, for all texts of kana and sound marks: equivalent segments have equivalent forms, or the same exception, iff there is no context on the left or they begin with the same character (C137_iff). For kana texts without separate sound marks equivalence is equality (C137_composed_partial)."
  },
  {
   "property": "C138",
   "status": "partial",
   "theorems": [
    "Cjk.C138_utf8",
    "Cjk.C138_one_byte_iff",
    "Cjk.C138_agree_partial",
    "Cjk.C138_text",
    "Cjk.C138_ascii",
    "Cjk.C138_radkdict_refuted",
    "Cjk.C138_sentences_refuted",
    "Cjk.C138_encoding_argument",
    "Cjk.C138_kanji_list"
   ],
   "note": "Violated: on Python 3 sopen ignores its encoding argument and open() is called without one. C138_agree_partial: every loader gives what it gives with UTF-8 if the encoding of the locale decodes the file's bytes as UTF-8 does (C138_ascii: so for ASCII files). C138_one_byte_iff and C138_encoding_argument: in a locale with a one-byte encoding the text (the lines) of a UTF-8 file are right iff it is ASCII. C138_radkdict_refuted, C138_sentences_refuted: there no character without a byte is ever found. C138_kanji_list: the kanji lists are right in every locale."
  },
  {
   "property": "C139",
   "status": "partial",
   "theorems": [
    "Cjk.C139_same_locale",
    "Cjk.C139_lossless",
    "Cjk.C139_dump_iff",
    "Cjk.C139_utf8",
    "Cjk.C139_between_refuted"
   ],
   "note": "Violated between locales. C139_same_locale with C139_lossless: in one locale, if the file was written, restored iff storable. C139_utf8: in a UTF-8 locale a storable hierarchy is written and restored iff its labels and readings contain no lone surrogate, otherwise ValueError. C139_dump_iff: with a one-byte encoding a storable hierarchy can be written iff every character of its labels and readings has a byte, otherwise ValueError. C139_between_refuted: a reader with a one-byte encoding never gets a hierarchy with a character that has no byte, whatever the file."
  },
  {
   "property": "C140",
   "status": "partial",
   "theorems": [
    "Cjk.C140_unchanged",
    "Cjk.C140_results_iff",
    "Cjk.C140_effects_iff",
    "Cjk.C140_drain_refuted",
    "Cjk.C140_never_hits"
   ],
   "note": "Violated: the arguments are stored after the method has run, so a call with arguments equal to the ones a previous call left behind gets the result of the previous call (C140_drain_refuted). C140_results_iff and C140_effects_iff give the exact conditions on the method; C140_unchanged: methods that leave their arguments alone are covered by C24 and C27."
  },
  {
   "property": "C141",
   "status": "partial",
   "theorems": [
    "Cjk.C141_memory_shared",
    "Cjk.C141_memory_others",
    "Cjk.C141_memory_iff",
    "Cjk.C141_memory_look",
    "Cjk.C141_disk_private",
    "Cjk.C141_disk_calls",
    "Cjk.C141_disk_refines"
   ],
   "note": "Holds for disk_proxy. Violated for memory_proxy: C141_memory_iff says exactly when a change of one result changes another call (same arguments), C141_memory_look when it shows in another result."
  },
  {
   "property": "C142",
   "status": "proved",
   "theorems": [
    "Cjk.C142_constructor",
    "Cjk.C142_stays",
    "Cjk.C142_changes_iff",
    "Cjk.C142_as_if_own_iff",
    "Cjk.C142_programs",
    "Cjk.C142_copy",
    "Cjk.C142_prune"
   ],
   "note": ""
  },
  {
   "property": "C143",
   "status": "proved",
   "theorems": [
    "Cjk.C143_same_outcome_iff",
    "Cjk.C143_own_files",
    "Cjk.C143_last_call",
    "Cjk.C143_shared_refuted"
   ],
   "note": ""
  },
  {
   "property": "C144",
   "status": "proved",
   "theorems": [
    "Cjk.C144_multi_dict",
    "Cjk.C144_invert_mapping",
    "Cjk.C144_merge_dicts",
    "Cjk.C144_independent"
   ],
   "note": ""
  },
  {
   "property": "C145",
   "status": "proved",
   "theorems": [
    "Cjk.C145_partial_returns",
    "Cjk.C145_partial_raises",
    "Cjk.C145_filtered_returns",
    "Cjk.C145_filtered_raises",
    "Cjk.C145_in_place_returns",
    "Cjk.C145_in_place_raises",
    "Cjk.C145_in_place_resized",
    "Cjk.C145_new_returns",
    "Cjk.C145_new_raises",
    "Cjk.C145_new_resized",
    "Cjk.C145_agree"
   ],
   "note": ""
  },
  {
   "property": "C146",
   "status": "proved",
   "theorems": [
    "Cjk.C146_words",
    "Cjk.C146_load",
    "Cjk.C146_objects",
    "Cjk.C146_source",
    "Cjk.C146_sound",
    "Cjk.C146_program",
    "Cjk.C146_dictionary",
    "Cjk.C146_later"
   ],
   "note": ""
  },
  {
   "property": "C147",
   "status": "proved",
   "theorems": [
    "Cjk.C147_preorder",
    "Cjk.C147_breadth_first",
    "Cjk.C147_postorder",
    "Cjk.C147_final",
    "Cjk.C147_attributes",
    "Cjk.C147_dismantle",
    "Cjk.C147_apart",
    "Cjk.C147_tree_dist",
    "Cjk.C147_prune"
   ],
   "note": ""
  },
  {
   "property": "C148",
   "status": "proved",
   "theorems": [
    "Cjk.C148_walk",
    "Cjk.C148_depths",
    "Cjk.C148_paths",
    "Cjk.C148_unchanged"
   ],
   "note": ""
  },
  {
   "property": "C149",
   "status": "partial",
   "theorems": [
    "Cjk.C149_undisturbed_partial",
    "Cjk.C149_quiet_call_partial",
    "Cjk.C149_late_edit",
    "Cjk.C149_exact_condition",
    "Cjk.C149_ends"
   ],
   "note": "Violated by the code: a dependency that is written after the method has read it and before its result is stored gets an older time than the cache file, so the stale result is returned from then on (C149_late_edit). C149_exact_condition: the statement holds for all histories exactly if a result that is cached does not depend on the dependencies at all. C149_undisturbed_partial: it holds if nobody writes a dependency while the method runs and its result is stored (writes between the steps of the check and the reading of the cache file are allowed); C149_quiet_call_partial: then a call during which nothing is written gives what a direct call gives. C149_ends: without conditions, how any call of the cache ends (which exceptions, which results)."
  },
  {
   "property": "C150",
   "status": "proved",
   "theorems": [
    "Cjk.C150_each_line_once",
    "Cjk.C150_stream",
    "Cjk.C150_file",
    "Cjk.C150_closed",
    "Cjk.C150_row_by_row",
    "Cjk.C150_shared",
    "Cjk.C150_open",
    "Cjk.C150_lazy",
    "Cjk.C150_files"
   ],
   "note": ""
  },
  {
   "property": "C151",
   "status": "proved",
   "theorems": [
    "Cjk.C151_filter_calls",
    "Cjk.C151_date_calls",
    "Cjk.C151_loaded",
    "Cjk.C151_details",
    "Cjk.C151_raises",
    "Cjk.C151_failure",
    "Cjk.C151_default"
   ],
   "note": ""
  },
  {
   "property": "C152",
   "status": "proved",
   "theorems": [
    "Cjk.C152_raises",
    "Cjk.C152_readings"
   ],
   "note": ""
  },
  {
   "property": "C153",
   "status": "partial",
   "theorems": [
    "Cjk.C153_live",
    "Cjk.C153_ids",
    "Cjk.C153_iterator",
    "Cjk.C153_keys",
    "Cjk.C153_pairs",
    "Cjk.C153_ids_iterator",
    "Cjk.C153_one_file",
    "Cjk.C153_no_file",
    "Cjk.C153_mixed"
   ],
   "note": "Violated by the code for items() and values(): an iterator of these views takes the ids from the file in force when it is first asked and each value from the file in force at the time (C153_pairs), so it may mix two files or raise KeyError (C153_mixed). C153_one_file says exactly when it shows one file. Everything else in the statement is proved: C153_live, C153_ids, C153_ids_iterator, C153_iterator, C153_keys, C153_no_file."
  },
  {
   "property": "C154",
   "status": "partial",
   "theorems": [
    "Cjk.C154_order",
    "Cjk.C154_group_order",
    "Cjk.C154_details_order",
    "Cjk.C154_loads",
    "Cjk.C154_lookup",
    "Cjk.C154_calls",
    "Cjk.C154_recent",
    "Cjk.C154_quiet",
    "Cjk.C154_single",
    "Cjk.C154_sentence",
    "Cjk.C154_group",
    "Cjk.C154_details",
    "Cjk.C154_wrong_group",
    "Cjk.C154_two_writers",
    "Cjk.C154_type_error"
   ],
   "note": "Violated by the code for [] and group of the links reader, which combines two attributes (C154_wrong_group), and for details, which loads its attribute twice (C154_type_error); C154_group and C154_details say exactly what they answer. With several threads that assign, attributes of different files may stay for good (C154_two_writers). Proved for one assigning thread: lookups with one attribute (C154_single, C154_sentence), all lookups while no assignment is under way (C154_quiet, C154_group), and that no lookup sees a file older than the one assigned last before it began (C154_recent). Also that two loads of a lookup never meet an older file after a newer one (C154_order, C154_group_order, C154_details_order)."
  },
  {
   "property": "C155",
   "status": "partial",
   "theorems": [
    "Cjk.C155_exact",
    "Cjk.C155_kept",
    "Cjk.C155_right",
    "Cjk.C155_wrong",
    "Cjk.C155_removed",
    "Cjk.C155_future",
    "Cjk.C155_restored"
   ],
   "note": "False in general: needs_update only compares times, so a dependency replaced by a version that is not later than the cache file goes unnoticed (C155_restored). C155_exact says for every history which result a call gives, C155_wrong exactly when it is not that of the method, C155_right that a call is right when the contents are those of the stored result or some file is later than the cache file; C155_kept, C155_removed and C155_future say what is kept, that a missing dependency raises OSError, and that times in the future switch the cache off."
  },
  {
   "property": "C156",
   "status": "proved",
   "theorems": [
    "Cjk.C156_convert",
    "Cjk.C156_mapping",
    "Cjk.C156_scripts",
    "Cjk.C156_compare",
    "Cjk.C156_blocks_apart",
    "Cjk.C156_blocks_joined",
    "Cjk.C156_blocks_mark",
    "Cjk.C156_last_block",
    "Cjk.C156_long",
    "Cjk.C156_long_raises",
    "Cjk.C156_repeated",
    "Cjk.C156_hanzi",
    "Cjk.C156_segment",
    "Cjk.C156_ascii"
   ],
   "note": "conversions C156_convert, C156_mapping; sets C156_scripts; order C156_compare; blocks C156_blocks_apart, C156_blocks_joined, C156_blocks_mark, C156_last_block; long vowels C156_long, C156_long_raises; repeated kanji C156_repeated. All are about every text and every cut."
  },
  {
   "property": "C157",
   "status": "proved",
   "theorems": [
    "Cjk.C157_kanjidic",
    "Cjk.C157_cut",
    "Cjk.C157_hanzi",
    "Cjk.C157_zhuyin",
    "Cjk.C157_dictionary",
    "Cjk.C157_overwrite",
    "Cjk.C157_radicals_load",
    "Cjk.C157_radicals",
    "Cjk.C157_strokes",
    "Cjk.C157_sentences",
    "Cjk.C157_indices",
    "Cjk.C157_links_load",
    "Cjk.C157_links",
    "Cjk.C157_links_grow"
   ],
   "note": "Sentences: language() is not covered here, because a repeated id is listed under every language it had (C55)."
  },
  {
   "property": "C158",
   "status": "proved",
   "theorems": [
    "Cjk.C158_groups_iff",
    "Cjk.C158_group_both",
    "Cjk.C158_group_some",
    "Cjk.C158_two_readers",
    "Cjk.C158_indices"
   ],
   "note": ""
  },
  {
   "property": "C159",
   "status": "proved",
   "theorems": [
    "Cjk.C159_drawn",
    "Cjk.C159_limit",
    "Cjk.C159_circular",
    "Cjk.C159_enough"
   ],
   "note": ""
  },
  {
   "property": "C160",
   "status": "proved",
   "theorems": [
    "Cjk.C160_canonical_segment",
    "Cjk.C160_katakana_segment",
    "Cjk.C160_sequences",
    "Cjk.C160_katakana_sequences",
    "Cjk.C160_mixed",
    "Cjk.C160_long_vowels",
    "Cjk.C160_iteration_marks"
   ],
   "note": ""
  },
  {
   "property": "C161",
   "status": "proved",
   "theorems": [
    "Cjk.C161_map_fusion",
    "Cjk.C161_chain_assoc",
    "Cjk.C161_chain_inverse",
    "Cjk.C161_invert",
    "Cjk.C161_invert_merge",
    "Cjk.C161_pieces",
    "Cjk.C161_multi_pieces"
   ],
   "note": ""
  },
  {
   "property": "C162",
   "status": "proved",
   "theorems": [
    "Cjk.C162_basic",
    "Cjk.C162_load_iff"
   ],
   "note": ""
  },
  {
   "property": "C163",
   "status": "proved",
   "theorems": [
    "Cjk.C163_again",
    "Cjk.C163_connected",
    "Cjk.C163_known_iff"
   ],
   "note": ""
  },
  {
   "property": "C164",
   "status": "proved",
   "theorems": [
    "Cjk.C164_katakana",
    "Cjk.C164_hiragana_iff",
    "Cjk.C164_search_form",
    "Cjk.C164_normal"
   ],
   "note": ""
  },
  {
   "property": "C165",
   "status": "partial",
   "theorems": [
    "Cjk.C165_comments_partial",
    "Cjk.C165_blank_radk",
    "Cjk.C165_blank_refused",
    "Cjk.C165_dictionary_refuted",
    "Cjk.C165_cedict_refuted"
   ],
   "note": "Comments are skipped in the kanjidic, the radkfile and the tables (proved), but not in dictionary files: there a '#' line is refused with FormatError or read as an entry (proved in general: C165_dictionary_refuted, C165_cedict_refuted). Blank lines are harmless only in the radkfile (C165_blank_radk); every other loader raises (C165_blank_refused)."
  },
  {
   "property": "C166",
   "status": "proved",
   "theorems": [
    "Cjk.C166_unique",
    "Cjk.C166_syllabary",
    "Cjk.C166_neighbours",
    "Cjk.C166_block",
    "Cjk.C166_stable"
   ],
   "note": ""
  },
  {
   "property": "C167",
   "status": "partial",
   "theorems": [
    "Cjk.C167_iff",
    "Cjk.C167_gaps_partial",
    "Cjk.C167_strip_partial",
    "Cjk.C167_refuted"
   ],
   "note": "False as stated: spaces are removed before matching and the longest syllable is taken, so 'xi an' is read as 'xian' and 'de niu' loses a syllable; stripping tones twice can differ from stripping once (C167_refuted). Proved: the exact condition, that no syllable that runs into the next one without a digit or another character makes up a longer syllable with what follows (C167_iff); digits may be left out wherever an apostrophe or the like stands, and at the end (C167_gaps_partial); strip_tones under the same condition (C167_strip_partial)."
  },
  {
   "property": "C168",
   "status": "partial",
   "theorems": [
    "Cjk.C168_canonical_closed",
    "Cjk.C168_surface_closed",
    "Cjk.C168_converse_iff",
    "Cjk.C168_converse_partial",
    "Cjk.C168_refuted"
   ],
   "note": "False as stated for three or more segments: canonical_forms undoes a sokuon in every segment but the last, surface_forms makes one in the first only (C168_refuted). Proved: both are closed (C168_canonical_closed, C168_surface_closed); they are converse exactly where no segment but the first had its sokuon undone (C168_converse_iff), so always for one or two segments (C168_converse_partial)."
  },
  {
   "property": "C169",
   "status": "partial",
   "theorems": [
    "Cjk.C169_letters",
    "Cjk.C169_breaks_partial",
    "Cjk.C169_syllable_partial",
    "Cjk.C169_join_refuted",
    "Cjk.C169_refuted"
   ],
   "note": "False as stated: no apostrophe is written, so whenever two syllables p and q join to a third one, p with a tone and q with the neutral one become the same text as pq (C169_join_refuted; C169_refuted for xi1an1 and xian1). Proved: the letters agree (C169_letters); where the syllables end at the same places, the results agree exactly if the syllables do and the tones of those with a vowel behind the first character (C169_breaks_partial); a single such syllable and its tone can be read off (C169_syllable_partial)."
  },
  {
   "property": "C170",
   "status": "partial",
   "theorems": [
    "Cjk.C170_forms_partial",
    "Cjk.C170_refuted"
   ],
   "note": "False as stated: Latin letters that are passed through are read together in the numbered form and one by one in the others (C170_refuted). Proved, exceptions included, for texts in which every reading but the last ends with a tone digit or another character that occurs in no syllable (C170_forms_partial)."
  },
  {
   "property": "C171",
   "status": "partial",
   "theorems": [
    "Cjk.C171_kanji",
    "Cjk.C171_passes_partial",
    "Cjk.C171_again_iff",
    "Cjk.C171_refuted"
   ],
   "note": "False for expand_long_vowels: of several marks behind a kana one call expands the first only (C171_refuted); a second call changes nothing exactly if no kana is followed by two marks (C171_again_iff). Proved: insert_duplicate_kanji changes nothing the second time (C171_kanji); further calls of expand_long_vowels do not raise, n calls expand the first n marks of each row, and enough calls expand all (C171_passes_partial)."
  },
  {
   "property": "C172",
   "status": "proved",
   "theorems": [
    "Cjk.C172_entries",
    "Cjk.C172_swapped",
    "Cjk.C172_twice",
    "Cjk.C172_dictionaries",
    "Cjk.C172_no_change"
   ],
   "note": ""
  },
  {
   "property": "C173",
   "status": "proved",
   "theorems": [
    "Cjk.C173_steps",
    "Cjk.C173_again",
    "Cjk.C173_none",
    "Cjk.C173_all"
   ],
   "note": ""
  },
  {
   "property": "C174",
   "status": "partial",
   "theorems": [
    "Cjk.C174_memory_outside_partial",
    "Cjk.C174_memory_outside_unchanged_partial",
    "Cjk.C174_disk_outside_partial",
    "Cjk.C174_refuted",
    "Cjk.C174_iff"
   ],
   "note": "A memory cache does not see changes of the dependencies. Proved: with the memory cache outside, a call returns what the method would now unless a same call returned before in this process, and then that value; so results are up to date while the dependencies keep their contents, and in a new process. With the disk cache outside: up to date if dependencies are written only before the first call of a process. Refuted in general (C174_refuted): with the disk cache outside, the stale value is even stored as new, and later processes get it. Exact condition (C174_iff): with either order, results are up to date in all histories exactly if what the method returns does not change with the contents of the dependencies."
  },
  {
   "property": "C175",
   "status": "proved",
   "theorems": [
    "Cjk.C175_agree",
    "Cjk.C175_own_label"
   ],
   "note": ""
  },
  {
   "property": "C176",
   "status": "proved",
   "theorems": [
    "Cjk.C176_walks",
    "Cjk.C176_breadth",
    "Cjk.C176_paths",
    "Cjk.C176_find",
    "Cjk.C176_prune"
   ],
   "note": ""
  },
  {
   "property": "C177",
   "status": "proved",
   "theorems": [
    "Cjk.C177_memory",
    "Cjk.C177_disk"
   ],
   "note": ""
  },
  {
   "property": "C178",
   "status": "partial",
   "theorems": [
    "Cjk.C178_some_method_partial",
    "Cjk.C178_apart_partial",
    "Cjk.C178_iff",
    "Cjk.C178_refuted"
   ],
   "note": "False as stated: the cache file records the arguments but not the method (C178_refuted: the second method returns the first one's result). Proved: a call returns the method's own result or that of another method for equal arguments (C178_some_method_partial); all results are up to date in all histories exactly if the methods agree on equal arguments that both are called with, whenever one returns something other than None (C178_iff); so if they are never called with equal arguments (C178_apart_partial)."
  },
  {
   "property": "C179",
   "status": "proved",
   "theorems": [
    "Cjk.C179_there_and_back",
    "Cjk.C179_hash",
    "Cjk.C179_back_and_there"
   ],
   "note": ""
  },
  {
   "property": "C180",
   "status": "proved",
   "theorems": [
    "Cjk.C180_equal_trees",
    "Cjk.C180_again",
    "Cjk.C180_stored_counts",
    "Cjk.C180_default",
    "Cjk.C180_any_arithmetic",
    "Cjk.C180_copy"
   ],
   "note": ""
  },
  {
   "property": "C181",
   "status": "proved",
   "theorems": [
    "Cjk.C181_order",
    "Cjk.C181_exchange"
   ],
   "note": ""
  },
  {
   "property": "C182",
   "status": "proved",
   "theorems": [
    "Cjk.C182_walk",
    "Cjk.C182_dump",
    "Cjk.C182_file",
    "Cjk.C182_find_node",
    "Cjk.C182_find_all",
    "Cjk.C182_again",
    "Cjk.C182_order"
   ],
   "note": ""
  },
  {
   "property": "C183",
   "status": "partial",
   "theorems": [
    "Cjk.C183_again",
    "Cjk.C183_refuted"
   ],
   "note": "False for places with aliases, which dump writes as a Python list (C183_refuted). C183_again: every accepted file gives exactly one hierarchy; it survives exactly if no place of it has aliases; with several aliases somewhere the second loading raises ValueError; otherwise the hierarchy is the same except that each single alias has become the text of the list."
  },
  {
   "property": "C184",
   "status": "partial",
   "theorems": [
    "Cjk.C184_read_again",
    "Cjk.C184_same_iff",
    "Cjk.C184_settles",
    "Cjk.C184_refuted"
   ],
   "note": "The statement fails for a word with the sense 0 ('x[00]'), whose sense is not written. C184_read_again gives exactly what is read in all cases, C184_same_iff shows that it is the index that was saved if and only if no word has the sense 0, C184_settles that saving again changes nothing further, C184_refuted gives a file for which it fails."
  },
  {
   "property": "C185",
   "status": "partial",
   "theorems": [
    "Cjk.C185_read_again_partial",
    "Cjk.C185_no_sentences",
    "Cjk.C185_refuted",
    "Cjk.C185_iff"
   ],
   "note": "False for a reader without sentences, which is saved as an empty file and raises StopIteration when loaded (C185_no_sentences, C185_refuted). C185_iff: exactly the readers with sentences are read back; C185_read_again_partial is that direction."
  },
  {
   "property": "C186",
   "status": "partial",
   "theorems": [
    "Cjk.C186_any_groups",
    "Cjk.C186_iff",
    "Cjk.C186_refuted"
   ],
   "note": "The first sentence is proved (C186_any_groups). The second is false for files in which a link joins two groups (C186_refuted); C186_iff shows that it holds for all orders exactly if the groups are disjoint, which is so exactly if no link joins two groups."
  },
  {
   "property": "C187",
   "status": "proved",
   "theorems": [
    "Cjk.C187_lines",
    "Cjk.C187_file",
    "Cjk.C187_indent"
   ],
   "note": ""
  },
  {
   "property": "C188",
   "status": "proved",
   "theorems": [
    "Cjk.C188_iff",
    "Cjk.C188_lines",
    "Cjk.C188_convert",
    "Cjk.C188_file"
   ],
   "note": ""
  },
  {
   "property": "C189",
   "status": "proved",
   "theorems": [
    "Cjk.C189_line",
    "Cjk.C189_saved",
    "Cjk.C189_file",
    "Cjk.C189_iff",
    "Cjk.C189_stray",
    "Cjk.C189_tab"
   ],
   "note": ""
  },
  {
   "property": "C190",
   "status": "proved",
   "theorems": [
    "Cjk.C190_zhuyin",
    "Cjk.C190_pinyin",
    "Cjk.C190_file",
    "Cjk.C190_segmenter",
    "Cjk.C190_whole",
    "Cjk.C190_repeated",
    "Cjk.C190_indent"
   ],
   "note": ""
  },
  {
   "property": "C191",
   "status": "partial",
   "theorems": [
    "Cjk.C191_rendaku_iff",
    "Cjk.C191_onbin_iff",
    "Cjk.C191_refuted",
    "Cjk.C191_surface_iff"
   ],
   "note": "False as stated: a base kana with a separate mark is voiced once more by rendaku_variants, and onbin_variants replaces only a separate final mark (C191_refuted). Exactly when it holds, for all texts of kana and sound marks: for rendaku_variants iff the segments begin with the same character or with characters that are never voiced (C191_rendaku_iff); for onbin_variants iff they end with the same character or do not begin with a kana, so that both raise (C191_onbin_iff); for surface_forms of whole readings of any number of segments, each beginning with a kana, iff the first segments end with the same character and every later pair meets the condition for rendaku_variants (C191_surface_iff)."
  },
  {
   "property": "C192",
   "status": "partial",
   "theorems": [
    "Cjk.C192_katakana",
    "Cjk.C192_hiragana_iff",
    "Cjk.C192_hiragana_partial",
    "Cjk.C192_refuted"
   ],
   "note": "to_katakana: proved (C192_katakana). to_hiragana: false for ヷ, ヸ, ヹ, ヺ, which it leaves alone, while their decomposed spellings are converted (C192_refuted). C192_hiragana_iff: it holds exactly if the texts agree on the spelling of these four; C192_hiragana_partial: so for all texts without them."
  }
 ]
}