# Axioms of the theorems in MANIFEST.json

Output of `#print axioms` (tools/gen_axioms.py).

| theorem | axioms |
| --- | --- |
| `MdToc.Props.C01_duplicates_numbered` | propext, Classical.choice, Quot.sound |
| `MdToc.Props.C01_duplicates_numbered_of_ok` | propext, Classical.choice, Quot.sound |
| `MdToc.Props.C01_equal_slugs_distinct` | propext, Classical.choice, Quot.sound |
| `MdToc.Props.C01_table` | propext, Classical.choice, Quot.sound |
| `MdToc.Props.C02_anchors_unique_partial` | propext, Classical.choice, Quot.sound |
| `MdToc.Props.C02_table_partial` | propext, Classical.choice, Quot.sound |
| `MdToc.Props.C02_violation` | propext, Classical.choice, Quot.sound |
| `MdToc.Props.C02_exact` | propext, Classical.choice, Quot.sound |
| `MdToc.Props.C02_run_exact` | propext, Classical.choice, Quot.sound |
| `MdToc.Props.C02_table_exact` | propext, Classical.choice, Quot.sound |
| `MdToc.Props.C03_anchor_alphabet` | propext, Classical.choice, Quot.sound |
| `MdToc.Props.C03_anchor_safe` | propext, Classical.choice, Quot.sound |
| `MdToc.Props.C04_redcarpet_anchor` | propext, Classical.choice, Quot.sound |
| `MdToc.Props.C04_redcarpet_shape` | propext, Classical.choice, Quot.sound |
| `MdToc.Props.C05_gitlab_collapse` | propext, Classical.choice, Quot.sound |
| `MdToc.Props.C05_gitlab_final_partial` | propext, Classical.choice, Quot.sound |
| `MdToc.Props.C05_gitlab_run_partial` | propext, Classical.choice, Quot.sound |
| `MdToc.Props.C05_violation` | propext, Classical.choice, Quot.sound |
| `MdToc.Props.C05_run_exact` | propext, Classical.choice, Quot.sound |
| `MdToc.Props.C06_anchors_stable` | propext, Classical.choice, Quot.sound |
| `MdToc.Props.C07_newlines` | propext, Classical.choice, Quot.sound |
| `MdToc.Props.C08_recognition` | propext, Classical.choice, Quot.sound |
| `MdToc.Props.C08_levels` | propext, Classical.choice, Quot.sound |
| `MdToc.Props.C09_heading_text_partial` | propext, Classical.choice, Quot.sound |
| `MdToc.Props.C09_two_runs` | propext, Classical.choice, Quot.sound |
| `MdToc.Props.C09_raw_content_unique` | propext, Quot.sound |
| `MdToc.Props.C09_violation` | propext, Classical.choice, Quot.sound |
| `MdToc.Props.C10_brackets_escaped` | propext, Classical.choice, Quot.sound |
| `MdToc.Props.C10_redcarpet_violation` | propext, Classical.choice, Quot.sound |
| `MdToc.Props.C100_code_kept_partial` | propext, Classical.choice, Quot.sound |
| `MdToc.Props.C100_violation` | propext, Classical.choice, Quot.sound |
| `MdToc.Props.C101_lines_partial` | propext, Classical.choice, Quot.sound |
| `MdToc.Props.C101_headers_partial` | propext, Classical.choice, Quot.sound |
| `MdToc.Props.C101_exception` | propext, Classical.choice, Quot.sound |
| `MdToc.Props.C101_has_lines` | propext, Quot.sound |
| `MdToc.Props.C101_lines_unique` | propext, Classical.choice, Quot.sound |
| `MdToc.Props.C101_violation` | propext, Classical.choice, Quot.sound |
| `MdToc.Props.C102_exact` | propext, Classical.choice, Quot.sound |
| `MdToc.Props.C102_stable_partial` | propext, Classical.choice, Quot.sound |
| `MdToc.Props.C102_violation` | propext, Classical.choice, Quot.sound |
| `MdToc.Props.C103_rest_partial` | propext, Classical.choice, Quot.sound |
| `MdToc.Props.C103_behind_partial` | propext, Classical.choice, Quot.sound |
| `MdToc.Props.C103_violation` | propext, Classical.choice, Quot.sound |
| `MdToc.Props.C103_never` | propext, Classical.choice, Quot.sound |
| `MdToc.Props.C104_last_run` | propext, Classical.choice, Quot.sound |
| `MdToc.Props.C104_same_end` | propext, Classical.choice, Quot.sound |
| `MdToc.Props.C104_failures` | propext, Classical.choice, Quot.sound |
| `MdToc.Props.C104_any_table` | propext, Classical.choice, Quot.sound |
| `MdToc.Props.C105_move` | propext, Classical.choice, Quot.sound |
| `MdToc.Props.C106_check` | propext, Classical.choice, Quot.sound |
| `MdToc.Props.C107_separate` | propext, Classical.choice, Quot.sound |
| `MdToc.Props.C107_each` | propext, Classical.choice, Quot.sound |
| `MdToc.Props.C107_order` | propext, Classical.choice, Quot.sound |
| `MdToc.Props.C107_print` | propext, Classical.choice, Quot.sound |
| `MdToc.Props.C107_failed` | propext, Classical.choice, Quot.sound |
| `MdToc.Props.C108_check_files` | propext, Classical.choice, Quot.sound |
| `MdToc.Props.C109_project` | propext, Classical.choice, Quot.sound |
| `MdToc.Props.C109_same_end` | propext, Classical.choice, Quot.sound |
| `MdToc.Props.C11_escaping` | propext, Classical.choice, Quot.sound |
| `MdToc.Props.C11_only_inserts` | none |
| `MdToc.Props.C11_idempotent` | propext |
| `MdToc.Props.C110_alone` | propext, Classical.choice, Quot.sound |
| `MdToc.Props.C110_stopped` | propext, Classical.choice, Quot.sound |
| `MdToc.Props.C110_serial_partial` | propext, Classical.choice, Quot.sound |
| `MdToc.Props.C110_states_partial` | propext, Classical.choice, Quot.sound |
| `MdToc.Props.C110_checks` | propext, Classical.choice, Quot.sound |
| `MdToc.Props.C110_violation` | propext, Classical.choice, Quot.sound |
| `MdToc.Props.C111_anchor` | propext, Classical.choice, Quot.sound |
| `MdToc.Props.C111_documents` | propext, Classical.choice, Quot.sound |
| `MdToc.Props.C111_other_letters` | propext, Classical.choice, Quot.sound |
| `MdToc.Props.C112_anchor` | propext, Classical.choice, Quot.sound |
| `MdToc.Props.C112_documents` | propext, Classical.choice, Quot.sound |
| `MdToc.Props.C112_punctuation` | propext, Classical.choice, Quot.sound |
| `MdToc.Props.C113_marker` | propext, Classical.choice, Quot.sound |
| `MdToc.Props.C113_replace` | propext, Classical.choice, Quot.sound |
| `MdToc.Props.C114_printed` | propext, Classical.choice, Quot.sound |
| `MdToc.Props.C115_slug` | propext, Classical.choice, Quot.sound |
| `MdToc.Props.C115_letters` | propext, Classical.choice, Quot.sound |
| `MdToc.Props.C115_redcarpet` | propext, Classical.choice, Quot.sound |
| `MdToc.Props.C115_documents` | propext, Classical.choice, Quot.sound |
| `MdToc.Props.C115_underscores` | propext, Classical.choice, Quot.sound |
| `MdToc.Props.C12_label_length` | propext, Classical.choice, Quot.sound |
| `MdToc.Props.C12_overflow` | propext, Classical.choice, Quot.sound |
| `MdToc.Props.C12_no_overflow` | propext, Classical.choice, Quot.sound |
| `MdToc.Props.C12_violation` | propext, Classical.choice, Quot.sound |
| `MdToc.Props.C13_blank_partial` | propext, Classical.choice, Quot.sound |
| `MdToc.Props.C13_violation` | propext, Classical.choice, Quot.sound |
| `MdToc.Props.C13_exact` | propext, Classical.choice, Quot.sound |
| `MdToc.Props.C14_total` | propext, Classical.choice, Quot.sound |
| `MdToc.Props.C14_one_per_line` | propext, Classical.choice, Quot.sound |
| `MdToc.Props.C15_redcarpet` | propext, Classical.choice, Quot.sound |
| `MdToc.Props.C15_redcarpet_links` | propext, Classical.choice, Quot.sound |
| `MdToc.Props.C16_opening` | propext, Quot.sound |
| `MdToc.Props.C16_unique` | propext, Quot.sound |
| `MdToc.Props.C16_redcarpet` | propext |
| `MdToc.Props.C16_indent` | propext, Quot.sound |
| `MdToc.Props.C17_closing` | propext, Quot.sound |
| `MdToc.Props.C17_document_end` | propext, Quot.sound |
| `MdToc.Props.C17_closes_own_fence` | propext, Quot.sound |
| `MdToc.Props.C17_any_fence` | propext, Quot.sound |
| `MdToc.Props.C17_any_fence_end` | propext, Quot.sound |
| `MdToc.Props.C18_content_invisible` | propext, Classical.choice, Quot.sound |
| `MdToc.Props.C18_only_visible_stdin` | propext, Classical.choice, Quot.sound |
| `MdToc.Props.C18_only_visible_closed` | propext, Classical.choice, Quot.sound |
| `MdToc.Props.C18_visible_exists` | propext, Classical.choice, Quot.sound |
| `MdToc.Props.C19_unclosed_stdin` | propext, Classical.choice, Quot.sound |
| `MdToc.Props.C19_unclosed_file_partial` | propext, Classical.choice, Quot.sound |
| `MdToc.Props.C19_violation` | propext, Classical.choice, Quot.sound |
| `MdToc.Props.C19_file_exact` | propext, Classical.choice, Quot.sound |
| `MdToc.Props.C20_other_lines` | propext, Classical.choice, Quot.sound |
| `MdToc.Props.C20_other_lines_redcarpet` | propext, Classical.choice, Quot.sound |
| `MdToc.Props.C21_entries` | propext, Classical.choice, Quot.sound |
| `MdToc.Props.C21_headings` | propext, Classical.choice, Quot.sound |
| `MdToc.Props.looks_exists` | propext, Classical.choice, Quot.sound |
| `MdToc.Props.C22_one_line_each` | propext, Classical.choice, Quot.sound |
| `MdToc.Props.C23_levels_partial` | propext, Classical.choice, Quot.sound |
| `MdToc.Props.C23_redcarpet` | propext, Classical.choice, Quot.sound |
| `MdToc.Props.C23_violation` | propext, Classical.choice, Quot.sound |
| `MdToc.Props.C24_numbers_checked` | propext, Classical.choice, Quot.sound |
| `MdToc.Props.C24_numbers_coherent` | propext, Classical.choice, Quot.sound |
| `MdToc.Props.C24_always` | propext, Classical.choice, Quot.sound |
| `MdToc.Props.C24_violation` | propext, Classical.choice, Quot.sound |
| `MdToc.Props.C25_constant` | propext, Classical.choice, Quot.sound |
| `MdToc.Props.C26_nested_checked` | propext, Classical.choice, Quot.sound |
| `MdToc.Props.C26_nested_coherent` | propext, Classical.choice, Quot.sound |
| `MdToc.Props.C26_always` | propext, Classical.choice, Quot.sound |
| `MdToc.Props.C26_violation` | propext, Classical.choice, Quot.sound |
| `MdToc.Props.C27_redcarpet_indentation` | propext, Classical.choice, Quot.sound |
| `MdToc.Props.C28_ok_coherent` | propext, Classical.choice, Quot.sound |
| `MdToc.Props.C28_error_incoherent` | propext, Classical.choice, Quot.sound |
| `MdToc.Props.C29_no_exception` | propext, Classical.choice, Quot.sound |
| `MdToc.Props.C29_no_indentation` | propext, Classical.choice, Quot.sound |
| `MdToc.Props.C30_skip_lines` | propext, Classical.choice, Quot.sound |
| `MdToc.Props.C30_drop` | propext |
| `MdToc.Props.C30_negative` | propext, Classical.choice, Quot.sound |
| `MdToc.Props.C31_comment` | propext, Classical.choice, Quot.sound |
| `MdToc.Props.C31_no_exception` | propext, Classical.choice, Quot.sound |
| `MdToc.Props.C31_skipped` | propext, Classical.choice, Quot.sound |
| `MdToc.Props.C32_used_marker` | propext, Classical.choice, Quot.sound |
| `MdToc.Props.C32_valid` | propext, Classical.choice, Quot.sound |
| `MdToc.Props.C32_invalid` | propext, Classical.choice, Quot.sound |
| `MdToc.Props.C32_invalid_error` | propext, Classical.choice, Quot.sound |
| `MdToc.Props.C33_limit` | propext, Classical.choice, Quot.sound |
| `MdToc.Props.C33_overflow` | propext, Classical.choice, Quot.sound |
| `MdToc.Props.C33_reached` | propext, Classical.choice, Quot.sound |
| `MdToc.Props.C34_independent` | propext, Classical.choice, Quot.sound |
| `MdToc.Props.C34_default` | propext, Classical.choice, Quot.sound |
| `MdToc.Props.C34_stdin_twice` | propext, Classical.choice, Quot.sound |
| `MdToc.Props.C35_lines` | propext, Classical.choice, Quot.sound |
| `MdToc.Props.C35_newline_convention` | propext, Classical.choice, Quot.sound |
| `MdToc.Props.C36_no_marker` | propext, Classical.choice, Quot.sound |
| `MdToc.Props.C37_outside_preserved` | propext, Classical.choice, Quot.sound |
| `MdToc.Props.C37_cut` | propext, Classical.choice, Quot.sound |
| `MdToc.Props.C38_twice_partial` | propext, Classical.choice, Quot.sound |
| `MdToc.Props.C38_violation` | propext, Classical.choice, Quot.sound |
| `MdToc.Props.C38_violation_cr` | propext, Classical.choice, Quot.sound |
| `MdToc.Props.C38_always_changed` | propext, Classical.choice, Quot.sound |
| `MdToc.Props.C38_exact` | propext, Classical.choice, Quot.sound |
| `MdToc.Props.C39_up_to_date_partial` | propext, Classical.choice, Quot.sound |
| `MdToc.Props.C39_violation` | propext, Classical.choice, Quot.sound |
| `MdToc.Props.C39_exact` | propext, Classical.choice, Quot.sound |
| `MdToc.Props.C39_table_exact` | propext, Classical.choice, Quot.sound |
| `MdToc.Props.C39_never` | propext, Classical.choice, Quot.sound |
| `MdToc.Props.C40_flag` | propext, Classical.choice, Quot.sound |
| `MdToc.Props.C40_meaning` | propext, Classical.choice, Quot.sound |
| `MdToc.Props.C41_stdin` | propext, Classical.choice, Quot.sound |
| `MdToc.Props.C41_nothing_after` | propext, Classical.choice, Quot.sound |
| `MdToc.Props.C42_sequence` | propext, Classical.choice, Quot.sound |
| `MdToc.Props.C42_lengths` | propext, Classical.choice, Quot.sound |
| `MdToc.Props.C42_others` | propext, Classical.choice, Quot.sound |
| `MdToc.Props.C43_states` | propext, Classical.choice, Quot.sound |
| `MdToc.Props.C43_violation` | propext, Classical.choice, Quot.sound |
| `MdToc.Props.C44_recognisable_partial` | propext, Classical.choice, Quot.sound |
| `MdToc.Props.C44_recognised_partial` | propext, Classical.choice, Quot.sound |
| `MdToc.Props.C44_violation_redcarpet` | propext, Classical.choice, Quot.sound |
| `MdToc.Props.C44_violation_noLinks` | propext, Classical.choice, Quot.sound |
| `MdToc.Props.C44_exact` | propext, Classical.choice, Quot.sound |
| `MdToc.Props.C44_redcarpet_exact` | propext, Classical.choice, Quot.sound |
| `MdToc.Props.C44_noLinks_exact` | propext, Classical.choice, Quot.sound |
| `MdToc.Props.C44_noLinks_stable` | propext, Classical.choice, Quot.sound |
| `MdToc.Props.C45_stable` | propext, Classical.choice, Quot.sound |
| `MdToc.Props.C45_second_run` | propext, Classical.choice, Quot.sound |
| `MdToc.Props.C45_run_twice` | propext, Classical.choice, Quot.sound |
| `MdToc.Props.C46_codes` | propext, Classical.choice, Quot.sound |
| `MdToc.Props.C46_build_fails` | propext, Classical.choice, Quot.sound |
| `MdToc.Props.C46_print` | propext, Classical.choice, Quot.sound |
| `MdToc.Props.C46_in_place` | propext, Classical.choice, Quot.sound |
| `MdToc.Props.C46_in_place_files` | propext, Classical.choice, Quot.sound |
| `MdToc.Props.C46_violation_stdin` | propext, Classical.choice, Quot.sound |
| `MdToc.Props.C47_all_or_nothing` | propext, Classical.choice, Quot.sound |
| `MdToc.Props.C48_only_tags` | propext, Classical.choice, Quot.sound |
| `MdToc.Props.C48_sublist` | propext, Classical.choice, Quot.sound |
| `MdToc.Props.C48_unchanged` | propext, Classical.choice, Quot.sound |
| `MdToc.Props.C48_redcarpet` | propext, Classical.choice, Quot.sound |
| `MdToc.Props.C49_only_delimiters` | propext, Classical.choice, Quot.sound |
| `MdToc.Props.C50_unchanged` | propext, Classical.choice, Quot.sound |
| `MdToc.Props.C50_plain` | propext, Classical.choice, Quot.sound |
| `MdToc.Props.C51_terminates` | propext, Classical.choice, Quot.sound |
| `MdToc.Props.C51_progress` | propext, Classical.choice, Quot.sound |
| `MdToc.Props.C51_tree_terminates` | propext, Classical.choice, Quot.sound |
| `MdToc.Props.C51_tree_children` | propext, Classical.choice, Quot.sound |
| `MdToc.Props.C52_no_exception_partial` | propext, Classical.choice, Quot.sound |
| `MdToc.Props.C52_calm_partial` | propext, Classical.choice, Quot.sound |
| `MdToc.Props.C52_escaped_partial` | propext, Classical.choice, Quot.sound |
| `MdToc.Props.C52_violation` | propext, Classical.choice, Quot.sound |
| `MdToc.Props.C52_violation_digit` | propext, Classical.choice, Quot.sound |
| `MdToc.Props.C52_violation_references` | propext, Classical.choice, Quot.sound |
| `MdToc.Props.C52_references_exact` | propext, Classical.choice, Quot.sound |
| `MdToc.Props.C52_brackets_exact` | propext, Classical.choice, Quot.sound |
| `MdToc.Props.C52_tree_harmless` | propext, Classical.choice, Quot.sound |
| `MdToc.Props.C53_pairs_partial` | propext, Classical.choice, Quot.sound |
| `MdToc.Props.C53_even_partial` | propext, Classical.choice, Quot.sound |
| `MdToc.Props.C53_violation` | propext, Classical.choice, Quot.sound |
| `MdToc.Props.C54_positions` | propext, Classical.choice, Quot.sound |
| `MdToc.Props.C55_blank` | propext, Classical.choice, Quot.sound |
| `MdToc.Props.C55_list` | propext, Classical.choice, Quot.sound |
| `MdToc.Props.C55_region` | propext, Classical.choice, Quot.sound |
| `MdToc.Props.C56_interval` | propext, Classical.choice, Quot.sound |
| `MdToc.Props.C56_newlines` | propext, Classical.choice, Quot.sound |
| `MdToc.Props.C56_empty` | propext |
| `MdToc.Props.C57_exceptions` | propext, Classical.choice, Quot.sound |
| `MdToc.Props.C57_terminates` | propext, Classical.choice, Quot.sound |
| `MdToc.Props.C57_name` | propext, Classical.choice, Quot.sound |
| `MdToc.Props.C57_write_exceptions` | propext, Classical.choice, Quot.sound |
| `MdToc.Props.C58_tags_removed` | propext, Classical.choice, Quot.sound |
| `MdToc.Props.C58_limits` | propext, Classical.choice, Quot.sound |
| `MdToc.Props.C59_emphasis_removed` | propext, Classical.choice, Quot.sound |
| `MdToc.Props.C60_slug` | propext, Classical.choice, Quot.sound |
| `MdToc.Props.C60_plain` | propext, Classical.choice, Quot.sound |
| `MdToc.Props.C61_rejected` | propext, Classical.choice, Quot.sound |
| `MdToc.Props.C61_list` | propext, Classical.choice, Quot.sound |
| `MdToc.Props.C61_succeeds` | propext, Classical.choice, Quot.sound |
| `MdToc.Props.C62_region_partial` | propext, Classical.choice, Quot.sound |
| `MdToc.Props.C62_violation` | propext, Classical.choice, Quot.sound |
| `MdToc.Props.C62_exact` | propext, Classical.choice, Quot.sound |
| `MdToc.Props.C63_document` | propext, Classical.choice, Quot.sound |
| `MdToc.Props.C63_simple` | propext, Classical.choice, Quot.sound |
| `MdToc.Props.C63_redcarpet` | propext, Classical.choice, Quot.sound |
| `MdToc.Props.C64_markup_removed` | propext, Classical.choice, Quot.sound |
| `MdToc.Props.C64_no_emphasis` | propext, Classical.choice, Quot.sound |
| `MdToc.Props.C65_inside_words_partial` | propext, Classical.choice, Quot.sound |
| `MdToc.Props.C65_violation` | propext, Classical.choice, Quot.sound |
| `MdToc.Props.C66_links_partial` | propext, Classical.choice, Quot.sound |
| `MdToc.Props.C66_violation` | propext, Classical.choice, Quot.sound |
| `MdToc.Props.C66_violation_title` | propext, Classical.choice, Quot.sound |
| `MdToc.Props.C67_links_partial` | propext, Classical.choice, Quot.sound |
| `MdToc.Props.C67_violation` | propext, Classical.choice, Quot.sound |
| `MdToc.Props.C67_violation_toc` | propext, Classical.choice, Quot.sound |
| `MdToc.Props.C68_append_partial` | propext, Classical.choice, Quot.sound |
| `MdToc.Props.C68_stdin` | propext, Classical.choice, Quot.sound |
| `MdToc.Props.C68_unless` | propext, Classical.choice, Quot.sound |
| `MdToc.Props.C68_violation` | propext, Classical.choice, Quot.sound |
| `MdToc.Props.C69_stdin_partial` | propext, Classical.choice, Quot.sound |
| `MdToc.Props.C69_violation` | propext, Classical.choice, Quot.sound |
| `MdToc.Props.C69_exact` | propext, Classical.choice, Quot.sound |
| `MdToc.Props.C70_levels` | propext, Classical.choice, Quot.sound |
| `MdToc.Props.C70_levels_checked` | propext, Classical.choice, Quot.sound |
| `MdToc.Props.C70_redcarpet` | propext, Classical.choice, Quot.sound |
| `MdToc.Props.C71_no_links_partial` | propext, Classical.choice, Quot.sound |
| `MdToc.Props.C71_iff` | propext, Classical.choice, Quot.sound |
| `MdToc.Props.C71_references_exact` | propext, Classical.choice, Quot.sound |
| `MdToc.Props.C71_violation` | propext, Classical.choice, Quot.sound |
| `MdToc.Props.C71_violation_references` | propext, Classical.choice, Quot.sound |
| `MdToc.Props.C71_redcarpet` | propext, Classical.choice, Quot.sound |
| `MdToc.Props.C72_emphasis_partial` | propext, Classical.choice, Quot.sound |
| `MdToc.Props.C72_one_way_partial` | propext, Classical.choice, Quot.sound |
| `MdToc.Props.C72_exact` | propext, Classical.choice, Quot.sound |
| `MdToc.Props.C72_iff` | propext, Classical.choice, Quot.sound |
| `MdToc.Props.C72_not_more` | propext, Classical.choice, Quot.sound |
| `MdToc.Props.C72_total` | propext, Classical.choice, Quot.sound |
| `MdToc.Props.C72_unique` | propext |
| `MdToc.Props.C72_pieces` | propext, Classical.choice, Quot.sound |
| `MdToc.Props.C72_pieces_any` | propext, Classical.choice, Quot.sound |
| `MdToc.Props.C72_covers_C64` | propext, Classical.choice, Quot.sound |
| `MdToc.Props.C72_slug_partial` | propext, Classical.choice, Quot.sound |
| `MdToc.Props.C72_violation_bottom` | propext, Classical.choice, Quot.sound |
| `MdToc.Props.C72_violation_both` | propext, Classical.choice, Quot.sound |
| `MdToc.Props.C73_replace` | propext, Quot.sound |
| `MdToc.Props.C73_replace_error` | propext, Quot.sound |
| `MdToc.Props.C73_compare` | propext, Quot.sound |
| `MdToc.Props.C73_compare_values` | propext, Quot.sound |
| `MdToc.Props.C73_compare_swap` | propext, Quot.sound |
| `MdToc.Props.C74_sound` | propext, Quot.sound |
| `MdToc.Props.C74_no_exception` | propext, Classical.choice, Quot.sound |
| `MdToc.Props.C74_found_partial` | propext, Quot.sound |
| `MdToc.Props.C74_prefix` | propext, Quot.sound |
| `MdToc.Props.C74_violation` | propext, Classical.choice, Quot.sound |
| `MdToc.Props.C75_line` | propext, Classical.choice, Quot.sound |
| `MdToc.Props.C75_success` | propext, Classical.choice, Quot.sound |
| `MdToc.Props.C75_exact` | propext, Classical.choice, Quot.sound |
| `MdToc.Props.C75_redcarpet` | propext, Classical.choice, Quot.sound |
| `MdToc.Props.C75_one_line_fails` | propext, Classical.choice, Quot.sound |
| `MdToc.Props.C76_same` | propext, Classical.choice, Quot.sound |
| `MdToc.Props.C76_terminates` | propext, Classical.choice, Quot.sound |
| `MdToc.Props.C76_lists` | propext, Classical.choice, Quot.sound |
| `MdToc.Props.C76_brackets` | propext, Classical.choice, Quot.sound |
| `MdToc.Props.C76_counters` | propext, Classical.choice, Quot.sound |
| `MdToc.Props.C76_ranges` | propext, Classical.choice, Quot.sound |
| `MdToc.Props.C77_extract` | propext, Classical.choice, Quot.sound |
| `MdToc.Props.C77_remove` | propext, Classical.choice, Quot.sound |
| `MdToc.Props.C77_remove_partial` | propext, Classical.choice, Quot.sound |
| `MdToc.Props.C77_violation` | propext, Classical.choice, Quot.sound |
| `MdToc.Props.C77_steps` | propext, Classical.choice, Quot.sound |
| `MdToc.Props.C77_ascending` | propext, Classical.choice, Quot.sound |
| `MdToc.Props.C78_slug_partial` | propext, Classical.choice, Quot.sound |
| `MdToc.Props.C78_success_partial` | propext, Classical.choice, Quot.sound |
| `MdToc.Props.C78_violation` | propext, Classical.choice, Quot.sound |
| `MdToc.Props.C79_same` | propext, Classical.choice, Quot.sound |
| `MdToc.Props.C79_no_exit` | propext, Classical.choice, Quot.sound |
| `MdToc.Props.C79_exit` | propext, Classical.choice, Quot.sound |
| `MdToc.Props.C79_put` | propext, Quot.sound |
| `MdToc.Props.C79_unescape` | propext, Quot.sound |
| `MdToc.Props.C79_code` | propext, Quot.sound |
| `MdToc.Props.C79_code_lines` | propext, Classical.choice, Quot.sound |
| `MdToc.Props.C79_url_leftover` | propext, Classical.choice, Quot.sound |
| `MdToc.Props.C80_outline` | propext, Classical.choice, Quot.sound |
| `MdToc.Props.C80_checked` | propext, Classical.choice, Quot.sound |
| `MdToc.Props.C80_flat` | propext, Classical.choice, Quot.sound |
| `MdToc.Props.C80_unique` | propext, Quot.sound |
| `MdToc.Props.C80_violation` | propext, Classical.choice, Quot.sound |
| `MdToc.Props.C81_link` | propext, Classical.choice, Quot.sound |
| `MdToc.Props.C81_segments` | propext, Classical.choice, Quot.sound |
| `MdToc.Props.C81_redcarpet` | propext, Classical.choice, Quot.sound |
| `MdToc.Props.C82_alone` | propext, Classical.choice, Quot.sound |
| `MdToc.Props.C82_disjoint` | propext, Classical.choice, Quot.sound |
| `MdToc.Props.C82_serial_partial` | propext, Classical.choice, Quot.sound |
| `MdToc.Props.C82_no_marker` | propext, Classical.choice, Quot.sound |
| `MdToc.Props.C82_violation` | propext, Classical.choice, Quot.sound |
| `MdToc.Props.C83_github_commonmarker` | propext, Classical.choice, Quot.sound |
| `MdToc.Props.C83_cmark_goldmark` | propext, Classical.choice, Quot.sound |
| `MdToc.Props.C83_gitlab_text` | propext, Classical.choice, Quot.sound |
| `MdToc.Props.C83_gitlab_links` | propext, Classical.choice, Quot.sound |
| `MdToc.Props.C83_plain` | propext, Classical.choice, Quot.sound |
| `MdToc.Props.C84_exact` | propext, Classical.choice, Quot.sound |
| `MdToc.Props.C84_unchanged` | propext, Classical.choice, Quot.sound |
| `MdToc.Props.C85_comment` | propext, Classical.choice, Quot.sound |
| `MdToc.Props.C85_instruction` | propext, Classical.choice, Quot.sound |
| `MdToc.Props.C85_open_partial` | propext, Classical.choice, Quot.sound |
| `MdToc.Props.C85_open_github` | propext, Classical.choice, Quot.sound |
| `MdToc.Props.C85_close_github` | propext, Classical.choice, Quot.sound |
| `MdToc.Props.C85_close_others` | propext, Classical.choice, Quot.sound |
| `MdToc.Props.C85_declaration_partial` | propext, Classical.choice, Quot.sound |
| `MdToc.Props.C85_cdata_partial` | propext, Classical.choice, Quot.sound |
| `MdToc.Props.C85_lower` | propext, Classical.choice, Quot.sound |
| `MdToc.Props.C85_violation` | propext, Classical.choice, Quot.sound |
| `MdToc.Props.C86_kept_partial` | propext, Classical.choice, Quot.sound |
| `MdToc.Props.C86_plain_partial` | propext, Classical.choice, Quot.sound |
| `MdToc.Props.C86_violation_autolink` | propext, Classical.choice, Quot.sound |
| `MdToc.Props.C86_violation_attribute` | propext, Classical.choice, Quot.sound |
| `MdToc.Props.C87_rename` | propext, Classical.choice, Quot.sound |
| `MdToc.Props.C87_redcarpet` | propext, Classical.choice, Quot.sound |
| `MdToc.Props.C87_places` | propext, Classical.choice, Quot.sound |
| `MdToc.Props.C88_partial` | propext, Classical.choice, Quot.sound |
| `MdToc.Props.C88_lines` | propext, Classical.choice, Quot.sound |
| `MdToc.Props.C88_violation_html` | propext, Classical.choice, Quot.sound |
| `MdToc.Props.C88_violation_fence` | propext, Classical.choice, Quot.sound |
| `MdToc.Props.C88_violation_container` | propext, Classical.choice, Quot.sound |
| `MdToc.Props.C88_violation_item` | propext, Classical.choice, Quot.sound |
| `MdToc.Props.C88_roles_unique` | propext, Classical.choice, Quot.sound |
| `MdToc.Props.C88_roles_exist` | propext, Classical.choice, Quot.sound |
| `MdToc.Props.C89_headings` | propext, Classical.choice, Quot.sound |
| `MdToc.Props.C89_written` | propext, Quot.sound |
| `MdToc.Props.C89_written_redcarpet` | propext, Quot.sound |
| `MdToc.Props.C89_replace` | propext, Classical.choice, Quot.sound |
| `MdToc.Props.C89_layout` | propext, Classical.choice, Quot.sound |
| `MdToc.Props.C89_layout_redcarpet` | propext, Classical.choice, Quot.sound |
| `MdToc.Props.C90_partial` | propext, Classical.choice, Quot.sound |
| `MdToc.Props.C90_exact` | propext, Classical.choice, Quot.sound |
| `MdToc.Props.C90_violation` | propext, Classical.choice, Quot.sound |
| `MdToc.Props.C91_update_check_partial` | propext, Classical.choice, Quot.sound |
| `MdToc.Props.C91_recognisable` | propext, Classical.choice, Quot.sound |
| `MdToc.Props.C91_exact` | propext, Classical.choice, Quot.sound |
| `MdToc.Props.C91_check_exact` | propext, Classical.choice, Quot.sound |
| `MdToc.Props.C91_violation_newline` | propext, Classical.choice, Quot.sound |
| `MdToc.Props.C91_violation_redcarpet` | propext, Classical.choice, Quot.sound |
| `MdToc.Props.C92_stopped_partial` | propext, Classical.choice, Quot.sound |
| `MdToc.Props.C92_resume` | propext, Classical.choice, Quot.sound |
| `MdToc.Props.C92_states` | propext, Classical.choice, Quot.sound |
| `MdToc.Props.C92_violation` | propext, Classical.choice, Quot.sound |
| `MdToc.Props.C93_entries` | propext, Classical.choice, Quot.sound |
| `MdToc.Props.C93_places` | propext, Classical.choice, Quot.sound |
| `MdToc.Props.C93_no_check` | propext, Classical.choice, Quot.sound |
| `MdToc.Props.C93_flat` | propext, Classical.choice, Quot.sound |
| `MdToc.Props.C93_marker` | propext, Classical.choice, Quot.sound |
| `MdToc.Props.C93_newline` | propext, Classical.choice, Quot.sound |
| `MdToc.Props.C93_constant` | propext, Classical.choice, Quot.sound |
| `MdToc.Props.C94_insert` | propext, Classical.choice, Quot.sound |
| `MdToc.Props.C94_one_entry` | propext, Classical.choice, Quot.sound |
| `MdToc.Props.C94_one_line` | propext, Classical.choice, Quot.sound |
| `MdToc.Props.C94_unlisted` | propext, Classical.choice, Quot.sound |
| `MdToc.Props.C94_redcarpet` | propext, Classical.choice, Quot.sound |
| `MdToc.Props.C94_needs` | propext, Classical.choice, Quot.sound |
| `MdToc.Props.C95_shift` | propext, Classical.choice, Quot.sound |
| `MdToc.Props.C95_raise` | propext, Classical.choice, Quot.sound |
| `MdToc.Props.C95_redcarpet` | propext, Classical.choice, Quot.sound |
| `MdToc.Props.C95_needs` | propext, Classical.choice, Quot.sound |
| `MdToc.Props.C96_first_problem` | propext, Classical.choice, Quot.sound |
| `MdToc.Props.C96_exception` | propext, Classical.choice, Quot.sound |
| `MdToc.Props.C96_same` | propext, Classical.choice, Quot.sound |
| `MdToc.Props.C96_marker` | propext, Classical.choice, Quot.sound |
| `MdToc.Props.C96_files` | propext, Classical.choice, Quot.sound |
| `MdToc.Props.C97_join` | propext, Classical.choice, Quot.sound |
| `MdToc.Props.C97_chapters` | propext, Classical.choice, Quot.sound |
| `MdToc.Props.C97_swap` | propext, Classical.choice, Quot.sound |
| `MdToc.Props.C97_redcarpet` | propext, Classical.choice, Quot.sound |
| `MdToc.Props.C97_redcarpet_exists` | propext, Classical.choice, Quot.sound |
| `MdToc.Props.C97_needs` | propext, Classical.choice, Quot.sound |
| `MdToc.Props.C98_names_partial` | propext, Classical.choice, Quot.sound |
| `MdToc.Props.C98_recognisable` | propext, Classical.choice, Quot.sound |
| `MdToc.Props.C98_violation` | propext, Classical.choice, Quot.sound |
| `MdToc.Props.C99_order` | propext, Classical.choice, Quot.sound |
| `MdToc.Props.C99_violation_crlf` | propext, Classical.choice, Quot.sound |
| `MdToc.Props.C99_command` | propext, Classical.choice, Quot.sound |
