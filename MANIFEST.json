{
 "claims": [
  {
   "property": "C01",
   "status": "proved",
   "theorems": [
    "MdToc.Props.C01_duplicates_numbered",
    "MdToc.Props.C01_duplicates_numbered_of_ok",
    "MdToc.Props.C01_equal_slugs_distinct",
    "MdToc.Props.C01_table"
   ],
   "note": "cmark-like parsers; sha1 injective on the slugs of the document"
  },
  {
   "property": "C02",
   "status": "partial",
   "theorems": [
    "MdToc.Props.C02_anchors_unique_partial",
    "MdToc.Props.C02_table_partial",
    "MdToc.Props.C02_violation",
    "MdToc.Props.C02_exact",
    "MdToc.Props.C02_run_exact",
    "MdToc.Props.C02_table_exact"
   ],
   "note": "the full property is false: a, a, a-1 gives two anchors a-1 (C02_violation); C02_exact: anchors repeat exactly if some slug comes more than n times and the slug followed by -n is the slug of a heading"
  },
  {
   "property": "C03",
   "status": "proved",
   "theorems": [
    "MdToc.Props.C03_anchor_alphabet",
    "MdToc.Props.C03_anchor_safe"
   ],
   "note": ""
  },
  {
   "property": "C04",
   "status": "proved",
   "theorems": [
    "MdToc.Props.C04_redcarpet_anchor",
    "MdToc.Props.C04_redcarpet_shape"
   ],
   "note": ""
  },
  {
   "property": "C05",
   "status": "partial",
   "theorems": [
    "MdToc.Props.C05_gitlab_collapse",
    "MdToc.Props.C05_gitlab_final_partial",
    "MdToc.Props.C05_gitlab_run_partial",
    "MdToc.Props.C05_violation",
    "MdToc.Props.C05_run_exact"
   ],
   "note": "the base slug never has two hyphens in a row; the numbered one can (C05_violation), exactly if a slug ending with a hyphen comes twice (C05_run_exact)"
  },
  {
   "property": "C06",
   "status": "proved",
   "theorems": [
    "MdToc.Props.C06_anchors_stable"
   ],
   "note": ""
  },
  {
   "property": "C07",
   "status": "proved",
   "theorems": [
    "MdToc.Props.C07_newlines"
   ],
   "note": ""
  },
  {
   "property": "C08",
   "status": "proved",
   "theorems": [
    "MdToc.Props.C08_recognition",
    "MdToc.Props.C08_levels"
   ],
   "note": ""
  },
  {
   "property": "C09",
   "status": "partial",
   "theorems": [
    "MdToc.Props.C09_heading_text_partial",
    "MdToc.Props.C09_two_runs",
    "MdToc.Props.C09_raw_content_unique",
    "MdToc.Props.C09_violation"
   ],
   "note": "the full property is false when the rest of the line is two runs of hashes (C09_violation)"
  },
  {
   "property": "C10",
   "status": "proved",
   "theorems": [
    "MdToc.Props.C10_brackets_escaped",
    "MdToc.Props.C10_redcarpet_violation"
   ],
   "note": "cmark-like parsers; redcarpet does not escape (C10_redcarpet_violation)"
  },
  {
   "property": "C100",
   "status": "partial",
   "theorems": [
    "MdToc.Props.C100_code_kept_partial",
    "MdToc.Props.C100_violation"
   ],
   "note": "false for every file whose marker stands in a code block (C100_violation)"
  },
  {
   "property": "C101",
   "status": "partial",
   "theorems": [
    "MdToc.Props.C101_lines_partial",
    "MdToc.Props.C101_headers_partial",
    "MdToc.Props.C101_exception",
    "MdToc.Props.C101_has_lines",
    "MdToc.Props.C101_lines_unique",
    "MdToc.Props.C101_violation"
   ],
   "note": "lines hide the headings after them (C101_violation); when exactly is part of the theorems"
  },
  {
   "property": "C102",
   "status": "partial",
   "theorems": [
    "MdToc.Props.C102_exact",
    "MdToc.Props.C102_stable_partial",
    "MdToc.Props.C102_violation"
   ],
   "note": "false if the table stands in the skipped lines (C102_violation); C102_exact: what the next table is; C45 for the other files"
  },
  {
   "property": "C103",
   "status": "partial",
   "theorems": [
    "MdToc.Props.C103_rest_partial",
    "MdToc.Props.C103_behind_partial",
    "MdToc.Props.C103_violation",
    "MdToc.Props.C103_never"
   ],
   "note": "false for tables in the skipped lines with code fences behind them (C103_violation) and for every table that is not recognised (C103_never); proved for the other files"
  },
  {
   "property": "C104",
   "status": "proved",
   "theorems": [
    "MdToc.Props.C104_last_run",
    "MdToc.Props.C104_same_end",
    "MdToc.Props.C104_failures",
    "MdToc.Props.C104_any_table"
   ],
   "note": "by induction over histories of edits and runs; the conditions on the options are part of the property"
  },
  {
   "property": "C105",
   "status": "proved",
   "theorems": [
    "MdToc.Props.C105_move"
   ],
   "note": "the conditions on the options and the places are part of the property"
  },
  {
   "property": "C106",
   "status": "proved",
   "theorems": [
    "MdToc.Props.C106_check"
   ],
   "note": "the conditions on the options and the place are part of the property"
  },
  {
   "property": "C107",
   "status": "proved",
   "theorems": [
    "MdToc.Props.C107_separate",
    "MdToc.Props.C107_each",
    "MdToc.Props.C107_order",
    "MdToc.Props.C107_print",
    "MdToc.Props.C107_failed"
   ],
   "note": "C107_failed: why the claim about the files is for runs that do not fail"
  },
  {
   "property": "C108",
   "status": "proved",
   "theorems": [
    "MdToc.Props.C108_check_files"
   ],
   "note": "the conditions on the options and the places are part of the property"
  },
  {
   "property": "C109",
   "status": "proved",
   "theorems": [
    "MdToc.Props.C109_project",
    "MdToc.Props.C109_same_end"
   ],
   "note": "by induction over histories of edits and commands; the conditions on the options are part of the property"
  },
  {
   "property": "C11",
   "status": "proved",
   "theorems": [
    "MdToc.Props.C11_escaping",
    "MdToc.Props.C11_only_inserts",
    "MdToc.Props.C11_idempotent"
   ],
   "note": ""
  },
  {
   "property": "C110",
   "status": "partial",
   "theorems": [
    "MdToc.Props.C110_alone",
    "MdToc.Props.C110_stopped",
    "MdToc.Props.C110_serial_partial",
    "MdToc.Props.C110_states_partial",
    "MdToc.Props.C110_checks",
    "MdToc.Props.C110_violation"
   ],
   "note": "violated by the code if a command reads a file that another one updates (C110_violation); C110_alone: the steps of one command give the outcome of the sequential model"
  },
  {
   "property": "C111",
   "status": "proved",
   "theorems": [
    "MdToc.Props.C111_anchor",
    "MdToc.Props.C111_documents",
    "MdToc.Props.C111_other_letters"
   ],
   "note": "C111_other_letters: with redcarpet letters outside of ASCII do change the target, as the property says"
  },
  {
   "property": "C112",
   "status": "proved",
   "theorems": [
    "MdToc.Props.C112_anchor",
    "MdToc.Props.C112_documents",
    "MdToc.Props.C112_punctuation"
   ],
   "note": "C112_punctuation for an environment that is as Python for ASCII (Lawful)"
  },
  {
   "property": "C113",
   "status": "proved",
   "theorems": [
    "MdToc.Props.C113_marker",
    "MdToc.Props.C113_replace"
   ],
   "note": "the conditions on the markers and the options are part of the property"
  },
  {
   "property": "C114",
   "status": "proved",
   "theorems": [
    "MdToc.Props.C114_printed"
   ],
   "note": "the conditions on the marker and the options are part of the property"
  },
  {
   "property": "C115",
   "status": "proved",
   "theorems": [
    "MdToc.Props.C115_slug",
    "MdToc.Props.C115_letters",
    "MdToc.Props.C115_redcarpet",
    "MdToc.Props.C115_documents",
    "MdToc.Props.C115_underscores"
   ],
   "note": "the exception for underscores is part of the property"
  },
  {
   "property": "C12",
   "status": "proved",
   "theorems": [
    "MdToc.Props.C12_label_length",
    "MdToc.Props.C12_overflow",
    "MdToc.Props.C12_no_overflow",
    "MdToc.Props.C12_violation"
   ],
   "note": ""
  },
  {
   "property": "C13",
   "status": "partial",
   "theorems": [
    "MdToc.Props.C13_blank_partial",
    "MdToc.Props.C13_violation",
    "MdToc.Props.C13_exact"
   ],
   "note": "see C13_violation; the exact condition is C13_exact"
  },
  {
   "property": "C14",
   "status": "proved",
   "theorems": [
    "MdToc.Props.C14_total",
    "MdToc.Props.C14_one_per_line"
   ],
   "note": ""
  },
  {
   "property": "C15",
   "status": "proved",
   "theorems": [
    "MdToc.Props.C15_redcarpet",
    "MdToc.Props.C15_redcarpet_links"
   ],
   "note": ""
  },
  {
   "property": "C16",
   "status": "proved",
   "theorems": [
    "MdToc.Props.C16_opening",
    "MdToc.Props.C16_unique",
    "MdToc.Props.C16_redcarpet",
    "MdToc.Props.C16_indent"
   ],
   "note": ""
  },
  {
   "property": "C17",
   "status": "proved",
   "theorems": [
    "MdToc.Props.C17_closing",
    "MdToc.Props.C17_document_end",
    "MdToc.Props.C17_closes_own_fence",
    "MdToc.Props.C17_any_fence",
    "MdToc.Props.C17_any_fence_end"
   ],
   "note": ""
  },
  {
   "property": "C18",
   "status": "proved",
   "theorems": [
    "MdToc.Props.C18_content_invisible",
    "MdToc.Props.C18_only_visible_stdin",
    "MdToc.Props.C18_only_visible_closed",
    "MdToc.Props.C18_visible_exists"
   ],
   "note": ""
  },
  {
   "property": "C19",
   "status": "partial",
   "theorems": [
    "MdToc.Props.C19_unclosed_stdin",
    "MdToc.Props.C19_unclosed_file_partial",
    "MdToc.Props.C19_violation",
    "MdToc.Props.C19_file_exact"
   ],
   "note": "proved for the standard input and, for files, when the last line is not a heading; false otherwise (C19_violation); exactly the last line of the file gets out of the block (C19_file_exact)"
  },
  {
   "property": "C20",
   "status": "proved",
   "theorems": [
    "MdToc.Props.C20_other_lines",
    "MdToc.Props.C20_other_lines_redcarpet"
   ],
   "note": ""
  },
  {
   "property": "C21",
   "status": "proved",
   "theorems": [
    "MdToc.Props.C21_entries",
    "MdToc.Props.C21_headings",
    "MdToc.Props.looks_exists"
   ],
   "note": "the lines looked at for headings are those of Spec.SeenLines, which includes the defect of C19 for files"
  },
  {
   "property": "C22",
   "status": "proved",
   "theorems": [
    "MdToc.Props.C22_one_line_each"
   ],
   "note": "character classes agree with ASCII (Env.Lawful)"
  },
  {
   "property": "C23",
   "status": "partial",
   "theorems": [
    "MdToc.Props.C23_levels_partial",
    "MdToc.Props.C23_redcarpet",
    "MdToc.Props.C23_violation"
   ],
   "note": "proved for the cmark-like parsers; redcarpet lists all the levels (C23_redcarpet, C23_violation)"
  },
  {
   "property": "C24",
   "status": "proved",
   "theorems": [
    "MdToc.Props.C24_numbers_checked",
    "MdToc.Props.C24_numbers_coherent",
    "MdToc.Props.C24_always",
    "MdToc.Props.C24_violation"
   ],
   "note": "C24_violation: without the coherence check it is false; C24_always: the numbers of every table"
  },
  {
   "property": "C25",
   "status": "proved",
   "theorems": [
    "MdToc.Props.C25_constant"
   ],
   "note": ""
  },
  {
   "property": "C26",
   "status": "proved",
   "theorems": [
    "MdToc.Props.C26_nested_checked",
    "MdToc.Props.C26_nested_coherent",
    "MdToc.Props.C26_always",
    "MdToc.Props.C26_violation"
   ],
   "note": "C26_violation: without the coherence check it is false; C26_always: the indentation of every table"
  },
  {
   "property": "C27",
   "status": "proved",
   "theorems": [
    "MdToc.Props.C27_redcarpet_indentation"
   ],
   "note": ""
  },
  {
   "property": "C28",
   "status": "proved",
   "theorems": [
    "MdToc.Props.C28_ok_coherent",
    "MdToc.Props.C28_error_incoherent"
   ],
   "note": ""
  },
  {
   "property": "C29",
   "status": "proved",
   "theorems": [
    "MdToc.Props.C29_no_exception",
    "MdToc.Props.C29_no_indentation"
   ],
   "note": ""
  },
  {
   "property": "C30",
   "status": "proved",
   "theorems": [
    "MdToc.Props.C30_skip_lines",
    "MdToc.Props.C30_drop",
    "MdToc.Props.C30_negative"
   ],
   "note": ""
  },
  {
   "property": "C31",
   "status": "proved",
   "theorems": [
    "MdToc.Props.C31_comment",
    "MdToc.Props.C31_no_exception",
    "MdToc.Props.C31_skipped"
   ],
   "note": ""
  },
  {
   "property": "C32",
   "status": "proved",
   "theorems": [
    "MdToc.Props.C32_used_marker",
    "MdToc.Props.C32_valid",
    "MdToc.Props.C32_invalid",
    "MdToc.Props.C32_invalid_error"
   ],
   "note": ""
  },
  {
   "property": "C33",
   "status": "proved",
   "theorems": [
    "MdToc.Props.C33_limit",
    "MdToc.Props.C33_overflow",
    "MdToc.Props.C33_reached"
   ],
   "note": ""
  },
  {
   "property": "C34",
   "status": "proved",
   "theorems": [
    "MdToc.Props.C34_independent",
    "MdToc.Props.C34_default",
    "MdToc.Props.C34_stdin_twice"
   ],
   "note": "the standard input named at most once; named twice it is closed (C34_stdin_twice)"
  },
  {
   "property": "C35",
   "status": "proved",
   "theorems": [
    "MdToc.Props.C35_lines",
    "MdToc.Props.C35_newline_convention"
   ],
   "note": ""
  },
  {
   "property": "C36",
   "status": "proved",
   "theorems": [
    "MdToc.Props.C36_no_marker"
   ],
   "note": ""
  },
  {
   "property": "C37",
   "status": "proved",
   "theorems": [
    "MdToc.Props.C37_outside_preserved",
    "MdToc.Props.C37_cut"
   ],
   "note": "the region is given by Spec.Cut"
  },
  {
   "property": "C38",
   "status": "partial",
   "theorems": [
    "MdToc.Props.C38_twice_partial",
    "MdToc.Props.C38_violation",
    "MdToc.Props.C38_violation_cr",
    "MdToc.Props.C38_always_changed",
    "MdToc.Props.C38_exact"
   ],
   "note": "proved for recognisable strings, one line markers and newline strings LF or CR LF (CR only if no LF follows); false in general (violations); C38_exact, C38_always_changed: the condition is exact"
  },
  {
   "property": "C39",
   "status": "partial",
   "theorems": [
    "MdToc.Props.C39_up_to_date_partial",
    "MdToc.Props.C39_violation",
    "MdToc.Props.C39_exact",
    "MdToc.Props.C39_table_exact",
    "MdToc.Props.C39_never"
   ],
   "note": "proved for recognisable strings without CR; false with CR LF (C39_violation), for tables exactly if there are two entries (C39_table_exact)"
  },
  {
   "property": "C40",
   "status": "proved",
   "theorems": [
    "MdToc.Props.C40_flag",
    "MdToc.Props.C40_meaning"
   ],
   "note": ""
  },
  {
   "property": "C41",
   "status": "proved",
   "theorems": [
    "MdToc.Props.C41_stdin",
    "MdToc.Props.C41_nothing_after"
   ],
   "note": ""
  },
  {
   "property": "C42",
   "status": "proved",
   "theorems": [
    "MdToc.Props.C42_sequence",
    "MdToc.Props.C42_lengths",
    "MdToc.Props.C42_others"
   ],
   "note": ""
  },
  {
   "property": "C43",
   "status": "proved",
   "theorems": [
    "MdToc.Props.C43_states",
    "MdToc.Props.C43_violation"
   ],
   "note": "crash points between the two writes of fpyutils; a crash inside one write is not modelled"
  },
  {
   "property": "C44",
   "status": "partial",
   "theorems": [
    "MdToc.Props.C44_recognisable_partial",
    "MdToc.Props.C44_recognised_partial",
    "MdToc.Props.C44_violation_redcarpet",
    "MdToc.Props.C44_violation_noLinks",
    "MdToc.Props.C44_exact",
    "MdToc.Props.C44_redcarpet_exact",
    "MdToc.Props.C44_noLinks_exact",
    "MdToc.Props.C44_noLinks_stable"
   ],
   "note": "proved for links enabled, LF, cmark-like parsers (or no indentation) and markers that do not look like a list item; false for redcarpet and without links (violations); C44_exact: with links exactly if the first entry is not indented; C44_noLinks_exact: the exact condition without links"
  },
  {
   "property": "C45",
   "status": "proved",
   "theorems": [
    "MdToc.Props.C45_stable",
    "MdToc.Props.C45_second_run",
    "MdToc.Props.C45_run_twice"
   ],
   "note": "header levels at least 1"
  },
  {
   "property": "C46",
   "status": "proved",
   "theorems": [
    "MdToc.Props.C46_codes",
    "MdToc.Props.C46_build_fails",
    "MdToc.Props.C46_print",
    "MdToc.Props.C46_in_place",
    "MdToc.Props.C46_in_place_files",
    "MdToc.Props.C46_violation_stdin"
   ],
   "note": "argument errors (code 2) are in C61"
  },
  {
   "property": "C47",
   "status": "proved",
   "theorems": [
    "MdToc.Props.C47_all_or_nothing"
   ],
   "note": ""
  },
  {
   "property": "C48",
   "status": "proved",
   "theorems": [
    "MdToc.Props.C48_only_tags",
    "MdToc.Props.C48_sublist",
    "MdToc.Props.C48_unchanged",
    "MdToc.Props.C48_redcarpet"
   ],
   "note": ""
  },
  {
   "property": "C49",
   "status": "proved",
   "theorems": [
    "MdToc.Props.C49_only_delimiters"
   ],
   "note": ""
  },
  {
   "property": "C50",
   "status": "proved",
   "theorems": [
    "MdToc.Props.C50_unchanged",
    "MdToc.Props.C50_plain"
   ],
   "note": ""
  },
  {
   "property": "C51",
   "status": "proved",
   "theorems": [
    "MdToc.Props.C51_terminates",
    "MdToc.Props.C51_progress",
    "MdToc.Props.C51_tree_terminates",
    "MdToc.Props.C51_tree_children"
   ],
   "note": "the loops of the model have a fuel; C51_terminates says it is never used up"
  },
  {
   "property": "C52",
   "status": "partial",
   "theorems": [
    "MdToc.Props.C52_no_exception_partial",
    "MdToc.Props.C52_calm_partial",
    "MdToc.Props.C52_escaped_partial",
    "MdToc.Props.C52_violation",
    "MdToc.Props.C52_violation_digit",
    "MdToc.Props.C52_violation_references",
    "MdToc.Props.C52_references_exact",
    "MdToc.Props.C52_brackets_exact",
    "MdToc.Props.C52_tree_harmless"
   ],
   "note": "proved for the texts of Spec.Calm (which contains Spec.Tame) and for texts where all opening brackets are escaped; false in general (violations); C52_references_exact, C52_brackets_exact: the exact condition for texts without inline links"
  },
  {
   "property": "C53",
   "status": "partial",
   "theorems": [
    "MdToc.Props.C53_pairs_partial",
    "MdToc.Props.C53_even_partial",
    "MdToc.Props.C53_violation"
   ],
   "note": "the removed pieces come in pairs but may overlap (C53_violation); they do not if every run can only open or only close (C53_even_partial)"
  },
  {
   "property": "C54",
   "status": "proved",
   "theorems": [
    "MdToc.Props.C54_positions"
   ],
   "note": ""
  },
  {
   "property": "C55",
   "status": "proved",
   "theorems": [
    "MdToc.Props.C55_blank",
    "MdToc.Props.C55_list",
    "MdToc.Props.C55_region"
   ],
   "note": ""
  },
  {
   "property": "C56",
   "status": "proved",
   "theorems": [
    "MdToc.Props.C56_interval",
    "MdToc.Props.C56_newlines",
    "MdToc.Props.C56_empty"
   ],
   "note": ""
  },
  {
   "property": "C57",
   "status": "proved",
   "theorems": [
    "MdToc.Props.C57_exceptions",
    "MdToc.Props.C57_terminates",
    "MdToc.Props.C57_name",
    "MdToc.Props.C57_write_exceptions",
    "MdToc.Props.C35_lines"
   ],
   "note": "determinism: the model is a function; the theorems say of what"
  },
  {
   "property": "C58",
   "status": "proved",
   "theorems": [
    "MdToc.Props.C58_tags_removed",
    "MdToc.Props.C58_limits"
   ],
   "note": "inline HTML without < inside, except in quoted attribute values; for all texts see C84"
  },
  {
   "property": "C59",
   "status": "proved",
   "theorems": [
    "MdToc.Props.C59_emphasis_removed"
   ],
   "note": "phrases between blanks; for nested emphasis see C64"
  },
  {
   "property": "C60",
   "status": "proved",
   "theorems": [
    "MdToc.Props.C60_slug",
    "MdToc.Props.C60_plain"
   ],
   "note": ""
  },
  {
   "property": "C61",
   "status": "proved",
   "theorems": [
    "MdToc.Props.C61_rejected",
    "MdToc.Props.C61_list",
    "MdToc.Props.C61_succeeds"
   ],
   "note": "the splitting of the command line by argparse is trusted"
  },
  {
   "property": "C62",
   "status": "partial",
   "theorems": [
    "MdToc.Props.C62_region_partial",
    "MdToc.Props.C62_violation",
    "MdToc.Props.C62_exact"
   ],
   "note": "false for the lines outside of the region (C62_violation); the positive part states the whole new content; C62_exact: with CR LF all newlines of the file are the chosen ones if and only if there are none outside of the region"
  },
  {
   "property": "C63",
   "status": "proved",
   "theorems": [
    "MdToc.Props.C63_document",
    "MdToc.Props.C63_simple",
    "MdToc.Props.C63_redcarpet"
   ],
   "note": ""
  },
  {
   "property": "C64",
   "status": "proved",
   "theorems": [
    "MdToc.Props.C64_markup_removed",
    "MdToc.Props.C64_no_emphasis"
   ],
   "note": "runs which can both open and close, and pairs of runs of different length, are covered by C49, C53 only; a run behind a character from U+0080 to U+00BF is left out if the character which the code looks at instead makes a difference, see C65"
  },
  {
   "property": "C65",
   "status": "partial",
   "theorems": [
    "MdToc.Props.C65_inside_words_partial",
    "MdToc.Props.C65_violation"
   ],
   "note": "false after characters from U+0080 to U+00BF (C65_violation), unless the character before them is in the word, too"
  },
  {
   "property": "C66",
   "status": "partial",
   "theorems": [
    "MdToc.Props.C66_links_partial",
    "MdToc.Props.C66_violation",
    "MdToc.Props.C66_violation_title"
   ],
   "note": "false for runs without a partner inside of emphasis in the text of a link (C66_violation) and for links with titles in parentheses or with escaped quotes (C66_violation_title); backslashes and references in destinations and titles are left out"
  },
  {
   "property": "C67",
   "status": "partial",
   "theorems": [
    "MdToc.Props.C67_links_partial",
    "MdToc.Props.C67_violation",
    "MdToc.Props.C67_violation_toc"
   ],
   "note": "false for destinations with word characters (C67_violation); the positive part is an equivalence except for gitlab"
  },
  {
   "property": "C68",
   "status": "partial",
   "theorems": [
    "MdToc.Props.C68_append_partial",
    "MdToc.Props.C68_stdin",
    "MdToc.Props.C68_unless",
    "MdToc.Props.C68_violation"
   ],
   "note": "false for files with an unclosed code block whose last line looks like a heading (C68_violation); C68_unless: in no other case; C68_stdin: without exceptions if the shorter document is read from the standard input"
  },
  {
   "property": "C69",
   "status": "partial",
   "theorems": [
    "MdToc.Props.C69_stdin_partial",
    "MdToc.Props.C69_violation",
    "MdToc.Props.C69_exact",
    "MdToc.Props.C19_file_exact"
   ],
   "note": "false for documents with an unclosed code block (C69_violation); C69_exact: the exact condition; their table as a file is the one of the text before the block and the last line (C19_file_exact)"
  },
  {
   "property": "C70",
   "status": "proved",
   "theorems": [
    "MdToc.Props.C70_levels",
    "MdToc.Props.C70_levels_checked",
    "MdToc.Props.C70_redcarpet"
   ],
   "note": ""
  },
  {
   "property": "C71",
   "status": "partial",
   "theorems": [
    "MdToc.Props.C71_no_links_partial",
    "MdToc.Props.C71_iff",
    "MdToc.Props.C71_references_exact",
    "MdToc.Props.C71_violation",
    "MdToc.Props.C71_violation_references",
    "MdToc.Props.C71_redcarpet"
   ],
   "note": "false for headings whose anchor fails without links (C71_violation); C71_iff: exactly in this case; C71_references_exact: for brackets without inline links exactly if a heading has a reference link; for redcarpet fully proved (C71_redcarpet)"
  },
  {
   "property": "C72",
   "status": "partial",
   "theorems": [
    "MdToc.Props.C72_emphasis_partial",
    "MdToc.Props.C72_one_way_partial",
    "MdToc.Props.C72_exact",
    "MdToc.Props.C72_iff",
    "MdToc.Props.C72_not_more",
    "MdToc.Props.C72_total",
    "MdToc.Props.C72_unique",
    "MdToc.Props.C72_pieces",
    "MdToc.Props.C72_pieces_any",
    "MdToc.Props.C72_covers_C64",
    "MdToc.Props.C72_slug_partial",
    "MdToc.Props.C72_violation_bottom",
    "MdToc.Props.C72_violation_both"
   ],
   "note": "false for runs of underscores which both open and close (C72_violation_bottom) and for runs used on both sides (C72_violation_both); otherwise exact (C72_exact, C72_iff)"
  },
  {
   "property": "C73",
   "status": "proved",
   "theorems": [
    "MdToc.Props.C73_replace",
    "MdToc.Props.C73_replace_error",
    "MdToc.Props.C73_compare",
    "MdToc.Props.C73_compare_values",
    "MdToc.Props.C73_compare_swap"
   ],
   "note": ""
  },
  {
   "property": "C74",
   "status": "partial",
   "theorems": [
    "MdToc.Props.C74_sound",
    "MdToc.Props.C74_no_exception",
    "MdToc.Props.C74_found_partial",
    "MdToc.Props.C74_prefix",
    "MdToc.Props.C74_violation"
   ],
   "note": "some names are missed (C74_violation)"
  },
  {
   "property": "C75",
   "status": "proved",
   "theorems": [
    "MdToc.Props.C75_line",
    "MdToc.Props.C75_success",
    "MdToc.Props.C75_exact",
    "MdToc.Props.C75_redcarpet",
    "MdToc.Props.C75_one_line_fails"
   ],
   "note": "C75_exact has no bound on the number of headings"
  },
  {
   "property": "C76",
   "status": "proved",
   "theorems": [
    "MdToc.Props.C76_same",
    "MdToc.Props.C76_terminates",
    "MdToc.Props.C76_lists",
    "MdToc.Props.C76_brackets",
    "MdToc.Props.C76_counters",
    "MdToc.Props.C76_ranges"
   ],
   "note": ""
  },
  {
   "property": "C77",
   "status": "partial",
   "theorems": [
    "MdToc.Props.C77_extract",
    "MdToc.Props.C77_remove",
    "MdToc.Props.C77_remove_partial",
    "MdToc.Props.C77_violation",
    "MdToc.Props.C77_steps",
    "MdToc.Props.C77_ascending"
   ],
   "note": "false for several intervals in the order of the file (C77_violation); C77_steps and C77_ascending say what is removed then; the program removes one interval"
  },
  {
   "property": "C78",
   "status": "partial",
   "theorems": [
    "MdToc.Props.C78_slug_partial",
    "MdToc.Props.C78_success_partial",
    "MdToc.Props.C78_violation"
   ],
   "note": "proved for the heading texts of Spec.Ordinary; false in general (C78_violation)"
  },
  {
   "property": "C79",
   "status": "proved",
   "theorems": [
    "MdToc.Props.C79_same",
    "MdToc.Props.C79_no_exit",
    "MdToc.Props.C79_exit",
    "MdToc.Props.C79_put",
    "MdToc.Props.C79_unescape",
    "MdToc.Props.C79_code",
    "MdToc.Props.C79_code_lines",
    "MdToc.Props.C79_url_leftover"
   ],
   "note": "C79_exit shows that the bound on the length is needed, C79_url_leftover that a destination (not used by the library) keeps characters at its end"
  },
  {
   "property": "C80",
   "status": "proved",
   "theorems": [
    "MdToc.Props.C80_outline",
    "MdToc.Props.C80_checked",
    "MdToc.Props.C80_flat",
    "MdToc.Props.C80_unique",
    "MdToc.Props.C80_violation"
   ],
   "note": "C80_violation shows what is read without the coherence check"
  },
  {
   "property": "C81",
   "status": "proved",
   "theorems": [
    "MdToc.Props.C81_link",
    "MdToc.Props.C81_segments",
    "MdToc.Props.C81_redcarpet"
   ],
   "note": "C81_redcarpet shows that redcarpet has to be left out"
  },
  {
   "property": "C82",
   "status": "partial",
   "theorems": [
    "MdToc.Props.C82_alone",
    "MdToc.Props.C82_disjoint",
    "MdToc.Props.C82_serial_partial",
    "MdToc.Props.C82_no_marker",
    "MdToc.Props.C82_violation"
   ],
   "note": "violated by the code if two processes have the same file (C82_violation); C82_alone: the steps of one process are those of the sequential model"
  },
  {
   "property": "C83",
   "status": "proved",
   "theorems": [
    "MdToc.Props.C83_github_commonmarker",
    "MdToc.Props.C83_cmark_goldmark",
    "MdToc.Props.C83_gitlab_text",
    "MdToc.Props.C83_gitlab_links",
    "MdToc.Props.C83_plain"
   ],
   "note": ""
  },
  {
   "property": "C84",
   "status": "proved",
   "theorems": [
    "MdToc.Props.C84_exact",
    "MdToc.Props.C84_unchanged"
   ],
   "note": "the grammar is Spec/Html.lean; the tables of word characters agree with ASCII (Env.Lawful)"
  },
  {
   "property": "C85",
   "status": "partial",
   "theorems": [
    "MdToc.Props.C85_comment",
    "MdToc.Props.C85_instruction",
    "MdToc.Props.C85_open_partial",
    "MdToc.Props.C85_open_github",
    "MdToc.Props.C85_close_github",
    "MdToc.Props.C85_close_others",
    "MdToc.Props.C85_declaration_partial",
    "MdToc.Props.C85_cdata_partial",
    "MdToc.Props.C85_lower",
    "MdToc.Props.C85_violation"
   ],
   "note": "false in general (C85_violation); the exact conditions for comments and for closing tags; C85_lower: nothing else is removed from the text of an anchor"
  },
  {
   "property": "C86",
   "status": "partial",
   "theorems": [
    "MdToc.Props.C86_kept_partial",
    "MdToc.Props.C86_plain_partial",
    "MdToc.Props.C86_violation_autolink",
    "MdToc.Props.C86_violation_attribute"
   ],
   "note": "false for autolinks with a scheme and for tags with attributes without values (violations); proved for the other kinds"
  },
  {
   "property": "C87",
   "status": "proved",
   "theorems": [
    "MdToc.Props.C87_rename",
    "MdToc.Props.C87_redcarpet",
    "MdToc.Props.C87_places"
   ],
   "note": ""
  },
  {
   "property": "C88",
   "status": "partial",
   "theorems": [
    "MdToc.Props.C88_partial",
    "MdToc.Props.C88_lines",
    "MdToc.Props.C88_violation_html",
    "MdToc.Props.C88_violation_fence",
    "MdToc.Props.C88_violation_container",
    "MdToc.Props.C88_violation_item",
    "MdToc.Props.C88_roles_unique",
    "MdToc.Props.C88_roles_exist"
   ],
   "note": "false for headings and code fences in HTML blocks (violations) and for headings in block quotes and lists"
  },
  {
   "property": "C89",
   "status": "proved",
   "theorems": [
    "MdToc.Props.C89_headings",
    "MdToc.Props.C89_written",
    "MdToc.Props.C89_written_redcarpet",
    "MdToc.Props.C89_replace",
    "MdToc.Props.C89_layout",
    "MdToc.Props.C89_layout_redcarpet"
   ],
   "note": ""
  },
  {
   "property": "C90",
   "status": "partial",
   "theorems": [
    "MdToc.Props.C90_partial",
    "MdToc.Props.C90_exact",
    "MdToc.Props.C90_violation"
   ],
   "note": "false for documents that begin with a heading or a code block (C90_violation); C90_exact says what the table is for all documents"
  },
  {
   "property": "C91",
   "status": "partial",
   "theorems": [
    "MdToc.Props.C91_update_check_partial",
    "MdToc.Props.C91_recognisable",
    "MdToc.Props.C91_exact",
    "MdToc.Props.C91_check_exact",
    "MdToc.Props.C91_violation_newline",
    "MdToc.Props.C91_violation_redcarpet"
   ],
   "note": "false with carriage returns and for redcarpet (violations); C91_exact: the exact condition for the second run to change nothing, for all options; C91_recognisable: the whole statement under this condition; C91_check_exact: the exact condition for the comparison, for all line endings"
  },
  {
   "property": "C92",
   "status": "partial",
   "theorems": [
    "MdToc.Props.C92_stopped_partial",
    "MdToc.Props.C92_resume",
    "MdToc.Props.C92_states",
    "MdToc.Props.C92_violation"
   ],
   "note": "false if the run is stopped between the two writes of one file (C92_violation, C43); proved for all other states"
  },
  {
   "property": "C93",
   "status": "proved",
   "theorems": [
    "MdToc.Props.C93_entries",
    "MdToc.Props.C93_places",
    "MdToc.Props.C93_no_check",
    "MdToc.Props.C93_flat",
    "MdToc.Props.C93_marker",
    "MdToc.Props.C93_newline",
    "MdToc.Props.C93_constant"
   ],
   "note": ""
  },
  {
   "property": "C94",
   "status": "proved",
   "theorems": [
    "MdToc.Props.C94_insert",
    "MdToc.Props.C94_one_entry",
    "MdToc.Props.C94_one_line",
    "MdToc.Props.C94_unlisted",
    "MdToc.Props.C94_redcarpet",
    "MdToc.Props.C94_needs"
   ],
   "note": "C94_needs: without the conditions the entries behind the new heading change"
  },
  {
   "property": "C95",
   "status": "proved",
   "theorems": [
    "MdToc.Props.C95_shift",
    "MdToc.Props.C95_raise",
    "MdToc.Props.C95_redcarpet",
    "MdToc.Props.C95_needs"
   ],
   "note": "C95_needs: indented headings and those of level 6 must be left out"
  },
  {
   "property": "C96",
   "status": "proved",
   "theorems": [
    "MdToc.Props.C96_first_problem",
    "MdToc.Props.C96_exception",
    "MdToc.Props.C96_same",
    "MdToc.Props.C96_marker",
    "MdToc.Props.C96_files"
   ],
   "note": "for a maximum level of at least 1 (else get_atx_heading raises ValueError)"
  },
  {
   "property": "C97",
   "status": "proved",
   "theorems": [
    "MdToc.Props.C97_join",
    "MdToc.Props.C97_chapters",
    "MdToc.Props.C97_swap",
    "MdToc.Props.C97_redcarpet",
    "MdToc.Props.C97_redcarpet_exists",
    "MdToc.Props.C97_needs"
   ],
   "note": "lists without counted numbers, different strings have different hashes; C97_needs: common slugs, deeper first entries and open code blocks must be left out"
  },
  {
   "property": "C98",
   "status": "partial",
   "theorems": [
    "MdToc.Props.C98_names_partial",
    "MdToc.Props.C98_recognisable",
    "MdToc.Props.C98_violation"
   ],
   "note": "false for redcarpet with indentation: a file named twice gets two tables (C98_violation); proved for tables with links of the other parsers and for all tables that are recognised again"
  },
  {
   "property": "C99",
   "status": "proved",
   "theorems": [
    "MdToc.Props.C99_order",
    "MdToc.Props.C99_violation_crlf",
    "MdToc.Props.C99_command"
   ],
   "note": "for tables with links and line feeds, as stated; C99_violation_crlf shows that the newline matters"
  }
 ]
}
