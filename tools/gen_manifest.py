#!/usr/bin/env python3
"""Write MANIFEST.json from the table below; check that every theorem named exists."""
import json
import os
import re

HERE = os.path.dirname(os.path.dirname(os.path.abspath(__file__)))
P = 'MdToc.Props.'

# property: (status, theorems, note)
CLAIMS = {
    'C01': ('proved', 'C01_duplicates_numbered C01_duplicates_numbered_of_ok C01_equal_slugs_distinct C01_table',
            'cmark-like parsers; sha1 injective on the slugs of the document'),
    'C02': ('partial', 'C02_anchors_unique_partial C02_table_partial C02_violation C02_exact C02_run_exact C02_table_exact',
            'the full property is false: a, a, a-1 gives two anchors a-1 (C02_violation); C02_exact: anchors repeat exactly if some slug comes more than n times and the slug followed by -n is the slug of a heading'),
    'C03': ('proved', 'C03_anchor_alphabet C03_anchor_safe', ''),
    'C04': ('proved', 'C04_redcarpet_anchor C04_redcarpet_shape', ''),
    'C05': ('partial', 'C05_gitlab_collapse C05_gitlab_final_partial C05_gitlab_run_partial C05_violation C05_run_exact',
            'the base slug never has two hyphens in a row; the numbered one can (C05_violation), exactly if a slug ending with a hyphen comes twice (C05_run_exact)'),
    'C08': ('proved', 'C08_recognition C08_levels', ''),
    'C09': ('partial', 'C09_heading_text_partial C09_two_runs C09_raw_content_unique C09_violation',
            'the full property is false when the rest of the line is two runs of hashes (C09_violation)'),
    'C10': ('proved', 'C10_brackets_escaped C10_redcarpet_violation', 'cmark-like parsers; redcarpet does not escape (C10_redcarpet_violation)'),
    'C11': ('proved', 'C11_escaping C11_only_inserts C11_idempotent', ''),
    'C12': ('proved', 'C12_label_length C12_overflow C12_no_overflow C12_violation', ''),
    'C13': ('partial', 'C13_blank_partial C13_violation C13_exact', 'see C13_violation; the exact condition is C13_exact'),
    'C14': ('proved', 'C14_total C14_one_per_line', ''),
    'C15': ('proved', 'C15_redcarpet C15_redcarpet_links', ''),
    'C16': ('proved', 'C16_opening C16_unique C16_redcarpet C16_indent', ''),
    'C17': ('proved', 'C17_closing C17_document_end C17_closes_own_fence C17_any_fence C17_any_fence_end', ''),
    'C18': ('proved', 'C18_content_invisible C18_only_visible_stdin C18_only_visible_closed C18_visible_exists', ''),
    'C19': ('partial', 'C19_unclosed_stdin C19_unclosed_file_partial C19_violation C19_file_exact',
            'proved for the standard input and, for files, when the last line is not a heading; false otherwise (C19_violation); exactly the last line of the file gets out of the block (C19_file_exact)'),
    'C20': ('proved', 'C20_other_lines C20_other_lines_redcarpet', ''),
    'C06': ('proved', 'C06_anchors_stable', ''),
    'C07': ('proved', 'C07_newlines', ''),
    'C21': ('proved', 'C21_entries C21_headings looks_exists', 'the lines looked at for headings are those of Spec.SeenLines, which includes the defect of C19 for files'),
    'C22': ('proved', 'C22_one_line_each', 'character classes agree with ASCII (Env.Lawful)'),
    'C23': ('partial', 'C23_levels_partial C23_redcarpet C23_violation', 'proved for the cmark-like parsers; redcarpet lists all the levels (C23_redcarpet, C23_violation)'),
    'C24': ('proved', 'C24_numbers_checked C24_numbers_coherent C24_always C24_violation', 'C24_violation: without the coherence check it is false; C24_always: the numbers of every table'),
    'C25': ('proved', 'C25_constant', ''),
    'C26': ('proved', 'C26_nested_checked C26_nested_coherent C26_always C26_violation', 'C26_violation: without the coherence check it is false; C26_always: the indentation of every table'),
    'C27': ('proved', 'C27_redcarpet_indentation', ''),
    'C28': ('proved', 'C28_ok_coherent C28_error_incoherent', ''),
    'C29': ('proved', 'C29_no_exception C29_no_indentation', ''),
    'C30': ('proved', 'C30_skip_lines C30_drop C30_negative', ''),
    'C31': ('proved', 'C31_comment C31_no_exception C31_skipped', ''),
    'C32': ('proved', 'C32_used_marker C32_valid C32_invalid C32_invalid_error', ''),
    'C33': ('proved', 'C33_limit C33_overflow C33_reached', ''),
    'C34': ('proved', 'C34_independent C34_default C34_stdin_twice', 'the standard input named at most once; named twice it is closed (C34_stdin_twice)'),
    'C35': ('proved', 'C35_lines C35_newline_convention', ''),
    'C36': ('proved', 'C36_no_marker', ''),
    'C37': ('proved', 'C37_outside_preserved C37_cut', 'the region is given by Spec.Cut'),
    'C38': ('partial', 'C38_twice_partial C38_violation C38_violation_cr C38_always_changed C38_exact', 'proved for recognisable strings, one line markers and newline strings LF or CR LF (CR only if no LF follows); false in general (violations); C38_exact, C38_always_changed: the condition is exact'),
    'C39': ('partial', 'C39_up_to_date_partial C39_violation C39_exact C39_table_exact C39_never', 'proved for recognisable strings without CR; false with CR LF (C39_violation), for tables exactly if there are two entries (C39_table_exact)'),
    'C40': ('proved', 'C40_flag C40_meaning', ''),
    'C41': ('proved', 'C41_stdin C41_nothing_after', ''),
    'C42': ('proved', 'C42_sequence C42_lengths C42_others', ''),
    'C43': ('proved', 'C43_states C43_violation', 'crash points between the two writes of fpyutils; a crash inside one write is not modelled'),
    'C44': ('partial', 'C44_recognisable_partial C44_recognised_partial C44_violation_redcarpet C44_violation_noLinks C44_exact C44_redcarpet_exact C44_noLinks_exact C44_noLinks_stable', 'proved for links enabled, LF, cmark-like parsers (or no indentation) and markers that do not look like a list item; false for redcarpet and without links (violations); C44_exact: with links exactly if the first entry is not indented; C44_noLinks_exact: the exact condition without links'),
    'C45': ('proved', 'C45_stable C45_second_run C45_run_twice', 'header levels at least 1'),
    'C46': ('proved', 'C46_codes C46_build_fails C46_print C46_in_place C46_in_place_files C46_violation_stdin', 'argument errors (code 2) are in C61'),
    'C47': ('proved', 'C47_all_or_nothing', ''),
    'C48': ('proved', 'C48_only_tags C48_sublist C48_unchanged C48_redcarpet', ''),
    'C49': ('proved', 'C49_only_delimiters', ''),
    'C50': ('proved', 'C50_unchanged C50_plain', ''),
    'C51': ('proved', 'C51_terminates C51_progress C51_tree_terminates C51_tree_children', 'the loops of the model have a fuel; C51_terminates says it is never used up'),
    'C52': ('partial', 'C52_no_exception_partial C52_calm_partial C52_escaped_partial C52_violation C52_violation_digit C52_violation_references C52_references_exact C52_brackets_exact C52_tree_harmless', 'proved for the texts of Spec.Calm (which contains Spec.Tame) and for texts where all opening brackets are escaped; false in general (violations); C52_references_exact, C52_brackets_exact: the exact condition for texts without inline links'),
    'C53': ('partial', 'C53_pairs_partial C53_even_partial C53_violation', 'the removed pieces come in pairs but may overlap (C53_violation); they do not if every run can only open or only close (C53_even_partial)'),
    'C54': ('proved', 'C54_positions', ''),
    'C55': ('proved', 'C55_blank C55_list C55_region', ''),
    'C56': ('proved', 'C56_interval C56_newlines C56_empty', ''),
    'C57': ('proved', 'C57_exceptions C57_terminates C57_name C57_write_exceptions C35_lines', 'determinism: the model is a function; the theorems say of what'),
    'C58': ('proved', 'C58_tags_removed C58_limits', 'inline HTML without < inside, except in quoted attribute values; for all texts see C84'),
    'C59': ('proved', 'C59_emphasis_removed', 'phrases between blanks; for nested emphasis see C64'),
    'C60': ('proved', 'C60_slug C60_plain', ''),
    'C61': ('proved', 'C61_rejected C61_list C61_succeeds', 'the splitting of the command line by argparse is trusted'),
    'C62': ('partial', 'C62_region_partial C62_violation C62_exact', 'false for the lines outside of the region (C62_violation); the positive part states the whole new content; C62_exact: with CR LF all newlines of the file are the chosen ones if and only if there are none outside of the region'),
    'C63': ('proved', 'C63_document C63_simple C63_redcarpet', ''),
    'C64': ('proved', 'C64_markup_removed C64_no_emphasis', 'runs which can both open and close, and pairs of runs of different length, are covered by C49, C53 only; a run behind a character from U+0080 to U+00BF is left out if the character which the code looks at instead makes a difference, see C65'),
    'C65': ('partial', 'C65_inside_words_partial C65_violation', 'false after characters from U+0080 to U+00BF (C65_violation), unless the character before them is in the word, too'),
    'C66': ('partial', 'C66_links_partial C66_violation C66_violation_title', 'false for runs without a partner inside of emphasis in the text of a link (C66_violation) and for links with titles in parentheses or with escaped quotes (C66_violation_title); backslashes and references in destinations and titles are left out'),
    'C67': ('partial', 'C67_links_partial C67_violation C67_violation_toc', 'false for destinations with word characters (C67_violation); the positive part is an equivalence except for gitlab'),
    'C68': ('partial', 'C68_append_partial C68_stdin C68_unless C68_violation', 'false for files with an unclosed code block whose last line looks like a heading (C68_violation); C68_unless: in no other case; C68_stdin: without exceptions if the shorter document is read from the standard input'),
    'C69': ('partial', 'C69_stdin_partial C69_violation C69_exact C19_file_exact', 'false for documents with an unclosed code block (C69_violation); C69_exact: the exact condition; their table as a file is the one of the text before the block and the last line (C19_file_exact)'),
    'C70': ('proved', 'C70_levels C70_levels_checked C70_redcarpet', ''),
    'C71': ('partial', 'C71_no_links_partial C71_iff C71_references_exact C71_violation C71_violation_references C71_redcarpet', 'false for headings whose anchor fails without links (C71_violation); C71_iff: exactly in this case; C71_references_exact: for brackets without inline links exactly if a heading has a reference link; for redcarpet fully proved (C71_redcarpet)'),
    'C72': ('partial', 'C72_emphasis_partial C72_one_way_partial C72_exact C72_iff C72_not_more C72_total C72_unique C72_pieces C72_pieces_any C72_covers_C64 C72_slug_partial C72_violation_bottom C72_violation_both', 'false for runs of underscores which both open and close (C72_violation_bottom) and for runs used on both sides (C72_violation_both); otherwise exact (C72_exact, C72_iff)'),
    'C73': ('proved', 'C73_replace C73_replace_error C73_compare C73_compare_values C73_compare_swap', ''),
    'C74': ('partial', 'C74_sound C74_no_exception C74_found_partial C74_prefix C74_violation', 'some names are missed (C74_violation)'),
    'C75': ('proved', 'C75_line C75_success C75_exact C75_redcarpet C75_one_line_fails', 'C75_exact has no bound on the number of headings'),
    'C76': ('proved', 'C76_same C76_terminates C76_lists C76_brackets C76_counters C76_ranges', ''),
    'C77': ('partial', 'C77_extract C77_remove C77_remove_partial C77_violation C77_steps C77_ascending', 'false for several intervals in the order of the file (C77_violation); C77_steps and C77_ascending say what is removed then; the program removes one interval'),
    'C78': ('partial', 'C78_slug_partial C78_success_partial C78_violation', 'proved for the heading texts of Spec.Ordinary; false in general (C78_violation)'),
    'C79': ('proved', 'C79_same C79_no_exit C79_exit C79_put C79_unescape C79_code C79_code_lines C79_url_leftover', 'C79_exit shows that the bound on the length is needed, C79_url_leftover that a destination (not used by the library) keeps characters at its end'),
    'C80': ('proved', 'C80_outline C80_checked C80_flat C80_unique C80_violation', 'C80_violation shows what is read without the coherence check'),
    'C81': ('proved', 'C81_link C81_segments C81_redcarpet', 'C81_redcarpet shows that redcarpet has to be left out'),
    'C82': ('partial', 'C82_alone C82_disjoint C82_serial_partial C82_no_marker C82_violation', 'violated by the code if two processes have the same file (C82_violation); C82_alone: the steps of one process are those of the sequential model'),
    'C83': ('proved', 'C83_github_commonmarker C83_cmark_goldmark C83_gitlab_text C83_gitlab_links C83_plain', ''),
    'C84': ('proved', 'C84_exact C84_unchanged', 'the grammar is Spec/Html.lean; the tables of word characters agree with ASCII (Env.Lawful)'),
    'C85': ('partial', 'C85_comment C85_instruction C85_open_partial C85_open_github C85_close_github C85_close_others C85_declaration_partial C85_cdata_partial C85_lower C85_violation', 'false in general (C85_violation); the exact conditions for comments and for closing tags; C85_lower: nothing else is removed from the text of an anchor'),
    'C86': ('partial', 'C86_kept_partial C86_plain_partial C86_violation_autolink C86_violation_attribute', 'false for autolinks with a scheme and for tags with attributes without values (violations); proved for the other kinds'),
    'C87': ('proved', 'C87_rename C87_redcarpet C87_places', ''),
    'C88': ('partial', 'C88_partial C88_lines C88_violation_html C88_violation_fence C88_violation_container C88_violation_item C88_roles_unique C88_roles_exist', 'false for headings and code fences in HTML blocks (violations) and for headings in block quotes and lists'),
    'C89': ('proved', 'C89_headings C89_written C89_written_redcarpet C89_replace C89_layout C89_layout_redcarpet', ''),
    'C90': ('partial', 'C90_partial C90_exact C90_violation', 'false for documents that begin with a heading or a code block (C90_violation); C90_exact says what the table is for all documents'),
    'C91': ('partial', 'C91_update_check_partial C91_recognisable C91_exact C91_check_exact C91_violation_newline C91_violation_redcarpet', 'false with carriage returns and for redcarpet (violations); C91_exact: the exact condition for the second run to change nothing, for all options; C91_recognisable: the whole statement under this condition; C91_check_exact: the exact condition for the comparison, for all line endings'),
    'C92': ('partial', 'C92_stopped_partial C92_resume C92_states C92_violation', 'false if the run is stopped between the two writes of one file (C92_violation, C43); proved for all other states'),
    'C93': ('proved', 'C93_entries C93_places C93_no_check C93_flat C93_marker C93_newline C93_constant', ''),
    'C94': ('proved', 'C94_insert C94_one_entry C94_one_line C94_unlisted C94_redcarpet C94_needs', 'C94_needs: without the conditions the entries behind the new heading change'),
    'C95': ('proved', 'C95_shift C95_raise C95_redcarpet C95_needs', 'C95_needs: indented headings and those of level 6 must be left out'),
    'C96': ('proved', 'C96_first_problem C96_exception C96_same C96_marker C96_files', 'for a maximum level of at least 1 (else get_atx_heading raises ValueError)'),
    'C97': ('proved', 'C97_join C97_chapters C97_swap C97_redcarpet C97_redcarpet_exists C97_needs', 'lists without counted numbers, different strings have different hashes; C97_needs: common slugs, deeper first entries and open code blocks must be left out'),
    'C98': ('partial', 'C98_names_partial C98_recognisable C98_violation', 'false for redcarpet with indentation: a file named twice gets two tables (C98_violation); proved for tables with links of the other parsers and for all tables that are recognised again'),
    'C99': ('proved', 'C99_order C99_violation_crlf C99_command', 'for tables with links and line feeds, as stated; C99_violation_crlf shows that the newline matters'),
    'C100': ('partial', 'C100_code_kept_partial C100_violation', 'false for every file whose marker stands in a code block (C100_violation)'),
    'C101': ('partial', 'C101_lines_partial C101_headers_partial C101_exception C101_has_lines C101_lines_unique C101_violation', 'lines hide the headings after them (C101_violation); when exactly is part of the theorems'),
    'C102': ('partial', 'C102_exact C102_stable_partial C102_violation', 'false if the table stands in the skipped lines (C102_violation); C102_exact: what the next table is; C45 for the other files'),
    'C103': ('partial', 'C103_rest_partial C103_behind_partial C103_violation C103_never', 'false for tables in the skipped lines with code fences behind them (C103_violation) and for every table that is not recognised (C103_never); proved for the other files'),
    'C104': ('proved', 'C104_last_run C104_same_end C104_failures C104_any_table', 'by induction over histories of edits and runs; the conditions on the options are part of the property'),
    'C105': ('proved', 'C105_move', 'the conditions on the options and the places are part of the property'),
    'C106': ('proved', 'C106_check', 'the conditions on the options and the place are part of the property'),
    'C107': ('proved', 'C107_separate C107_each C107_order C107_print C107_failed', 'C107_failed: why the claim about the files is for runs that do not fail'),
    'C108': ('proved', 'C108_check_files', 'the conditions on the options and the places are part of the property'),
    'C110': ('partial', 'C110_alone C110_stopped C110_serial_partial C110_states_partial C110_checks C110_violation', 'violated by the code if a command reads a file that another one updates (C110_violation); C110_alone: the steps of one command give the outcome of the sequential model'),
    'C111': ('proved', 'C111_anchor C111_documents C111_other_letters', 'C111_other_letters: with redcarpet letters outside of ASCII do change the target, as the property says'),
    'C112': ('proved', 'C112_anchor C112_documents C112_punctuation', 'C112_punctuation for an environment that is as Python for ASCII (Lawful)'),
    'C113': ('proved', 'C113_marker C113_replace', 'the conditions on the markers and the options are part of the property'),
    'C114': ('proved', 'C114_printed', 'the conditions on the marker and the options are part of the property'),
    'C115': ('proved', 'C115_slug C115_letters C115_redcarpet C115_documents C115_underscores', 'the exception for underscores is part of the property'),
    'C109': ('proved', 'C109_project C109_same_end', 'by induction over histories of edits and commands; the conditions on the options are part of the property'),
}


def main():
    src = ''
    for d, _, fs in os.walk(os.path.join(HERE, 'lean', 'Verif')):
        if '.lake' in d:
            continue
        for f in fs:
            if f.endswith('.lean'):
                src += open(os.path.join(d, f)).read()
    claims = []
    for pid in sorted(CLAIMS):
        status, names, note = CLAIMS[pid]
        for n in names.split():
            assert re.search(r'theorem ' + re.escape(n) + r'\b', src), n
        claims.append({'property': pid, 'status': status, 'theorems': [P + n for n in names.split()], 'note': note})
    ids = [json.loads(x)['id'] for x in open(os.path.join(HERE, 'properties.jsonl'))]
    print('missing:', [i for i in ids if i not in CLAIMS])
    with open(os.path.join(HERE, 'MANIFEST.json'), 'w') as f:
        json.dump({'claims': claims}, f, indent=1, ensure_ascii=False)
        f.write('\n')


main()
