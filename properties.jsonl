{"id": "C01", "title": "Repeated headings get distinct anchors", "statement": "For the cmark-like parsers (github, cmark, gitlab, commonmarker, goldmark), calling build_anchor_link on a sequence of texts with one shared duplicate counter gives, to the n-th text (counting from 0) with a given base slug s, the anchor s when n=0 and s-n otherwise; in particular two headings with the same base slug never receive the same anchor. The entries of every table of contents have these anchors, where headings that are not listed count as well.", "quantifier": "every finite sequence of heading texts, every prior history of the counter (SHA-1 assumed collision free on the slugs that occur)", "why_tests_cant": "needs all histories of the counter, not a few short ones", "anchors": ["md_toc/api.py:build_anchor_link 936-1030"]}
{"id": "C02", "title": "Anchors are unique inside one table of contents", "statement": "No two entries of one table of contents have the same link target. (The code violates this in general: headings foo, foo, foo-1 give foo, foo-1, foo-1. Proved: the violation, and the exact condition: two anchors are equal exactly if some base slug comes more than n times, n at least 1, and the same slug followed by a hyphen and n is the base slug of a heading.)", "quantifier": "every sequence of headings", "why_tests_cant": "a counterexample needs an adversarial combination of headings; absence of others needs all sequences", "anchors": ["md_toc/api.py:build_anchor_link 1012-1030"]}
{"id": "C03", "title": "Anchor alphabet (cmark-like)", "statement": "Every anchor returned for a cmark-like parser consists only of word characters and hyphens; in particular it contains no space, parenthesis, bracket, quote, angle bracket or newline, so that it cannot break out of the (#...) link target.", "quantifier": "every heading text and counter state", "why_tests_cant": "needs every Unicode string", "anchors": ["md_toc/api.py:anchor_link_punctuation_filter 902-933", "md_toc/api.py:build_anchor_link 978-1030"]}
{"id": "C04", "title": "Redcarpet anchor shape", "statement": "For redcarpet the anchor of a text is: empty for the empty text; otherwise, if at least one character is kept, a string which neither starts nor ends with a hyphen, has no two adjacent hyphens, has only lower-case ASCII, and is obtained by deleting/replacing characters; otherwise part- followed by the hexadecimal of the djb2 hash. It does not depend on, nor modify, the duplicate counter.", "quantifier": "every heading text", "why_tests_cant": "needs every string", "anchors": ["md_toc/api.py:build_anchor_link 1031-1065"]}
{"id": "C05", "title": "GitLab hyphen collapsing", "statement": "For gitlab the base slug never contains two adjacent hyphens. (Violated by the final anchor of duplicates whose base ends with a hyphen; proved: the violation, the base slug claim, and the exact condition: some base slug ends with a hyphen and comes at least twice.)", "quantifier": "every heading text and counter state", "why_tests_cant": "needs every string", "anchors": ["md_toc/api.py:build_anchor_link 997-1000, 1024-1028"]}
{"id": "C06", "title": "Anchors do not depend on keep_header_levels", "statement": "Lowering keep_header_levels only removes entries from the table of contents: the anchor of an entry that stays visible is the one it had with the larger value, because hidden headings are still counted as duplicates.", "quantifier": "every document (list of lines), every pair of keep_header_levels values, cmark-like parsers", "why_tests_cant": "relates two whole runs over an arbitrary document", "anchors": ["md_toc/api.py:get_atx_heading 1172-1176", "md_toc/api.py:get_md_header 1359-1414", "md_toc/api.py:build_toc 340-352"]}
{"id": "C07", "title": "Newlines are rejected in anchors", "statement": "build_anchor_link raises StringCannotContainNewlines exactly when the text still contains a newline (LF, CR or CRLF) after removing leading and trailing ones.", "quantifier": "every string, parser and counter", "why_tests_cant": "needs every string and newline mix", "anchors": ["md_toc/api.py:build_anchor_link 968-969", "md_toc/api.py:replace_and_split_newlines 1070-1088"]}
{"id": "C08", "title": "ATX heading recognition", "statement": "For the cmark-like parsers a line is recognised as a heading of level n exactly when it consists of at most three spaces, n (1..6) # characters, and then either the end of the line or a space (or a tab when the parser is not github/commonmarker).", "quantifier": "every line without interior newlines", "why_tests_cant": "needs every string", "anchors": ["md_toc/api.py:get_atx_heading 1142-1200"]}
{"id": "C09", "title": "ATX heading text", "statement": "For a recognised heading with links disabled, the text equals the CommonMark raw content: leading/trailing spaces and an optional closing # sequence preceded by a space removed. (Violated exactly for contents made of two # runs separated by spaces, e.g. '# # ##', where the code returns the empty text; proved: violation and equality everywhere else.)", "quantifier": "every recognised heading line, five parsers", "why_tests_cant": "the two-run corner is easily missed by tests; equality needs every string", "anchors": ["md_toc/api.py:get_atx_heading 1201-1263"]}
{"id": "C10", "title": "Link label brackets are always escaped", "statement": "With links enabled, in the text of every heading every [ and ] is preceded by an odd number of backslashes and the text does not end with a backslash, so the label cannot be closed early or swallow the closing bracket.", "quantifier": "every heading line, cmark-like parsers", "why_tests_cant": "needs every interleaving of backslashes and brackets", "anchors": ["md_toc/api.py:get_atx_heading 1266-1303"]}
{"id": "C11", "title": "Escaping only adds backslashes", "statement": "With links enabled the heading text is the text obtained with links disabled with (a) one space appended if it ended with a backslash and (b) one backslash inserted before each [ or ] that was not already escaped; nothing is removed or reordered. Escaping is idempotent.", "quantifier": "every heading line", "why_tests_cant": "needs every string", "anchors": ["md_toc/api.py:get_atx_heading 1266-1303"]}
{"id": "C12", "title": "Label length limit", "statement": "With links enabled no entry is produced whose unescaped label is empty or longer than 999 characters (GithubEmptyLinkLabel / GithubOverflowCharsLinkLabel is raised instead). The final, escaped label may however exceed 999 characters (violation proved), at most 1998 characters.", "quantifier": "every heading line", "why_tests_cant": "boundary plus expansion over every string", "anchors": ["md_toc/api.py:get_atx_heading 1268-1279"]}
{"id": "C13", "title": "Blank labels are rejected", "statement": "With links enabled a heading whose text consists only of white space raises GithubEmptyLinkLabel. (Violated: the chained single-character strips let mixed white space such as TAB SPACE TAB through for github; proved: violation; and the exception is raised for every text made of one kind of white space character, and never for a text with a visible character.)", "quantifier": "every heading line", "why_tests_cant": "needs every mix of white space", "anchors": ["md_toc/api.py:get_atx_heading 1271-1275"]}
{"id": "C14", "title": "Heading extraction is total", "statement": "get_atx_heading raises no exception other than ValueError (exactly when keep_header_levels < 1), GithubEmptyLinkLabel and GithubOverflowCharsLinkLabel; with links disabled (and keep_header_levels >= 1) it never raises. In particular its unguarded index accesses are always in range.", "quantifier": "every string, parser and options", "why_tests_cant": "index errors hide on unusual inputs", "anchors": ["md_toc/api.py:get_atx_heading 1091-1356"]}
{"id": "C15", "title": "Redcarpet headings", "statement": "For redcarpet (links disabled) a line is a heading exactly when it starts with 1..6 # (the run cut at 6) followed by a space or the end, and the rest is non-empty after dropping leading spaces and trailing # then trailing spaces; the text is that rest.", "quantifier": "every line", "why_tests_cant": "needs every string", "anchors": ["md_toc/api.py:get_atx_heading 1305-1345"]}
{"id": "C16", "title": "Opening code fence", "statement": "For the cmark-like parsers a line opens a code fence exactly when, after at most three spaces, it starts with at least three backticks or at least three tildes, and in the backtick case has no further backtick; the returned fence is exactly that maximal run.", "quantifier": "every line", "why_tests_cant": "needs every string", "anchors": ["md_toc/api.py:is_opening_code_fence 1440-1513"]}
{"id": "C17", "title": "Closing code fence", "statement": "Away from the end of the document, a line closes a fence f (a run of n>=3 equal fence characters) exactly when after at most three spaces it is a run of at least n of the same character followed only by spaces (or tabs, except for github/commonmarker).", "quantifier": "every line and fence", "why_tests_cant": "needs every string", "anchors": ["md_toc/api.py:is_closing_code_fence 1516-1621"]}
{"id": "C18", "title": "Content of a closed code fence is invisible", "statement": "In a document, replacing the lines strictly between an opening fence and its closing fence by any other lines which do not close that fence leaves the table of contents unchanged.", "quantifier": "every document, every fenced block with a closing fence, every replacement", "why_tests_cant": "relates two runs over arbitrary documents", "anchors": ["md_toc/api.py:build_toc 322-345"]}
{"id": "C19", "title": "Content of an unclosed code fence is invisible", "statement": "Headings after an unclosed opening fence are not listed. (Violated for regular files: the last line is listed when it is a heading; it holds for stdin and for all lines but the last.)", "quantifier": "every document with an unclosed fence", "why_tests_cant": "the defect only shows on the last line and only for files", "anchors": ["md_toc/api.py:build_toc 308-333", "md_toc/api.py:is_closing_code_fence 1573-1584"]}
{"id": "C20", "title": "Non-heading lines do not matter", "statement": "Removing any line that is neither a heading nor a code fence delimiter (outside code fences, not the last line) leaves the table of contents unchanged.", "quantifier": "every document, every such line", "why_tests_cant": "relates two runs over arbitrary documents", "anchors": ["md_toc/api.py:build_toc 300-410"]}
{"id": "C21", "title": "One entry per visible heading, in order", "statement": "When build_toc returns normally its result is the concatenation, in document order, of one line per visible heading outside code fences, each made of indentation spaces, list marker, one space, and [text](#anchor) (or the bare text with links disabled), followed by the newline string.", "quantifier": "every document and options", "why_tests_cant": "quantifies over whole documents", "anchors": ["md_toc/api.py:build_toc 296-436", "md_toc/api.py:build_toc_line_without_indentation 696-769", "md_toc/api.py:build_toc_line 772-803"]}
{"id": "C22", "title": "No stray newlines in the output", "statement": "With newline_string = LF the number of LF characters in the result of build_toc is the number of its entries, i.e. no entry spans two lines.", "quantifier": "every document and options", "why_tests_cant": "needs every document", "anchors": ["md_toc/api.py:build_toc 172-436"]}
{"id": "C23", "title": "Only requested levels are listed", "statement": "For the cmark-like parsers no heading deeper than keep_header_levels is listed and all others are. (Violated by redcarpet, which ignores keep_header_levels.)", "quantifier": "every document, parser and keep_header_levels", "why_tests_cant": "needs every document", "anchors": ["md_toc/api.py:get_atx_heading 1172-1176, 1305-1345"]}
{"id": "C24", "title": "Ordered list numbering", "statement": "With ordered=True and the coherence check enabled, the number of each entry is one plus the number of earlier entries of the same level with no shallower entry in between (its previous siblings). (Violated with no_list_coherence=True: levels 1,2,1,3,2 number the last entry 2; proved.) For all levels, proper or not, an entry right behind one of a smaller level has the number 1, and any other entry one more than the last entry of its level.", "quantifier": "every coherent document", "why_tests_cant": "counter state depends on the whole history", "anchors": ["md_toc/api.py:increase_index_ordered_list 513-552", "md_toc/api.py:build_toc 356-366"]}
{"id": "C25", "title": "Constant ordered list", "statement": "With constant_ordered_list=True every entry is numbered 1 and the list is ordered, whatever ordered and list_marker are.", "quantifier": "every document and options", "why_tests_cant": "needs every document", "anchors": ["md_toc/api.py:build_toc 277-287, 363-366"]}
{"id": "C26", "title": "Indentation nests entries under their parent", "statement": "For the cmark-like parsers with coherent levels, the indentation of an entry of the first level is 0, siblings have equal indentation, and a child is indented by the indentation of its parent plus the width of the parent's marker text (number included) plus one, which is where the parent's content starts. For all levels, proper or not, this holds for an entry right behind one of a smaller level, and any other entry has the indentation of the last entry of its level with no smaller one in between, or 0.", "quantifier": "every coherent document, ordered and unordered", "why_tests_cant": "state depends on the history; widths change at 10, 100, ...", "anchors": ["md_toc/api.py:compute_toc_line_indentation_spaces 584-693"]}
{"id": "C27", "title": "Redcarpet indentation", "statement": "For redcarpet every entry of level n is indented by 4(n-1) spaces.", "quantifier": "every document and options", "why_tests_cant": "needs every document", "anchors": ["md_toc/api.py:compute_toc_line_indentation_spaces 690-693"]}
{"id": "C28", "title": "Coherence exception", "statement": "With indentation and coherence checks enabled, build_toc raises TocDoesNotRenderAsCoherentList only if some visible heading is shallower than the first one or more than one level deeper than its predecessor; and if it returns normally no heading is so.", "quantifier": "every document", "why_tests_cant": "needs every sequence of levels", "anchors": ["md_toc/api.py:build_toc 372-385"]}
{"id": "C29", "title": "Disabling checks or indentation", "statement": "With no_list_coherence=True or no_indentation=True the coherence exception is never raised; with no_indentation=True no entry is indented.", "quantifier": "every document", "why_tests_cant": "needs every document", "anchors": ["md_toc/api.py:build_toc 367-400"]}
{"id": "C30", "title": "skip_lines", "statement": "build_toc with skip_lines=n on a readable document equals build_toc with skip_lines=0 on the document without its first n lines (the empty document if there are fewer); a negative skip_lines raises ValueError.", "quantifier": "every document and n", "why_tests_cant": "needs every document and n", "anchors": ["md_toc/api.py:build_toc 238-239, 288-295"]}
{"id": "C31", "title": "Binary files", "statement": "If decoding fails while reading a file (after the skipped lines), build_toc returns the comment '<!--stop reading FILE: probably a binary file-->' as long as no header raised before, independently of all headings before the failure point.", "quantifier": "every document prefix and failure point", "why_tests_cant": "needs every failure point", "anchors": ["md_toc/api.py:build_toc 297-301, 315-322, 412-416"]}
{"id": "C32", "title": "List marker handling", "statement": "With ordered (or constant_ordered_list) the list marker used is the given one if the parser supports it and the default otherwise, so no ValueError is raised because of it; with an unordered list a ValueError is raised exactly when there is a visible heading (reached) and the marker is not a supported bullet.", "quantifier": "every list_marker string, parser, document", "why_tests_cant": "needs every string", "anchors": ["md_toc/api.py:build_toc 270-287", "md_toc/api.py:compute_toc_line_indentation_spaces 630-650", "md_toc/api.py:build_toc_line_without_indentation 735-750"]}
{"id": "C33", "title": "Ordered list overflow", "statement": "For github, cmark, gitlab and commonmarker no entry is numbered above 999999999: GithubOverflowOrderedListMarker is raised at the first entry that would be; goldmark and redcarpet never raise it. The limit is reached: a document with k headings of level 1 has a table with cmark exactly if k is at most 999999999, with goldmark always.", "quantifier": "every history of the counter", "why_tests_cant": "needs a billion headings to test", "anchors": ["md_toc/api.py:increase_index_ordered_list 545-552"]}
{"id": "C34", "title": "Several files are independent", "statement": "build_multiple_tocs returns exactly the list of the individual results of build_toc, in order, and fails with the first individual failure; no state leaks from one file to the next; the empty list means stdin.", "quantifier": "every list of files", "why_tests_cant": "needs all lists of files", "anchors": ["md_toc/api.py:build_multiple_tocs 439-510"]}
{"id": "C35", "title": "Newline convention independence", "statement": "The table of contents does not depend on the newline convention of the file: replacing every LF by CRLF or by CR in a CR-free text yields the same table of contents.", "quantifier": "every text", "why_tests_cant": "needs every text", "anchors": ["md_toc/api.py:build_toc 253-262"]}
{"id": "C36", "title": "A file without markers is left alone", "statement": "write_string_on_file_between_markers on a file in which no line equals the marker (up to surrounding white space) does not modify the file.", "quantifier": "every file content, string and marker", "why_tests_cant": "needs every file", "anchors": ["md_toc/api.py:write_string_on_file_between_markers 69-132", "md_toc/generic.py:_get_existing_toc 88-155"]}
{"id": "C37", "title": "Text outside the table of contents is preserved", "statement": "After write_string_on_file_between_markers the lines of the file are: the unchanged lines before the (first qualifying) marker, the block marker/blank/string/blank/marker, and the unchanged lines after the replaced region (the single marker line, the qualifying pair of markers with its content, or nothing when no pair qualifies).", "quantifier": "every file content, string and marker", "why_tests_cant": "needs every file and marker layout", "anchors": ["md_toc/api.py:write_string_on_file_between_markers 69-132", "md_toc/generic.py:_get_existing_toc 88-155, _remove_line_intervals 72-85"]}
{"id": "C38", "title": "Writing twice is the same as writing once", "statement": "If the written table of contents is recognisable as such (its first line is a list item not starting with extra white space, or it is blank), then calling write_string_on_file_between_markers a second time with the same arguments does not change the file. (Proved for a marker of one line with a visible character and newline strings LF or CR LF, or CR when no LF follows. The condition is exact: a string that is not recognisable changes every file with a marker at every call; proved, with the links-disabled items whose text starts with a tab as an example. Another violation is proved for CR.)", "quantifier": "every file, string, marker", "why_tests_cant": "needs every file and string", "anchors": ["md_toc/api.py:write_string_on_file_between_markers 69-132", "md_toc/generic.py:_detect_toc_list 234-249"]}
{"id": "C39", "title": "After writing, the file is up to date", "statement": "After write_string_on_file_between_markers on a file with at least one marker, tocs_equal with the same string and marker is True (for recognisable strings). (Violated with CR LF newlines, proved: the file is read back with LF; proved for strings without CR, and for files with one marker that recognisability cannot be left out.)", "quantifier": "every file, string, marker", "why_tests_cant": "needs every file", "anchors": ["md_toc/api.py:tocs_equal 48-66", "md_toc/api.py:write_string_on_file_between_markers 69-132"]}
{"id": "C40", "title": "The returned flag tells whether the file already had this table of contents", "statement": "write_string_on_file_between_markers returns the same value as tocs_equal does before the call, and when it returns True for a file with a qualifying pair of markers, the text between the markers was already the given string up to surrounding white space.", "quantifier": "every file, string, marker", "why_tests_cant": "needs every file", "anchors": ["md_toc/api.py:write_string_on_file_between_markers 104-114", "md_toc/api.py:tocs_equal 48-66"]}
{"id": "C41", "title": "stdin is never written", "statement": "Writing to the file name - raises StdinIsNotAFileToBeWritten and changes nothing; with several files nothing after it is written either.", "quantifier": "every file system state and arguments", "why_tests_cant": "needs every argument list", "anchors": ["md_toc/api.py:write_string_on_file_between_markers 96-97"]}
{"id": "C42", "title": "Writing several files", "statement": "write_strings_on_files_between_markers raises ValueError and touches nothing when the numbers of files and strings differ; otherwise it acts as the sequence of single writes, and returns the conjunction of their results; files that are not named are never modified.", "quantifier": "every list of files and strings, every file system", "why_tests_cant": "needs all lists", "anchors": ["md_toc/api.py:write_strings_on_files_between_markers 135-169"]}
{"id": "C43", "title": "Crash during an in-place write", "statement": "At every crash point of a write, the file is in its original state, in the final state, or in the intermediate state in which the old region was removed and the new block not yet inserted. (So the write is not atomic: in the intermediate state the markers are lost and a further run does nothing; violation proved.)", "quantifier": "every crash point of every write", "why_tests_cant": "crash points cannot be enumerated by unit tests", "anchors": ["md_toc/api.py:write_string_on_file_between_markers 112-130", "md_toc/generic.py:_remove_line_intervals 72-85"]}
{"id": "C44", "title": "Generated tables are recognised", "statement": "A non-empty table of contents generated by build_toc with links enabled (with LF newlines) and written between markers is recognised as an existing table of contents at the next run, whatever the headings are. (Violated by redcarpet, whose first entry can be indented by more than three spaces, and with links disabled; proved. Proved for the cmark-like parsers, or without indentation, and for markers which do not look like a list item; for redcarpet with indentation it holds exactly if the first entry has level 1, and otherwise every in-place run changes the file; with links disabled it holds exactly if something visible follows the first bullet, that is a text which does not start with a blank, or, if the first heading is empty, an entry that is not indented.)", "quantifier": "every document and options", "why_tests_cant": "needs every document", "anchors": ["md_toc/generic.py:_detect_toc_list 234-249", "md_toc/api.py:build_toc 172-436"]}
{"id": "C45", "title": "Writing the table of contents does not change the table of contents", "statement": "Building the table of contents of a file, writing it between the markers of that file and building it again gives the same table of contents (for header levels of at least 1, files in which the table stands behind the skipped lines (see C102) and the code fences before the region and inside it are closed, and markers of one line which are neither headings nor fences), so that a second in-place run leaves the file unchanged.", "quantifier": "every file and options", "why_tests_cant": "end to end over every document", "anchors": ["md_toc/api.py:build_toc 172-436", "md_toc/api.py:write_string_on_file_between_markers 69-132", "md_toc/cli.py:CliToApi.write_toc 54-105"]}
{"id": "C46", "title": "Exit code", "statement": "The command line interface exits with 128 exactly when nothing failed, --diff was given and at least one table of contents differs from the one in its file; with 1 when an exception was raised; with 0 otherwise.", "quantifier": "every outcome and argument combination", "why_tests_cant": "needs all combinations of files and outcomes", "anchors": ["md_toc/__main__.py:main", "md_toc/cli.py:CliToApi.write_toc 54-105"]}
{"id": "C47", "title": "In-place runs build everything before writing anything", "statement": "If building the table of contents of any of the files fails, an in-place run modifies no file.", "quantifier": "every list of files and file system", "why_tests_cant": "needs all failure positions", "anchors": ["md_toc/cli.py:CliToApi.write_toc 70-96"]}
{"id": "C48", "title": "HTML removal only deletes", "statement": "remove_html_tags only deletes pieces that start with < and end with >: its result is a subsequence of its input, a text without < or without > is returned unchanged; redcarpet returns the input unchanged.", "quantifier": "every string and parser", "why_tests_cant": "needs every string", "anchors": ["md_toc/api.py:remove_html_tags 806-830", "md_toc/constants.py 67-291"]}
{"id": "C49", "title": "Emphasis removal only deletes delimiters", "statement": "When remove_emphasis returns, its result is the input without NUL characters and with some * and _ characters deleted; every other character is kept, in order.", "quantifier": "every string", "why_tests_cant": "needs every string", "anchors": ["md_toc/api.py:remove_emphasis 833-879", "md_toc/cmark/inlines_c.py"]}
{"id": "C50", "title": "Plain text is untouched by emphasis removal", "statement": "A text without any * or _ is returned unchanged (up to NUL characters) whenever remove_emphasis returns; a text made only of characters without special meaning is always returned unchanged.", "quantifier": "every string", "why_tests_cant": "needs every string", "anchors": ["md_toc/api.py:remove_emphasis 833-879"]}
{"id": "C51", "title": "Emphasis removal terminates", "statement": "The inline parser always terminates: every step of its main loop consumes input and the emphasis matching loop ends.", "quantifier": "every string", "why_tests_cant": "termination cannot be tested", "anchors": ["md_toc/cmark/inlines_c.py:_cmark_parse_inline 2066-2129, _cmark_process_emphasis 862-954"]}
{"id": "C52", "title": "Emphasis removal does not crash", "statement": "remove_emphasis raises no exception. (Violated: KeyError for '[a][b]' and every other text with a reference link, '[a](b \"t\"' IndexError, 'aĀ' IndexError, '`a CR`' IndexError, '&#x' followed by a non-ASCII digit ValueError; proved. Proved: no exception for every text without CR and U+0100, in which & comes only with ASCII digits, ][ does not occur and every ]( is followed by a plain destination and a closing parenthesis.)", "quantifier": "every string", "why_tests_cant": "crashes hide on rare inputs", "anchors": ["md_toc/cmark/inlines_c.py:_cmark_link_label 1220-1261, _cmark_handle_close_bracket 1334-1495, _cmark_subject_find_special_char 1521-2059, _cmark_S_normalize_code 571-598", "md_toc/cmark/houdini_html_u_c.py"]}
{"id": "C53", "title": "Matched emphasis delimiters are removed in pairs", "statement": "The emphasis delimiters removed from a text come in pairs: as many at openers as at closers, each removed range lies within its own delimiter run. (Violated in detail: when one run is first used as closer and then as opener the wrong characters are dropped, '*a***b**' gives 'a*b'; proved.)", "quantifier": "every string", "why_tests_cant": "needs every nesting", "anchors": ["md_toc/cmark/inlines_c.py:_cmark_remove_emph 958-1046"]}
{"id": "C54", "title": "Removing index ranges", "statement": "filter_indices_from_line removes exactly the characters whose index lies in one of the ranges and keeps the others in order.", "quantifier": "every string and list of ranges (overlapping, empty, out of bounds)", "why_tests_cant": "needs every list of ranges", "anchors": ["md_toc/api.py:filter_indices_from_line 882-899"]}
{"id": "C55", "title": "Blank region detection", "statement": "Between two markers a region is regarded as blank exactly when it consists of spaces, tabs and vertical tabs only; it is regarded as a table of contents exactly when, leaving out its first and last line, it starts with at most three spaces, a bullet or digits followed by . or ), one space, and then not a space, tab or vertical tab.", "quantifier": "every region", "why_tests_cant": "regular expressions over every string", "anchors": ["md_toc/generic.py:_string_empty 223-231, _detect_toc_list 234-249, _read_line_interval 252-301, _get_existing_toc 88-155"]}
{"id": "C56", "title": "Line interval extraction", "statement": "Reading the lines from a to b of a text with LF newlines gives the concatenation of exactly these lines without their newlines (nothing when a > b or a < 1).", "quantifier": "every text and interval", "why_tests_cant": "needs every text", "anchors": ["md_toc/generic.py:_read_line_interval 252-301"]}
{"id": "C57", "title": "Termination and determinism of a whole run", "statement": "build_toc terminates on every finite input and its result is a function of the file content, the file name and the options alone.", "quantifier": "every input", "why_tests_cant": "termination cannot be tested", "anchors": ["md_toc/api.py:build_toc 172-436"]}
{"id": "C58", "title": "HTML tags disappear from anchors", "statement": "For the cmark-like parsers remove_html_tags deletes exactly the inline HTML from a text whose only < characters start opening, closing or self-closing tags with attributes of any form, or comments, processing instructions, declarations and CDATA sections as the library has them; github and commonmarker keep the tags of the tag filter extension.", "quantifier": "every text made of characters other than < and of such tags", "why_tests_cant": "needs every sequence of tags and attributes", "anchors": ["md_toc/api.py:remove_html_tags 806-830", "md_toc/constants.py:parser 'html' regexes"]}
{"id": "C59", "title": "Emphasis markup disappears from anchors", "statement": "In a text without other special characters, every phrase enclosed in runs of * or _ of equal length, which starts and ends with a word character and stands between blanks or ends of the text, loses exactly its delimiters; everything else stays, and no exception is raised.", "quantifier": "every text, every number and length of phrases and runs", "why_tests_cant": "needs every text and run length", "anchors": ["md_toc/api.py:remove_emphasis 833-879", "md_toc/cmark/inlines_c.py:_cmark_scan_delims 630-703, _cmark_process_emphasis 862-954, _cmark_remove_emph 958-1046"]}
{"id": "C60", "title": "The slug of a heading", "statement": "For the cmark-like parsers, the first anchor of a heading is its text in lower case, without HTML tags and without the delimiters of emphasis (also nested or in the text of links, see C64 and C66), with spaces turned into hyphens and all other characters except word characters and hyphens dropped; gitlab also merges runs of hyphens.", "quantifier": "every heading text made of plain text, tags, emphasis, links, code spans and escaped characters", "why_tests_cant": "needs every text", "anchors": ["md_toc/api.py:build_anchor_link 936-1067, anchor_link_punctuation_filter 902-933"]}
{"id": "C61", "title": "Command line options", "statement": "A command line with an unknown parser name, a list marker which the parser does not have, header levels outside of 1 to 6, an unknown newline string or conflicting options exits with 2, prints no table and modifies no file. Every other command line is accepted and its list has the marker, the newline, the maximum level, the links and the skipped lines that were asked for (defaults: '-', '.', LF, 6, links, 0); for redcarpet and readable files it exits with 0.", "quantifier": "every combination of options and values, every file", "why_tests_cant": "needs every combination of options and documents", "anchors": ["md_toc/cli.py:CliInterface.create_parser 108-387, CliToApi.write_toc 54-105", "md_toc/__main__.py:main"]}
{"id": "C62", "title": "Newline option in place", "statement": "An in-place run with --newline-string replaces all newlines of the file with that string, as its help text says. (Violated: only the newlines of the table and its markers are the chosen ones, the lines outside are kept as they are; proved, together with the exact content of the file after the run; so with CR LF all newlines are the chosen ones if and only if there are none outside of the region, which is proved, too. Depends on the trusted model of fpyutils.)", "quantifier": "every file and options", "why_tests_cant": "needs every document", "anchors": ["md_toc/cli.py:CliInterface.create_parser 350-362", "md_toc/api.py:write_string_on_file_between_markers 69-132"]}
{"id": "C63", "title": "The table of contents of an ordinary document", "statement": "For a document whose headings have a visible text of at most 999 characters made of plain text, tags, emphasis, links, code spans and escaped characters, and whose listed levels form a proper list (or with the check or the indentation off), build_toc raises no exception. The result has one line per heading up to the requested level, in order, with the heading text and its slug, followed by -1, -2, ... for slugs that came before; it is numbered 1, 2, ... among siblings if ordered and indented below the content of the parent. In particular this holds for documents made of ASCII headings, text lines and code blocks. For redcarpet it holds for every document and all headings.", "quantifier": "every such document, all options", "why_tests_cant": "needs every document", "anchors": ["md_toc/api.py:build_toc 172-436, build_anchor_link 936-1067, get_atx_heading 1091-1356, build_toc_line 772-803"]}
{"id": "C64", "title": "Nested emphasis, code spans and escapes", "statement": "In a text made of plain characters, backslash escapes, code spans and runs of * or _, where by the CommonMark rules every run can at most open or at most close emphasis, and the opening and closing runs form pairs of equal character and length (nested in any way), remove_emphasis removes exactly these runs. Code spans with their content, escaped characters, runs inside words or between blanks, runs without a partner, square brackets, &, < and inline HTML stay, and no exception is raised.", "quantifier": "every such text, any depth of nesting, any length of runs and code spans", "why_tests_cant": "needs every nesting", "anchors": ["md_toc/api.py:remove_emphasis 833-879", "md_toc/cmark/inlines_c.py:_cmark_scan_delims 630-703, _cmark_handle_backticks 525-626, _cmark_handle_backslash 1141-1155, _cmark_process_emphasis 862-954, _cmark_remove_emph 958-1046"]}
{"id": "C65", "title": "Underscores inside words", "statement": "Underscores inside a word, as in snake_case, are no emphasis and are kept. (Violated for words with characters from U+0080 to U+00BF before the underscore: 'in µ_m_' loses its underscores, because the code looks at the character before the micro sign; proved. Proved for all texts of plain characters and underscores inside words in which the nearest earlier character outside of that range is in a word, too.)", "quantifier": "every text of plain characters and underscores inside words", "why_tests_cant": "needs every text", "anchors": ["md_toc/cmark/inlines_c.py:_cmark_scan_delims 630-703", "md_toc/api.py:remove_emphasis 833-879"]}
{"id": "C66", "title": "Emphasis does not cross the border of the text of a link", "statement": "Links bind more tightly than emphasis: in a text with links, the emphasis in the text of a link and the emphasis outside of it are removed independently of each other, and destinations and brackets are left as they are. (Violated: '_a [*b c_ d* e_](u)' loses the first and the last underscore, because a run without a partner in the text of the link moves the end of the search, and '[*a](b (t)) c*' loses both asterisks, because titles in parentheses are not read; proved. Proved for destinations, also in pointy brackets, and titles in quotes, if such runs stand outside of the emphasis in the text of the link.)", "quantifier": "every text with any number of links, any nesting of emphasis in their texts and around them, and destinations with balanced parentheses", "why_tests_cant": "needs every nesting", "anchors": ["md_toc/cmark/inlines_c.py:_cmark_handle_close_bracket 1334-1495, _cmark_process_emphasis 862-954", "md_toc/api.py:remove_emphasis 833-879"]}
{"id": "C67", "title": "The slug of a heading with links", "statement": "The first anchor of a heading with links is the one of the text that a reader sees, that is of the heading with each link replaced by its text. (Violated: '[foo](bar)' gets the anchor 'foobar', the destination becomes part of it; proved. Proved: it holds exactly if the destinations have no characters that may occur in an anchor; gitlab: it holds in that case.)", "quantifier": "every heading text made of plain text, tags, emphasis, links, code spans and escaped characters", "why_tests_cant": "needs every text", "anchors": ["md_toc/api.py:build_anchor_link 936-1067, anchor_link_punctuation_filter 902-933"]}
{"id": "C68", "title": "Appending lines only extends the table", "statement": "If lines are appended to a document and the table of the longer document can be built, then the table of the shorter document can be built as well, and the longer table starts with it. (Violated for files with an unclosed code block: its last line is read as a heading as long as nothing follows; proved. Proved for all other documents and for the standard input, and that nothing else goes wrong: the longer table always starts with that of the shorter document on the standard input, and a violation needs a shorter document whose last line stands in an unclosed code block and looks like a heading that is listed or raises an exception.)", "quantifier": "every document, every appended lines, all options", "why_tests_cant": "relates the results of two runs, for every pair of documents", "anchors": ["md_toc/api.py:build_toc 172-436"]}
{"id": "C69", "title": "Files and standard input", "statement": "A document has the same table, or raises the same exception, whether it is read from a file or from the standard input. (Violated for documents with an unclosed code block; proved, with the exact condition: the results differ if and only if the document has a table on the standard input and its last line stands in an unclosed code block and looks like a heading that is listed or raises an exception.)", "quantifier": "every document and all options", "why_tests_cant": "relates the results of two runs, for every document", "anchors": ["md_toc/api.py:build_toc 172-436"]}
{"id": "C70", "title": "A smaller maximum level", "statement": "If a table can be built and its levels form a proper list (which is the case if the check is on), then it can also be built with a smaller keep_header_levels, and the lines of the smaller table are exactly the lines of the larger table of the headings up to that level, with the same texts, anchors, numbers and indentation. (For redcarpet the limit has no effect.)", "quantifier": "every document, all options, all pairs of limits", "why_tests_cant": "relates the results of two runs, for every document", "anchors": ["md_toc/api.py:build_toc 172-436, increase_index_ordered_list 513-552, compute_toc_line_indentation_spaces 584-693"]}
{"id": "C71", "title": "A table without links", "statement": "With no_links the table lists the same headings with the same numbers and indentation, and their plain text instead of a link. (Violated: for the heading '[a][b]' the table with links is built and without links KeyError is raised, the same for every document with a reference link in a heading; proved. Proved if both tables are built, for the cmark-like parsers.)", "quantifier": "every document, all options", "why_tests_cant": "relates the results of two runs, for every document", "anchors": ["md_toc/api.py:build_toc 172-436, get_atx_heading 1091-1356, build_anchor_link 936-1067"]}
{"id": "C72", "title": "Emphasis is matched as in CommonMark", "statement": "remove_emphasis removes exactly the delimiters that the 'process emphasis' procedure of CommonMark uses, for runs of any lengths, matched or not: nearest opening run of the same character, the multiple-of-3 rule, two characters at a time for strong emphasis, runs between the two are out. (Violated: '__a (_) b__' is left unchanged, because one lower bound is kept for all closing runs of underscores, and '*a***b**' becomes 'a*b', because a run used on both sides loses too few characters; proved. Proved for all texts in which runs of underscores do not open and close at the same time: the runs are matched as in CommonMark, the result is the one of CommonMark exactly if no run is used on both sides without being long enough, and never more is removed.)", "quantifier": "every text made of plain characters, escapes, code spans and runs of * or _ of any length", "why_tests_cant": "needs every sequence of runs", "anchors": ["md_toc/cmark/inlines_c.py:_cmark_process_emphasis 862-954, _cmark_remove_emph 958-1046, _cmark_scan_delims 630-703", "md_toc/api.py:remove_emphasis 833-879"]}
{"id": "C73", "title": "String helpers", "statement": "Replacing the part of a string between two positions keeps everything before the first and after the second position and puts the replacement in between once; it fails with ValueError exactly if the positions are in the wrong order. The comparison of the first n characters of two strings returns 0 exactly if they are equal, otherwise -1 or 1 by their number and then by the first different character, and changes its sign when the strings are exchanged.", "quantifier": "every string and position", "why_tests_cant": "needs every string", "anchors": ["md_toc/generic.py:_replace_substring 158-184, _strncmp 189-220"]}
{"id": "C74", "title": "Search for named entities", "statement": "The search in the table of HTML entities ends, never leaves the table and needs a number of nested calls logarithmic in the size of the table; what it returns is the text of the entity with that name; and every entity of a sorted table is found. (The last part is violated: a name is missed if a longer name starts with it or a shorter one comes behind it on the way; proved. Proved for names where neither is the case. The result has no effect on tables of contents: all other theorems hold for any set of entities.)", "quantifier": "every sorted table and name", "why_tests_cant": "needs every table and name", "anchors": ["md_toc/cmark/houdini_html_u_c.py:_cmark_S_lookup 41-64, _cmark_S_lookup_entity 68-72", "md_toc/generic.py:_strncmp 189-220"]}
{"id": "C75", "title": "When a table is built", "statement": "build_toc returns a table exactly if the number of skipped lines is not negative, the maximum level is positive (or there is nothing to read), every heading can be read, the list marker is valid (or there is nothing to list) and, unless the check is off, the listed levels form a proper list, and no number of an ordered list is above the limit of the parser. A heading can be read exactly if its anchor can be computed and, with links, its label is not empty and at most 999 characters long. So a single heading that cannot be read, even one below the maximum level, prevents the whole table.", "quantifier": "every document, all options", "why_tests_cant": "an equivalence over every document and all options", "anchors": ["md_toc/api.py:build_toc 172-436, get_md_header 1359-1414, get_atx_heading 1091-1356, build_anchor_link 936-1067"]}
{"id": "C76", "title": "The linked lists of the inline parser", "statement": "remove_emphasis never fails because of its linked lists of delimiters and brackets: in every state the delimiters are met in the order of the text when following 'next' and in the reverse order from the last one when following 'previous', each once; the brackets likewise; every delimiter in the list covers a run of its character in the text, of which something is left, and what is left and what was used make the whole run; the loops over the lists end; afterwards both lists are empty and every removed range is a non-empty part of the text, without negative bounds. The result is the one of a program with plain lists.", "quantifier": "every text and every state of the parser on it", "why_tests_cant": "an invariant of a mutable structure for every history of insertions and removals", "anchors": ["md_toc/cmark/inlines_c.py:_cmark_remove_delimiter 707-719, _cmark_pop_bracket 723, _cmark_push_delimiter 734-746, _cmark_push_bracket 749-767, _cmark_handle_delim 772-800, _cmark_process_emphasis 862-954, _cmark_remove_emph 958-1046, _cmark_handle_close_bracket 1334-1495", "md_toc/api.py:remove_emphasis 833-879"]}
{"id": "C77", "title": "Intervals of lines", "statement": "Extracting the lines from a to b returns exactly these lines, as far as they exist, and fails with ValueError exactly if the bounds are wrong. Removing intervals of lines removes exactly the lines in the intervals and leaves the others as they are. (Violated for several intervals in the order of the file, as in the comment of the code: the second one is counted without the lines already removed; proved. Proved for one interval, the only case in the program, and for intervals from the end of the file to its beginning; in general each interval removes its lines of the file as the ones before have left it, so that intervals in the order of the file remove these intervals moved down by the lines already removed.)", "quantifier": "every file, all bounds and lists of intervals", "why_tests_cant": "needs every file and interval", "anchors": ["md_toc/generic.py:_extract_lines 53-69, _remove_line_intervals 72-85"]}
{"id": "C78", "title": "With links, brackets in headings do no harm", "statement": "With links enabled, no heading text makes build_toc fail because of its square brackets, references, destinations or titles: a document has a table exactly if the labels are neither empty nor longer than 999 characters and the options and levels are right. (Violated: the heading '\\<i>[a\\<i>](b \"t\"' raises IndexError, because removing a tag behind a backslash undoes the escaping; proved. Proved for the cmark-like parsers and all texts without null characters, without '[' right behind '>' (or behind '>' and backslashes) where a '<' right behind a backslash comes before, and, if they have an '&', without digits outside of ASCII.)", "quantifier": "every document with such headings, all options", "why_tests_cant": "needs every text", "anchors": ["md_toc/api.py:build_toc 172-436, get_atx_heading 1091-1356, build_anchor_link 936-1067, remove_emphasis 833-879, remove_html_tags 806-830", "md_toc/cmark/inlines_c.py:_cmark_handle_close_bracket 1334-1495"]}
{"id": "C79", "title": "The string buffers of the inline parser", "statement": "remove_emphasis is not affected by the sizes and contents of the string buffers that collect code spans, references, destinations, titles and autolinks: for every text of at most 2^26 - 1 characters the result, or the exception, is the one of a program without them, and the process does not exit. (The bound cannot be left out: a code span of 2^30 characters ends the process; proved.) Putting a text into a buffer appends it; removing backslashes fails exactly on texts that end with a backslash that escapes nothing, and otherwise the buffer starts with the text without them; a code span keeps its content, with spaces for the line ends.", "quantifier": "every text up to the bound, every buffer", "why_tests_cant": "needs every text, including lengths no test can use", "anchors": ["md_toc/cmark/buffer_c.py:_cmark_cmark_strbuf_grow 72-106, _cmark_cmark_strbuf_set 119-130, _cmark_cmark_strbuf_putc 138-143, _cmark_cmark_strbuf_put 150-178, _cmark_cmark_strbuf_detach 189-198, _cmark_cmark_strbuf_truncate 227-232, _cmark_cmark_strbuf_drop 239-248, _cmark_cmark_strbuf_unescape 306-343", "md_toc/cmark/inlines_c.py:_cmark_S_normalize_code 571-600, _cmark_handle_backticks 604-626, _cmark_cmark_clean_url 1181-1189", "md_toc/cmark/houdini_html_u_c.py:_cmark_houdini_unescape_html 150-187", "md_toc/api.py:remove_emphasis 833-879"]}
{"id": "C80", "title": "The table is read as the outline of the headings", "statement": "For the parsers that follow CommonMark, a table with links and with indentation is a nested list by the rules of CommonMark for list items (columns of contents, lists that interrupt a text, numbers of at most nine digits, code blocks by four spaces): its lines are read in exactly one way, as the entries in order, each one in the depth given by the level of its heading below that of the first one. This holds for all documents with the coherence check, and without it for the documents whose listed levels are coherent. Without indentation all the entries are read as one list. (Without the check and with levels 1, 3, 2 the last entry is read beside the first one; proved.)", "quantifier": "every document, all options with links and all parsers except redcarpet", "why_tests_cant": "needs every sequence of headings and every width of numbers", "anchors": ["md_toc/api.py:build_toc 172-436, compute_toc_line_indentation_spaces 584-693, build_toc_line_without_indentation 696-769, build_toc_line 772-803, increase_index_ordered_list 513-552"]}
{"id": "C81", "title": "Each entry is one link", "statement": "For the parsers that follow CommonMark and with links, a reader of the content of an entry finds exactly one link that takes up all of it: its text, read up to the first bracket that is not escaped, is the label, and its destination is '#' with the anchor. No code span, autolink or HTML tag that starts in the label can hide the end of the link, because nothing behind the label has a backtick or a closing pointy bracket. (For redcarpet brackets are not escaped, and the heading 'a [b' gives an entry without such a link; proved.)", "quantifier": "every entry of every table, all options with links and all parsers except redcarpet", "why_tests_cant": "needs every heading text", "anchors": ["md_toc/api.py:build_toc 172-436, build_toc_line_without_indentation 696-769, get_atx_heading 1091-1356, build_anchor_link 936-1067"]}
{"id": "C82", "title": "Concurrent runs", "statement": "If several processes write tables into files at the same time then, in any order of their reads and writes, each file ends as if the processes had run one after the other, and a process that is stopped leaves one of the states of the sequential program. (Violated for processes with the same file: for every file with a table and enough lines behind it there is a schedule where both end without an error, the lines behind the table are lost and the file has two tables; proved. Proved for processes with different files, with any number of processes and files, and for files without markers, which no schedule changes.)", "quantifier": "every schedule of any number of processes, every file system and list of files", "why_tests_cant": "needs every interleaving of the reads and writes", "anchors": ["md_toc/api.py:write_string_on_file_between_markers 69-132, write_strings_on_files_between_markers 135-169", "md_toc/generic.py:_get_existing_toc 88-155, _remove_line_intervals 72-85"]}
{"id": "C83", "title": "Parsers with the same rules give the same tables", "statement": "For every document and all other options: github and commonmarker give the same result, table or exception; cmark and goldmark give the same result, except that only cmark can fail because of list numbers with more than nine digits; cmark and gitlab give the same result without links, and with links the same exception or tables which are the same line by line up to the anchors; github and cmark give the same result for documents without tabs and without '<'.", "quantifier": "every document, all options", "why_tests_cant": "needs every document and all options, for pairs of runs", "anchors": ["md_toc/api.py:build_toc 172-436, get_atx_heading 1091-1356, is_opening_code_fence 1440-1513, is_closing_code_fence 1516-1621, build_anchor_link 936-1067, remove_html_tags 806-830, increase_index_ordered_list 513-552", "md_toc/constants.py:parser 228-291"]}
{"id": "C84", "title": "Inline HTML is removed exactly", "statement": "For the cmark-like parsers, remove_html_tags of any text is the text from which, one kind after the other and each time from the left to the right, all opening tags, closing tags, comments, processing instructions, declarations and CDATA sections are taken out, and nothing else; where one starts, it ends in only one way, so that the result is unique. A text is returned unchanged exactly if no part of it is inline HTML.", "quantifier": "every text, every class of word characters that agrees with ASCII", "why_tests_cant": "needs every text", "anchors": ["md_toc/api.py:remove_html_tags 806-830", "md_toc/constants.py:parser 're' 50-60, 107-143, 188-286"]}
{"id": "C85", "title": "Inline HTML of CommonMark leaves no trace in anchors", "statement": "A tag, comment, processing instruction, declaration or CDATA section of CommonMark in a heading is not part of its anchor. (Violated, proved: '<!--b-->' and comments with '>' stay, as does '</b  >' for github; declarations and CDATA sections always stay because the text is put in lower case before. Proved: processing instructions are removed; comments exactly if they have at least two characters and '>' at most at the end; for github and commonmarker all opening tags, and closing tags exactly with at most one white space, of names that are not filtered; for the other parsers the opening tags with no other white space than spaces, and closing tags exactly with spaces and tabs only, or one line ending; by remove_html_tags itself the non-empty CDATA sections and declarations.)", "quantifier": "every comment, tag, instruction, declaration and section", "why_tests_cant": "needs every text of a comment, every list of attributes", "anchors": ["md_toc/api.py:remove_html_tags 806-830, build_anchor_link 936-1067", "md_toc/constants.py:parser 're' 50-60, 107-143, 188-286"]}
{"id": "C86", "title": "Autolinks and inline HTML keep their characters", "statement": "remove_emphasis leaves the asterisks and underscores of an autolink and of inline HTML of CommonMark as they are, also when they stand inside emphasis, and no exception is raised. (Violated, proved: the underscores of '<http://a.b/_c_>' are removed because the scanner does not know the scheme, and those of a tag if an attribute without a value comes before. Proved for email addresses, closing tags, declarations, CDATA sections, opening tags where every attribute has a value, and comments and processing instructions that do not start like an email address.)", "quantifier": "every such text inside every text of pieces as in C64", "why_tests_cant": "needs every address, tag and comment inside every text", "anchors": ["md_toc/cmark/inlines_c.py:_cmark_handle_pointy_brace 1052-1136", "md_toc/cmark/scanners_c.py 97-123", "md_toc/constants.py 107-161", "md_toc/api.py:remove_emphasis 833-879"]}
{"id": "C87", "title": "Renaming a heading changes only its own entry", "statement": "If a heading is given another text, with the same level, and the new heading can be read, the table is built again: the entries before it are the same, its own entry keeps its level, number and indentation, and the entries behind it keep their levels, numbers, indentation and texts. The anchor of an entry behind it is the same, too, unless its slug is that of the old or of the new text; for redcarpet it always is. More generally, numbers and indentation depend on nothing but the levels of the listed headings.", "quantifier": "every document with a table, every heading in it and every new text, all options", "why_tests_cant": "compares the results for any two documents", "anchors": ["md_toc/api.py:build_toc 172-436, get_md_header 1359-1414, build_anchor_link 936-1067, increase_index_ordered_list 513-552, compute_toc_line_indentation_spaces 584-693"]}
{"id": "C88", "title": "The table lists the ATX headings of CommonMark", "statement": "For the parsers that follow CommonMark, the table lists exactly the lines that are ATX headings for a reader of CommonMark, in order and with their levels and texts, down to the maximum level. (Violated, proved: every line in an HTML block, for example in a comment, that looks like a heading is listed; a code fence in a comment hides the headings behind it; headings in the first line of a block quote or a list item are not listed; and a code block in a list item hides the headings behind it. Proved for all documents without block quotes and lists, in which no line of an HTML block looks like a heading or a code fence; the other violations are those of C09 and C19.)", "quantifier": "every document without block quotes and lists, all options", "why_tests_cant": "needs every document, compared with the block structure of CommonMark", "anchors": ["md_toc/api.py:build_toc 172-436, get_atx_heading 1091-1356, is_opening_code_fence 1440-1513, is_closing_code_fence 1516-1621"]}
{"id": "C89", "title": "The layout of a document does not matter", "statement": "Two documents with the same headings (levels and texts, in order) have the same table, or end with the same exception. In particular a heading may be indented by up to three spaces, have more white space around its text, a closing sequence of # of any length, or no line end: the table stays the same. For redcarpet the spaces and # at the end may vary.", "quantifier": "all documents, all options with keep_header_levels at least 1, every heading and every way to write it", "why_tests_cant": "needs every pair of documents with the same headings", "anchors": ["md_toc/api.py:build_toc 172-436, get_atx_heading 1091-1356"]}
{"id": "C90", "title": "Byte order marks", "statement": "A byte order mark at the beginning of a file does not change the table. (Violated: a byte order mark hides the first line. The table is always the one of the document without its first line; so the entry of a heading in the first line is missing, and the content of a code block that begins in the first line is listed. Proved for documents whose first line is neither a heading nor the beginning of a code block, or is skipped.)", "quantifier": "all documents, all options with keep_header_levels at least 1", "why_tests_cant": "needs every document", "anchors": ["md_toc/api.py:build_toc 172-436, is_opening_code_fence 1440-1513, get_atx_heading 1091-1356"]}
{"id": "C91", "title": "A check after an update succeeds", "statement": "After a run in place on several different files that does not fail, a second run in place with the same options changes no file; with --diff it ends with code 0; and a run with --diff that does not write ends with code 0, too, and prints the tables that were written. (Violated: with carriage return and line feed as newline string the comparison fails after every update; for redcarpet, a table that begins with a deep heading is written again at each run. Proved for tables with links, line feeds, and for redcarpet without indentation; files without a marker stay as they are.)", "quantifier": "every list of different files, every content with a place for the table, all other options", "why_tests_cant": "needs every content of every file, and the program run twice", "anchors": ["md_toc/cli.py:write_toc 54-105", "md_toc/api.py:write_strings_on_files_between_markers 135-169, tocs_equal 48-66, build_multiple_tocs 439-510"]}
{"id": "C92", "title": "A run that was stopped can be repeated", "statement": "If a run in place on several files is stopped at any point and repeated with the same options, the files end as if it had not been stopped. (Violated: a run that is stopped while a file has lost its old table and its marker leaves this file without a table for ever. Proved: in every other state in which the run can be stopped, and more generally whenever each file is as before or as after the run, a second run ends with the same files; and the states in which it does not are described exactly.)", "quantifier": "every crash point of every run on different files, as in C91", "why_tests_cant": "needs every crash point and every content of the files", "anchors": ["md_toc/cli.py:write_toc 54-105", "md_toc/api.py:write_strings_on_files_between_markers 135-169, write_string_on_file_between_markers 69-132"]}
{"id": "C93", "title": "The options of the list change nothing but the list", "statement": "build_toc with another kind of list, indentation, list marker, newline string or without the coherence check lists the same headings with the same texts and anchors. In detail: a table that is built with the coherence check is built without it too and is the same string; a table that is built with indentation is built with no_indentation, with the same lines without the spaces in front; another accepted list marker and another newline string change only the marker and the line ending; an ordered table is also built with constant_ordered_list, with all numbers 1.", "quantifier": "all documents, file names, options of build_toc and accepted list markers", "why_tests_cant": "The options share the state of one loop (the counter, the indentation log, the previous header type), so a combination of options can disturb a later line of some document; tests compare a few combinations on short documents.", "anchors": ["md_toc/api.py:build_toc", "md_toc/api.py:compute_toc_line_indentation_spaces", "md_toc/api.py:increase_index_ordered_list", "md_toc/api.py:build_toc_line_without_indentation"]}
{"id": "C94", "title": "A new section adds one entry", "statement": "If a heading is added to a document and both tables are built, the entries before it are the same, and those behind it keep their levels and texts, and their anchors unless their slug is that of the new heading. The text of the table is the old one with exactly one line added, if the new heading is listed, no heading behind it has its slug, the next listed heading is not below the new one (in numbered lists: is above it), and the list is checked, or neither indented nor numbered. A new heading that is not listed changes nothing, unless its slug repeats behind it. For redcarpet, in lists without counting, exactly one entry is added in every case. Read the other way round: the same for a heading that is removed.", "quantifier": "every document with a table, every place in it, every new heading, all options named", "why_tests_cant": "compares the results for any two documents of which one has one line more; the numbers, the indentation and the anchors of all lines behind the new one come from the state of the loop", "anchors": ["md_toc/api.py:build_toc 172-436, increase_index_ordered_list 513-552, compute_toc_line_indentation_spaces 584-693, build_anchor_link 936-1067"]}
{"id": "C95", "title": "All headings one level down", "statement": "If the headings of a document are those of another one, each k levels below, and the maximum level lists the same headings, then the table is the same string, or the same exception is raised. In particular, for the parsers that follow CommonMark, a # in front of every line that starts with # and one more level give the same table, if no heading is indented or of level 6. For redcarpet the entries are the same with 4 k more columns of indentation.", "quantifier": "all pairs of documents, all options, every k", "why_tests_cant": "compares two documents of any length: the first level, the previous level, the counters and the indentation log all go through the loop with other keys", "anchors": ["md_toc/api.py:build_toc 172-436, increase_index_ordered_list 513-552, compute_toc_line_indentation_spaces 584-693, get_atx_heading 1091-1356"]}
{"id": "C96", "title": "The first problem decides the exception", "statement": "build_toc raises an exception exactly if some heading has a problem, and then the exception is that of the first heading with a problem; of several problems of one heading the first counts in this order: the label is empty, the label is too long, build_anchor_link raises an exception for its text alone, and, if the heading is listed, its number is above 999999999, the list is not coherent (less deep than the first entry or more than one level below the entry before), the list marker is not a bullet. What follows the first problem does not matter. For several files the first file with an exception decides.", "quantifier": "all documents, parsers, options with a maximum level of at least 1, all numbers of headings", "why_tests_cant": "the number, the list and the slug are checked along the way with state of all entries before; which exception comes first is a statement on all prefixes of all documents", "anchors": ["md_toc/api.py:build_toc 172-436, increase_index_ordered_list 513-552, compute_toc_line_indentation_spaces 584-693, build_anchor_link 936-1067, get_atx_heading 1091-1356"]}
{"id": "C97", "title": "Chapters one after the other", "statement": "For the parsers that follow CommonMark and lists that are not counted: if a document is made of chapters, each ending with a line feed and outside of code blocks, each starting at the same level and not going above it, with no slug in two chapters, then its table of contents is made of the tables of the chapters in their order. So moving a chapter moves its entries and changes nothing else. For two documents: the table of the two in a row is the table of the first one and that of the second one, and if the second one raises an exception, the two in a row raise the same. For redcarpet the table of the two in a row is always the two tables in a row, whatever the slugs, the levels and the code blocks are, if the list is not checked or the three tables exist.", "quantifier": "all documents, any number of chapters in any order, the options named", "why_tests_cant": "the indentation log, the previous level, the first level and the counters of slugs of one chapter are still there when the next one begins; the claim is that nothing of them is seen, for all chapters", "anchors": ["md_toc/api.py:build_toc 172-436, compute_toc_line_indentation_spaces 584-693, build_anchor_link 936-1067, is_valid_code_fence_indent, is_opening_code_fence 1417-1513"]}
{"id": "C98", "title": "The order and the repetition of the files do not matter", "statement": "Two runs in place whose file names are the same set, in any order and each name any number of times, leave the same files behind, and one fails exactly if the other does; the exit code with --diff is the same too. In particular a file named twice gets one table. (Violated for redcarpet with indentation: a file named twice gets two tables if the first heading is not of level 1; proved. Proved for tables with links of the other parsers, and for all tables that are recognised again.)", "quantifier": "all environments, all contents of any number of files, all lists of names with the same members, all options of the command", "why_tests_cant": "the second write on a file reads what the first one wrote while the tables were computed before; must hold for all contents and all sequences of names", "anchors": ["md_toc/api.py:write_strings_on_files_between_markers 135-169, write_string_on_file_between_markers 69-132, tocs_equal 48-66, build_multiple_tocs 439-510", "md_toc/cli.py:write_toc 54-105"]}
{"id": "C99", "title": "Two tables in one file", "statement": "A file has two places for a table, each with its own marker, and the tables are made with different options (parser, levels, list marker and so on). Then the two runs in place may come in any order: in the end the file is the same, it has both tables, the text before, between and behind them is as it was, no other file is touched, and a further run of either kind changes nothing. This is for tables with links, for redcarpet without indentation, and for a line feed as newline; with another newline string the order matters.", "quantifier": "all environments, all files with two such places (empty or with an old table), all pairs of markers and of options of that kind", "why_tests_cant": "each run reads the table that the other one wrote, as part of the document and in search of its own marker; must hold for all documents and all pairs of options", "anchors": ["md_toc/api.py:write_string_on_file_between_markers 69-132, build_toc 172-436, tocs_equal 48-66"]}
{"id": "C100", "title": "Code blocks are left as they are", "statement": "A run in place changes no code block of the file: the code blocks after the run are those before it, none is lost, none is changed and none is new. (Violated: a marker in a code block, as in a text about the program itself, counts as a marker; for every file whose marker stands in a code block the table is written into the code; proved. Proved for all files where the lines before the place of the table end outside of code blocks and the replaced lines and the marker open none.)", "quantifier": "all environments, documents, tables, options, markers and newline strings", "why_tests_cant": "the place of the table is found without looking at code blocks; which lines are code depends on all lines before", "anchors": ["md_toc/api.py:write_string_on_file_between_markers 69-132, is_opening_code_fence 1440-1513, is_closing_code_fence 1516-1621", "md_toc/generic.py:_get_existing_toc 88-155"]}
{"id": "C101", "title": "Several lines in one call", "statement": "get_atx_heading and get_md_header take a text of several lines, separated by LF, CRLF or CR, and give one result for each line, in order: the one of a call for that line alone (for get_md_header: of calls one after the other with the same counter of duplicates); the call raises exactly if one of the lines does, with the exception of the first such line. (Violated by the visibility: a line with more hashes than levels are kept, even if it is no heading, hides all the headings after it in the same call, and so does a heading without text for redcarpet; proved. Proved for levels, texts, anchors and exceptions, and the visibility is described exactly.)", "quantifier": "all texts with any number of lines and any line ends, all parsers, all numbers of levels from 1 on, with and without links, all environments and counters", "why_tests_cant": "a variable is carried from line to line; the claim is about all texts and all numbers of lines", "anchors": ["md_toc/api.py:replace_and_split_newlines 1070-1088, get_atx_heading 1091-1356, get_md_header 1359-1414"]}
{"id": "C102", "title": "Skipped lines and the place of the table", "statement": "A run in place with skip_lines skips the same lines of the document at the next run, so that the table stays the same, wherever in the file the table stands. (Violated if the table stands in the skipped lines: the new lines of the table push lines of the document out of the skipped ones and their headings get into the next table; proved. Proved for tables behind the skipped lines, C45, and for updates that do not change the number of lines of the file; in general the next table is the one of the old file with as many skipped lines less as the table has got more, but at least the ones up to the table.)", "quantifier": "all environments, all files with a place for a table, all options with a maximum level of at least 1, all numbers of skipped lines that reach the place of the table", "why_tests_cant": "the number of lines is an option that does not change while the file does; the claim is about all files and all tables", "anchors": ["md_toc/api.py:build_toc 172-436 (skip_lines 281-287), write_string_on_file_between_markers 69-132"]}
{"id": "C103", "title": "Repeated runs come to rest", "statement": "A command in place that is repeated with the same options changes the files only finitely many times. (Violated: if the table stands in the skipped lines and a code block behind it, the table can change between two contents for ever, because a long table pushes the code fence out of the skipped lines and a short one does not; a table that is not recognised is written again at each run, for ever; proved. Proved for one file with the table in the skipped lines and no code fences behind it: no run changes the file after the first n + 2 ones, where n lines are skipped; and for several files with the tables behind the skipped lines: after the first run.)", "quantifier": "all environments, all files with a place for a table, all options with links, without indentation for redcarpet, all numbers of skipped lines, all numbers of runs", "why_tests_cant": "the claim is about histories of any length", "anchors": ["md_toc/api.py:build_toc 172-436 (skip_lines 281-287), write_string_on_file_between_markers 69-132", "md_toc/cli.py:write_toc 54-105"]}
{"id": "C104", "title": "Only the last run counts", "statement": "A file is edited outside of its table and updated in place, again and again, each time with other options of the command (parser, levels, list marker, skipped lines and so on). In the end the file is the last edited text with the table of that text under the last options at the place of the table; nothing of the earlier tables is left, and no other file is touched. Runs that fail have no effect: after some of them the file is the last edited text with the table of the last run that did not fail. So two histories with the same last edit and the same last run end with the same file. Nor does it matter what table stands at the place before a run, if it is still recognised as one: the user may have edited it. This is for tables with links, for redcarpet without indentation, a line feed as newline, and a table outside of code blocks and behind the skipped lines.", "quantifier": "all environments, all files with a place for a table, all histories of any length, all edits without markers and all options of that kind in each round", "why_tests_cant": "the claim is about histories of any length: each run reads the table that an earlier run with other options wrote", "anchors": ["md_toc/api.py:write_string_on_file_between_markers 69-132, build_toc 172-436, tocs_equal 48-66", "md_toc/cli.py:write_toc 54-105"]}
{"id": "C105", "title": "The table can be moved", "statement": "A file is updated in place, then the table with its markers is cut out and put in at another place of the same text. Then the file is up to date still: the next run with the same options changes no file, and with --diff the exit code is 0, in place or not. This is for tables with links, for redcarpet without indentation, files with line feeds, and places outside of code blocks and behind the skipped lines.", "quantifier": "all environments, all files with a place for a table, all pairs of places in the text, all options of that kind", "why_tests_cant": "the table is read as a part of the document, at any place among any lines; which lines are headings depends on all lines before", "anchors": ["md_toc/api.py:build_toc 172-436, write_string_on_file_between_markers 69-132, tocs_equal 48-66", "md_toc/cli.py:write_toc 54-105"]}
{"id": "C106", "title": "A check finds exactly the edits that matter", "statement": "A file is updated in place, then its text is edited in any way and the table is left as it is. A run with --diff, in place or not, with the same options or other ones, has the exit code 0 if the table of the edited text with these options is the one that was written, and 128 if not. This is for tables with links that can be built, for redcarpet without indentation, a line feed as newline, and a table outside of code blocks and behind the skipped lines.", "quantifier": "all environments, all files with a place for a table, all edits of the text without markers, all options of that kind", "why_tests_cant": "the table in the file is compared up to white space after it was cut out of the edited lines; must hold for all texts and all edits", "anchors": ["md_toc/api.py:tocs_equal 48-66, write_string_on_file_between_markers 69-132, build_toc 172-436", "md_toc/cli.py:write_toc 54-105", "md_toc/generic.py:_get_existing_toc 88-155", "md_toc/__main__.py:main 29-50"]}
{"id": "C107", "title": "One run for many files is the same as many runs", "statement": "A command names several files, none of them the standard input, each of them once, and is in place. It fails exactly if the same command for one of the files alone fails; its exit code is 128 exactly if no such command fails and one of them has the exit code 128. If it does not fail it leaves the files as the commands for one file after the other do: each file as the command for it alone leaves it, and all others untouched. So the order of the files matters neither for the exit code nor for the files that are left. Without --in-place the same holds for the exit codes and what is printed, in the order of the names, and a file may be named more than once. (A command that fails can leave other files than the single commands; proved with an example.)", "quantifier": "all environments, all files, all lists of different names, all options", "why_tests_cant": "all tables are built before the first file is written; must hold for all lists of files and all their contents", "anchors": ["md_toc/api.py:build_multiple_tocs 439-510, write_strings_on_files_between_markers 135-169, write_string_on_file_between_markers 69-132", "md_toc/cli.py:write_toc 54-105", "md_toc/__main__.py:main 29-50"]}
{"id": "C108", "title": "One check for a whole project", "statement": "Several files are updated in place by one command, then the texts of all of them are edited in any way and the tables are left as they are. A command with --diff for all the files, in place or not, with the same options or other ones, has the exit code 0 if for each file the table of the edited text with these options is the one that was written, and 128 if not for at least one of them. This is for files with different names and tables with links that can be built, for redcarpet without indentation, a line feed as newline, and tables outside of code blocks and behind the skipped lines.", "quantifier": "all environments, all lists of files with places for tables, all edits of the texts without markers, all options of that kind", "why_tests_cant": "the claim is about all numbers of files, all texts and all edits; one file that is out of date must be found among any others", "anchors": ["md_toc/api.py:build_multiple_tocs 439-510, tocs_equal 48-66, write_strings_on_files_between_markers 135-169", "md_toc/cli.py:write_toc 54-105", "md_toc/generic.py:_get_existing_toc 88-155", "md_toc/__main__.py:main 29-50"]}
{"id": "C109", "title": "The work on a whole project", "statement": "The files of a project are edited outside of their tables and updated in place, again and again, each time by one command for some of the files, with other options. Files outside of the project are never touched. Each command fails exactly if one of the tables of the files it names cannot be built from their texts as edited last, and then it changes no file at all. Else each file it names becomes the text as edited last with the table of that text under the options of this command, and all other files are left as edited. So two histories with the same last edits and the same last command end with the same contents of the files it names. This is for names without repetition, tables with links, for redcarpet without indentation, a line feed as newline, and tables outside of code blocks and behind the skipped lines.", "quantifier": "all environments, all sets of files with places for tables, all histories of any length, all edits without markers and all commands of that kind in each round", "why_tests_cant": "the claim is about histories of any length over any number of files, with commands that fail in between", "anchors": ["md_toc/api.py:build_multiple_tocs 439-510, write_strings_on_files_between_markers 135-169, build_toc 172-436", "md_toc/cli.py:write_toc 54-105", "md_toc/__main__.py:main 29-50"]}
{"id": "C110", "title": "Commands at the same time", "statement": "Several commands run at the same time, each with its own options: updates in place and checks or printed tables, from the reading of the files to the exit code. In any order of their accesses to the files each one ends with the exit code and the printed text as if it had run alone, and leaves its files as if it had run alone; if they are all stopped at some time, each file is in a state that it has while its command runs alone; files that no command updates are as before. (Violated for an update and a check of the same file: the file is up to date before and after, but the check reads it while the update has removed the old table and not yet written the new one, and has the exit code 128; proved. Proved for any number of commands no one of which names a file that another one updates; so commands without --in-place never disturb each other, also with the same files.)", "quantifier": "all environments, all files, all numbers of commands with all options, all schedules", "why_tests_cant": "the claim is about all interleavings of the accesses to the files of any number of processes", "anchors": ["md_toc/api.py:build_multiple_tocs 439-510, tocs_equal 48-66, write_strings_on_files_between_markers 135-169", "md_toc/cli.py:write_toc 54-105", "md_toc/__main__.py:main 29-50"]}
{"id": "C111", "title": "Capital and small letters in headings", "statement": "The link targets do not depend on capital and small letters: if the headings of two documents have the same levels and differ in nothing but capital and small letters then the tables have entries at the same places with the same link targets, numbers of duplicates included, and their texts differ in nothing but capital and small letters. So a heading whose capital letters are corrected keeps all links to it and to the others. (With redcarpet this is about the 26 letters of ASCII; other letters do change the target there, which is proved, too.)", "quantifier": "all environments, all options, all pairs of documents with such headings for which a table can be built", "why_tests_cant": "the claim compares all pairs of documents, of any length and with any number of duplicates", "anchors": ["md_toc/api.py:build_anchor_link 936-1067, build_toc 172-436, remove_html_tags 806-830"]}
{"id": "C112", "title": "Link targets depend on nothing but the slugs", "statement": "The slug of a heading is the link target it has in a document without other headings. If the headings of two documents have the same levels and the same slugs then the tables have entries at the same places with the same link targets, numbers of duplicates included, whatever the texts, the markup and the rest of the documents are. In particular punctuation and capital letters of headings in ASCII without markup can be changed without breaking a link (all parsers but redcarpet).", "quantifier": "all environments, all options, all pairs of documents with such headings for which a table can be built; all headings in ASCII without markup", "why_tests_cant": "the claim compares all pairs of documents, of any length and with any number of duplicates", "anchors": ["md_toc/api.py:build_anchor_link 936-1067, anchor_link_punctuation_filter 902-933, build_toc 172-436"]}
{"id": "C113", "title": "The choice of the marker does not matter", "statement": "Two files have the same text, one with the marker m and the other one with the marker m', each with a single marker or with an old table at the same place. The update in place with m fails if and only if the one with m' fails; otherwise the two files are the same afterwards but for the markers around the table. And if the markers around the table of an updated file are replaced by m' then the next run with m' changes nothing, and a check says that the file is up to date. (The markers are not blank, do not begin like a list item, are no headings or code fences and occur nowhere else in the text; the table comes after the skipped lines and outside of code blocks; links, \\n as newline.)", "quantifier": "all environments that agree with Python on ASCII, all such markers, texts, old tables and options", "why_tests_cant": "the claim compares the outcome for all pairs of markers on all texts", "anchors": ["md_toc/api.py:write_string_on_file_between_markers 69-132", "md_toc/generic.py:_get_existing_toc 88-155", "md_toc/cli.py:write_toc 54-105"]}
{"id": "C114", "title": "What is printed is what is written", "statement": "The command without --in-place prints the same table of contents for a text without a marker, for the same text with a single marker or an old table, and for the file after an update in place; and that printed table is what the update in place writes between the markers, but for white space at its end, with the rest of the text unchanged. If the update fails then so does the printing, and the other way round. So the output can be reviewed before the file is changed. (One file; the marker is not blank, does not begin like a list item, is no heading or code fence and occurs nowhere else in the text; the table comes after the skipped lines and outside of code blocks; links, \\n as newline.)", "quantifier": "all environments that agree with Python on ASCII, all such markers, texts, old tables and options", "why_tests_cant": "the claim relates four runs of the command on all texts", "anchors": ["md_toc/api.py:write_string_on_file_between_markers 69-132, build_multiple_tocs 439-510", "md_toc/cli.py:write_toc 54-105"]}
{"id": "C115", "title": "The slug of a slug", "statement": "The link target of a heading, used as the text of a heading in a document without other headings, has itself as its link target: for all parsers but redcarpet if the target contains no underscore and is in small letters (as it is if the heading is in ASCII), for redcarpet always. So if all headings of a document are replaced by their slugs then the entries of the table keep their places and link targets, numbers of duplicates included, and headings that look like slugs (names of commands or options, say) are linked by their own text. (With underscores this is false, as underscores may be read as emphasis: the target of \\_a\\_ is _a_ but the target of _a_ is a. This is proved, too.)", "quantifier": "all environments that agree with Python on ASCII, all such headings, with any markup", "why_tests_cant": "the claim is about all texts", "anchors": ["md_toc/api.py:build_anchor_link 936-1067, anchor_link_punctuation_filter 902-933, remove_emphasis 833-899"]}
