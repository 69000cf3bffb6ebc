# md-toc: formal model and proofs (design)

## What is verified

`/repo` is md-toc (a Python program that builds a table of contents of a markdown
file and writes it between markers).  `/verif/lean` has a model of it in Lean 4,
function by function, and theorems about the model.  Nothing here runs the
Python code.  The tie between model and code is

* the citation of file and lines next to every definition;
* conformance tests (`Verif/Conformance/*.lean`): the model evaluated in the
  kernel on the vectors of the project's own unit tests (tests, not proofs).

## Trusted base

* Lean's kernel and the axioms reported by `#print axioms`: at most `propext`,
  `Classical.choice`, `Quot.sound`, listed per theorem in `AXIOMS.md`.  No own
  axioms, no `sorry`, no `native_decide`, no `bv_decide`.
* The specifications in `Verif/Spec/*.lean` (what the theorems mean) and the
  statements in `Verif/Props/*.lean`.
* The reading of the Python code (the model is hand written).
* Python's runtime: strings are lists of Unicode scalar values (`List Char`; lone
  surrogates are not representable), `int` is `Nat` or `Int`, exceptions are
  values of `Except Exn`.  An exception of an index or a key is modelled where the
  code can raise it: accesses are checked in the model and the theorems say
  whether the exception is reached.
* `Env` holds what is a library table and not code of the repository: `str.lower`,
  the classes `\w`, `\d`, the punctuation category, SHA-1, the HTML5 entities.
  Theorems hold for every `Env` unless they take `E.Lawful` (agreement with ASCII)
  or the injectivity of SHA-1 on the slugs at hand.  `asciiEnv` is a concrete
  instance which satisfies both.  C78 takes `LowerOk`, what `str.lower` does
  outside of ASCII (never a bracket, backslash or tag character; U+0100 has a lower
  case); `lowerEnv` is an instance.  C79 takes `ShortEntities`, that the text of an entity
  has at most 15 bytes.
* `re` is modelled by a backtracking matcher over a syntax tree of regular
  expressions (`Verif/Regex.lean`); the patterns are transcribed.
* `fpyutils` 4.0.1 is neither in the repository nor on disk: its functions
  `get_line_matches`, `remove_line_interval`, `insert_string_at_line` are modelled
  from their documented behaviour (`Verif/Fpyutils.lean`).  Each one is assumed to
  replace the file in one step.  The theorems on writing (C36–C45, C47, C62,
  C77, C91, C92, C98–C100, C102–C110, C113, C114) depend on it.  In the model of concurrent processes (C82, C110) each reading and each
  replacement of a file is one step.
* `argparse` splits the command line into options and values and converts the
  numbers; what `create_parser` does with them (defaults, choices, exclusive
  groups, ranges) is modelled in `Verif/Args.lean`.
* Files: a file is a decoded text and a flag "then decoding fails"; reading is
  text mode with universal newlines; writing translates nothing (`os.linesep` is
  LF).  Permissions and a full disk are not modelled.

## Not modelled

* The texts in the cmark nodes, except for the columns and lengths of the nodes of
  delimiters.  The string buffers (`cmark/buffer_c.py`) are reduced in most modules to the
  places where their content or an index into them can raise; `Verif/Cmark/Buffer.lean` models
  them in full, with the `sys.exit` for buffers above 2^30 characters, and `C79_same` proves
  that the two models agree on every text up to 2^26 - 1 characters.  The list of removed positions,
  the only result of the inline parser, is computed from columns, lengths and
  offsets alone.  The pointers and types of the nodes (`cmark/node_c.py`,
  `append_child`) are modelled as a heap in `Verif/Cmark/Tree.lean`; the model used
  by the other theorems leaves the tree out, and `C52_tree_harmless` proves that the
  two models agree on every text.
* The linked lists of delimiters and brackets are lists in the model used by the other
  theorems; `Verif/Cmark/Pointers.lean` models them as objects with references, and
  `C76_same` proves that the two models agree on every text.
* Memory and recursion limits of Python.
* The option `smart` of the inline parser (always off: `options = 0`) and what
  only it reaches (`_cmark_handle_hyphen`, `_cmark_handle_period`).
* Link reference maps (`cmark/references_c.py`): the map is always empty, only the
  exception of the lookup is modelled.

## Modules

| module | models |
| --- | --- |
| `Verif/Py.lean` | Python string operations: strip, lstrip, rstrip, split, replace, `str(int)` |
| `Verif/Env.lean` | library tables (character classes, lower, sha1, entities) |
| `Verif/Regex.lean` | `re` |
| `Verif/Constants.lean` | `constants.py`, `exceptions.py` |
| `Verif/Generic.lean`, `Verif/Fpyutils.lean` | `generic.py`, fpyutils |
| `Verif/Entities.lean` | the binary search of `cmark/houdini_html_u_c.py` |
| `Verif/Fence.lean` | code fences |
| `Verif/Atx.lean` | `get_atx_heading` |
| `Verif/Cmark/*.lean` | `cmark/*.py`, `remove_emphasis` |
| `Verif/Anchor.lean` | `remove_html_tags`, `build_anchor_link` and helpers |
| `Verif/Toc.lean` | `get_md_header`, `build_toc`, `build_multiple_tocs`, indentation, numbering |
| `Verif/Write.lean` | `tocs_equal`, `write_string(s)_on_file(s)_between_markers` |
| `Verif/Steps.lean` | the same as a step function, several processes |
| `Verif/Commands.lean` | a whole command as a step function, several commands |
| `Verif/Cli.lean`, `Verif/Args.lean` | `CliToApi.write_toc`, `main`, the options |
| `Verif/Spec/*.lean` | specifications, independent of the model |
| `Verif/Lemmas/*.lean` | helper lemmas |
| `Verif/Props/*.lean` | the property theorems, each with an example that meets its hypotheses |
| `Verif/Conformance/*.lean` | test vectors (tests, not proofs) |

## Properties: what is modelled and how it is proved

| id | approach |
| --- | --- |
| C01, C02 | model of the duplicate counter (keyed by sha1); invariant by induction on the sequence of headings: counter of a key = number of earlier slugs with this key; injectivity of decimal numerals; C02 is false, counterexample by evaluation; the exact condition (`C02_exact`) by counting; carried over to tables by `Table` (`C01_table`) |
| C03 | character invariant through filter, replace and suffix |
| C04 | loop invariant of the redcarpet state machine; refinement to "words joined by hyphens" |
| C05 | characterisation of `re.sub('-+','-')`; counterexample for the numbered anchor, exact condition |
| C06 | two-run relation on `build_toc`'s loop: same duplicate counter, listed headings filtered |
| C07 | characterisation of `replace_and_split_newlines` |
| C08, C09 | refinement to a CommonMark style specification, for every string |
| C10, C11, C12, C13 | loop invariant of the escaping loop, refinement to a one-pass specification |
| C14 | all index accesses are modelled as checked accesses; `IndexError` is never returned |
| C15 | refinement to a list specification |
| C16, C17 | refinement to a list specification |
| C18, C19, C20 | simulation lemmas about the `build_toc` loop; C19 false for files |
| C21, C22, C23 | invariant of the loop: output = lines of the entries, entries = listed headings |
| C24, C25, C26, C27 | invariants of counters and indentation log over coherent level sequences; spec by counting earlier siblings and by the parent entry |
| C28, C29 | characterisation of the exception over level sequences |
| C30, C31 | lemmas about the reader |
| C32, C33 | case analysis plus invariants |
| C34 | `mapM` characterisation |
| C35 | universal newline splitting is invariant under the newline convention |
| C36–C44, C55, C56 | file as list of lines; refinement of the marker search to `Spec.Cut`; then list algebra |
| C45 | locality lemma (as in C18, C20) composed with C37 and C44 |
| C46, C47 | case analysis on the model of the command line |
| C48 | induction on the matcher (a match is a prefix) and the substitution loop |
| C49, C50, C51, C53 | invariants of the delimiter stack (remaining length + offset = length of the run; runs disjoint; runs consist of one delimiter character); measures for termination |
| C51, C52 (tree) | the node tree on a heap: the pointers describe a forest (invariant through unlink, insert, append, free), so no loop over them is endless and no step fails; simulation with the model without the tree |
| C52 | false: witnesses by evaluation, and for every text with a reference link (`Spec.Reference`); no exception for the texts of `Spec.Tame` and `Spec.Calm` (destinations and titles of any form which end before the text does) and for texts where every opening bracket is escaped, by invariants; without inline links the exact condition (`RefersFrom`: a closed bracket with a label behind it), by induction over the pieces with the number of open brackets |
| C54 | list lemma |
| C57 | classification of the exceptions; the fuel of the loops is proved sufficient |
| C58 | from C84: the texts of `Spec.WithoutTags` have their inline HTML deleted in six passes |
| C59 | symbolic execution of the inline parser on phrases `run word run`; invariant: the stack is empty between phrases |
| C60 | composition of C58, C59 and the punctuation filter |
| C61, C62 | case analysis on the model of the options, composed with C21, C30, C32, C37 |
| C63 | total correctness: all the exceptions of `build_toc` are excluded one by one (inversion of a failed run), then C01, C21, C24, C26, C60; an elementary class of documents (`Spec.Simple`) is shown to meet the hypotheses |
| C64 | texts as sequences of pieces (`Spec.Piece`), runs classified by the flanking rules of CommonMark written down in `Spec/Markup.lean`; scanning by induction over the pieces, the delimiter loop by induction over the nesting with the invariant that the nearest opener is the partner and that no `openers_bottom` reaches it, then the filter |
| C65 | corollary of C64 for runs inside words; witness for the violation |
| C66 | texts as sequences of pieces and links (`Spec/Linked.lean`); the invariant of C64 relative to the delimiters that are on the stack when the bracket is opened, `handle_close_bracket` by cases, the languages of the scanners for white space and titles; witnesses for the violations |
| C67 | C60 and a computation with `slug`, which distributes over the parts; witness for the violation |
| C68 | the run of the loop over a prefix of the lines is a prefix of the run (`hdrRun_prefix`), the lines outside of code blocks of a prefix are a prefix (`seen_outside`); witness for the violation; for all documents with the table on the standard input |
| C69 | the lines seen by the loop are the same with and without the retry of unclosed code blocks; witness for the violation; `C19_file_exact` says what the table is in the other case; exact condition: the lines seen are unique, those of a file are those of the standard input and perhaps the last one, and C96 says what the last one does |
| C70 | success: invariant relating the two runs (`levels_succeed`); content: numbers, parents and indentation are determined by the levels and invariant under removal of deeper levels |
| C71 | numbers and indentation are a function of the levels (`Run.skeleton`); the texts of both modes are related by `Headings`; witness for the violation, and every document with a reference link in a heading |
| C72 | `Spec/Emphasis.lean` states the procedure of CommonMark without `openers_bottom` as a relation (`Matched`); it is total and functional; the loop of the model simulates it, with the invariant that no bottom hides an opening run that fits (`BotsOk`), which needs that underscores do not open and close at once; the characters removed of each run are computed (`kept`) and compared with those CommonMark uses; witnesses for both violations |
| C73 | induction over the string from a position (`replaceLoop_*`), over two strings of equal length (`strncmpLoop_cases`) |
| C74 | `Entities.lean` models the binary search with a limit on nested calls; invariant: the position of the name stays between the bounds, the distance to both bounds halves (`entLookup_total`, `entLookup_found`); witness for the violation |
| C75 | the equivalence for one line (`C75_line`) from the model of `get_md_header`; for documents the failed run gives the line and the reason (`buildToc_failed`), each reason contradicts one condition; a successful run gives every condition |
| C76 | `Cmark/Pointers.lean` models delimiters, brackets and text nodes as objects in a heap with `previous`/`next`/`inl_text` references and Python integers, function by function; a relation (`SR`) between the heap and the lists of the other model is kept by every function (`*_sim`), so both give the same result or exception; the invariants of the list follow from the relation |
| C77 | the lines with numbers in a set (`linesIn`) as specification; induction over the lines and over the intervals; for intervals in the order of the file the intervals moved down as the exact result; witness for the violation |
| C78 | false: a tag after a backslash; otherwise the escaping of the label, the change to lower case and the removal of tags keep every opening bracket escaped (`CutTag` chains; `scan` reads a text with the number of backslashes before, a `>` before them and a `\<` seen), so the inline parser never meets an opening bracket and no exception is left; the table by `C75_success` |
| C79 | `Cmark/Buffer.lean` models the buffers with their allocated size, all operations used by the inline parser and the exit for large buffers; every handler is shown to give the same subject or exception (`*B_eq`), by a bound on the size of the buffers (an entity adds at most 16: `ShortEntities`) and an invariant of the in-place loops (the writes stay behind the reads) |
| C80 | `Spec/Outline.lean` states how CommonMark reads list items of one line (which open items a line goes into, when a list may interrupt a text); it reads lines in at most one way (`outline_unique`); the nested entries of C26 with the numbers of C24 are read with their depths, by an invariant of the open items (`Stack`, `outline_after`) |
| C81 | `readLink` in `Spec/Outline.lean` reads a link as CommonMark does (text up to the first unescaped bracket, destination up to the parenthesis); proved for labels by induction over the escaping, with the alphabet of C03 for the anchors |
| C82 | `Verif/Steps.lean`: the same code as `Write.lean`, as a step function in which each opening of a file is one step; proved to refine the sequential model (C82_alone); for different files by induction over the schedule with commutation of steps; violation for all files with a table by an explicit schedule |
| C83 | pairs of runs of `build_toc` with two parsers, related step by step: equal lines read (congruence of all scanning functions for equal blanks), equal headings; for gitlab a relation of states that forgets the anchors and the counters of duplicates |
| C84 | the declarative semantics of the regular expressions (`Re.Lang`) composed into languages (`Re.Is`), equal to the grammar of `Spec/Html.lean`; induction over the loop of `re.sub`; no piece is a prefix of another one, hence uniqueness |
| C85 | from C84, kind by kind; the violations by computation |
| C86 | the scanners for `<` are regular expressions whose language is determined (`Spec/Raw.lean`, `Lemmas/Scanners.lean`), and those without a closing part (instructions, declarations, CDATA) are followed token by token; inline HTML is a kind of piece in the texts of C64; the violations by computation |
| C87 | the run of `buildToc` is followed for two documents at once (`Props/Locality.lean`): equal levels give equal numbers and indentation, and C01 determines the anchors from the list of the slugs, in which only one element differs |
| C88 | an independent specification of the leaf blocks of CommonMark as a reader of lines (`Spec/Blocks.lean`: paragraphs, thematic breaks, setext and ATX headings, indented and fenced code, the seven kinds of HTML blocks), shown to be deterministic; simulation of `Seen` by induction on the number of lines |
| C89 | `build_toc` is shown to be a function of the list of headings (levels and texts) of the lines looked at; the ways to write a heading are specified in `Spec/Layout.lean` |
| C90 | the first line with a mark is neither a heading nor a fence, so by C89 the table is the one of the other lines |
| C91 | the state after a run is found file by file from the successive writes (C42); C45 and C38 for each file, C46 for the exit code; for carriage returns: what is read has none, so a table with one between its entries is never equal (`C39_never`), and it has one exactly if there are two entries |
| C92 | the states of a run by induction over its writes; in each of them every file is as before or as after, except for one; C91 file by file |
| C93 | the number and the indentation of every entry as functions of the entries before it (runs, by induction); two tables with the same headings and the same functions are the same; the exact condition of success (C75) says that the other table is built |
| C94 | the numbers of the slugs behind the new heading (C01), number and indentation as functions of the entries before (C87, C93): parent and number of siblings of an entry are the same with the new entry in between, by induction on the entries behind it; witnesses that the conditions are needed |
| C95 | the loops for the two documents go side by side (a relation of the two states, kept by every heading, with the same exceptions); one more `#` keeps code blocks and moves the headings down (induction on the lines); redcarpet by the numbers and places of C93 |
| C96 | a function from the levels listed before, the level and the text to the problem of a heading; the state of the loop is described by the levels listed (previous level, first level, counters), induction on the headings |
| C97 | the runs over the second document from the beginning and from the end of the first one are related (same output behind that of the first, same counters for its slugs); at the first entry the log is cleared, for which an invariant says what the log looks like above and at the top level (`LogClean`); then by induction on the chapters; witnesses that the conditions are needed |
| C98 | invariant of the writes: every file is as before or as after one write of its table; a write keeps it because of the second write of C38; the flags by C39; both runs end in the same function of the set of names; witness for redcarpet |
| C99 | one run on a region replaces plain lines by plain lines: the tables for all options and the other region stay; four runs are put together and the texts compared; witness for CR LF |
| C100 | the lines as a fold with the open block as state, equivalent to `Outside`; replaced lines that open no block leave the state as it is; violation for all files with the marker in a block |
| C101 | the lines of a text as an inductive relation with the three kinds of line ends, which the splitting of the code computes; a state of the loop over the lines acts on the result of a line alone, and the lines that change it are described by their shape; violation by the visibility |
| C102 | C30 for the file before and after the write: the lines left are the same up to lines of the table, which are neither headings nor fences; witness for the violation |
| C103 | The number of lines behind the table which are skipped determines the next content of the file, and is monotone in the one before, because without code fences fewer lines have fewer headings; a monotone sequence of bounded numbers comes to rest. For tables not recognised: C38 with an invariant of the lines up to the last marker. Witness of period two for the violation |
| C104 | Histories as an inductive relation of rounds, each an edit outside of the table and a command. Invariant: the file has one place for a table, with lines that are plain for every parser; the place is unique (`region_unique`), and one round keeps the invariant and forgets the old table |
| C105 | The text without the table has the same table as the file, for both places (plain lines can be taken out and put in); so the second run of a round of C104 writes the lines that are there; the exit code by C91 for a file that a run does not change |
| C106 | The table found in a file depends on the lines of the table only (`old_of_region`); after the update it is the stripped table of the text (C91); tables with links which are equal after stripping are equal (`steady_inj`); exit codes by C46 |
| C107 | A command for one file is one step of the write loop (`one_run`, `one_fails`); by induction over the files the loop is the sequence of these commands, as the files not yet written are unchanged (`loop_separate`); a command for one file depends on this file only (`one_local`), so the order does not matter |
| C108 | From C106 for each file and C107 for the update and the check; the exit code of a command for one file depends on this file only (`code_local`) |
| C109 | Induction over the rounds (`PHistory`) with the invariant that each file has one place for a table with plain lines (`Tidy`); a round is split into commands for one file (C107), which are rounds of C104 |
| C110 | `Verif/Commands.lean`: a whole command as a step function (each table built or compared, and each access while writing, is one step), proved to refine the sequential model of `Cli.lean` (C110_alone); by induction over the schedule each step depends on the files the command names and changes only those it updates (`cmd_step`) |
| C111 | two runs over the headings side by side: the anchors are equal and the counters stay equal (`C111_anchor`, by induction `anchorRun_case`); for redcarpet, the loop treats a capital and a small letter the same, and a text of which nothing is kept has no letters of ASCII; the places by C87 |
| C112 | as C111, with the slugs instead of the texts in lower case (`C112_anchor`, `anchorRun_slugs`); the slug of a heading in ASCII without markup (C60) depends on its letters, digits, spaces and hyphens only (`slug_letters`) |
| C113 | both updates are expressed by the text without the table (`marked_update`, from C104 and `replace_plain`); a file with the replaced markers has a place of its own (`marked_table`), then C91 |
| C114 | the table is computed from the text without the region of the table (`replace_plain`), for the text, the marked file and the updated file (`marked_table`) alike; printing is `C46_print`, writing is `marked_update` |
| C115 | the characters of a slug are hyphens, word characters and small (`baseAnchor_from`, `baseAnchor_mem`), so it is a text without markup and `C60_plain` computes its slug; redcarpet: the words of `a-b-c` are a, b, c (`words_hyphenate`), then `C04_redcarpet_anchor` |

Properties which the code violates are proved as negations with a concrete
witness (`…_violation`), next to a `_partial` theorem that states the part which holds.

## Testing the theorems against wrong programs

`seeded/mutants.py` lists wrong edits of the model (wrong boundary, missed case,
swapped argument, dropped update), `tools/mutate.py` applies each one to a scratch
copy, rebuilds and records which theorems fail; `seeded/LOG.jsonl` has the
results.  In the scratch copy only, `decide +kernel` is replaced by a tactic
which does not use up the memory on wrong statements.

## Generated files

`properties.jsonl`, `MANIFEST.json`, `AXIOMS.md` and `Verif/Conformance/*.lean`
are written by `tools/gen_*.py`.
