{
 "claims": [
  {
   "property": "C01",
   "status": "proved",
   "theorems": [
    "Gherkin.C01_classic_parse_terminates",
    "Gherkin.C01_markdown_parse_terminates"
   ],
   "note": "fuel = number of lines + 1 never runs out; main loop takes at most lines + 1 tokens; look-aheads end from any state"
  },
  {
   "property": "C02",
   "status": "proved",
   "theorems": [
    "Gherkin.C02_classic_lines_in_order"
   ],
   "note": "for any builder whose errors own their location (both shipped builders do)"
  },
  {
   "property": "C03",
   "status": "partial",
   "theorems": [
    "Gherkin.C03_lines_in_order_partial",
    "Gherkin.C03_counterexample_title",
    "Gherkin.C03_markdown_all_lines",
    "Gherkin.C03_counterexample_fences",
    "Gherkin.C03_counterexample_accepted"
   ],
   "note": "False in the code: kernel-checked counterexamples (a tag in back quotes in a heading after a tag line, even in an accepted text; mixed doc string fences). Proved for texts with one kind of fence and no tags in headings; for all accepted Markdown texts it is proved that each line is processed exactly once (C03_markdown_all_lines)."
  },
  {
   "property": "C04",
   "status": "partial",
   "theorems": [
    "Gherkin.C04_parse_outcome_partial",
    "Gherkin.C04_no_other_exception",
    "Gherkin.C04_counterexample_tag",
    "Gherkin.C04_counterexample_row"
   ],
   "note": "false in the code for tag lines with white space inside a tag (AttributeError) and table rows that end inside an escape sequence (RuntimeError); proved that these are the only other exceptions, and which lines cause them"
  },
  {
   "property": "C05",
   "status": "proved",
   "theorems": [
    "Gherkin.C05_accepted_text_is_derivation_tree",
    "Gherkin.C05_markdown_accepted_text_is_derivation_tree"
   ],
   "note": "grammar transcribed from gherkin.berp in Spec/Grammar.lean"
  },
  {
   "property": "C06",
   "status": "proved",
   "theorems": [
    "Gherkin.C06_error_list_bounded",
    "Gherkin.C06_stops_at_eleventh"
   ],
   "note": ""
  },
  {
   "property": "C07",
   "status": "proved",
   "theorems": [
    "Gherkin.C07_document_iff_no_error"
   ],
   "note": ""
  },
  {
   "property": "C08",
   "status": "proved",
   "theorems": [
    "Gherkin.C08_ids_distinct",
    "Gherkin.C08_document_returned"
   ],
   "note": "ids of a document = exactly the ids handed out during the parse"
  },
  {
   "property": "C09",
   "status": "proved",
   "theorems": [
    "Gherkin.C09_stream_ids_distinct"
   ],
   "note": ""
  },
  {
   "property": "C10",
   "status": "proved",
   "theorems": [
    "Gherkin.C10_reuse",
    "Gherkin.C10_markdown_reuse"
   ],
   "note": "for any history of earlier parses on the same objects"
  },
  {
   "property": "C11",
   "status": "proved",
   "theorems": [
    "Gherkin.C11_document_quotes_source"
   ],
   "note": "classic matcher; also tags, rows and cells"
  },
  {
   "property": "C12",
   "status": "proved",
   "theorems": [
    "Gherkin.C12_document_reads_source",
    "Gherkin.C12_markdown_document_reads_source"
   ],
   "note": ""
  },
  {
   "property": "C13",
   "status": "proved",
   "theorems": [
    "Gherkin.C13_tags_read",
    "Gherkin.C13_tags_roundtrip",
    "Gherkin.C13_tags_recognised"
   ],
   "note": "white space between @ and name is skipped by the code; crash on white space inside a tag is C04"
  },
  {
   "property": "C14",
   "status": "proved",
   "theorems": [
    "Gherkin.C14_row_roundtrip",
    "Gherkin.C14_row_recognised"
   ],
   "note": "values that begin or end with white space other than newline cannot be told from padding (CellValue); if there is no padding after a cell, its value must not have white space before a final newline (Tight)"
  },
  {
   "property": "C15",
   "status": "proved",
   "theorems": [
    "Gherkin.C15_cell_columns"
   ],
   "note": ""
  },
  {
   "property": "C16",
   "status": "proved",
   "theorems": [
    "Gherkin.C16_tables_rectangular"
   ],
   "note": ""
  },
  {
   "property": "C17",
   "status": "proved",
   "theorems": [
    "Gherkin.C17_doc_strings_quoted",
    "Gherkin.C17_doc_string_read_back"
   ],
   "note": "Classic matcher, accepted texts: every doc string quotes its lines; and a doc string written (WritesDoc) under a step is the argument of that step, with exactly its delimiter, media type and content lines. The content lines must not contain the escape sequence of the delimiter itself (there is no way to write those)."
  },
  {
   "property": "C18",
   "status": "proved",
   "theorems": [
    "Gherkin.C18_doc_strings_opaque",
    "Gherkin.C17_doc_strings_quoted"
   ],
   "note": "Classic matcher, accepted texts."
  },
  {
   "property": "C19",
   "status": "proved",
   "theorems": [
    "Gherkin.C19_comments",
    "Gherkin.C19_comments_nowhere_else"
   ],
   "note": "Classic matcher. The language header itself is not listed as a comment."
  },
  {
   "property": "C20",
   "status": "proved",
   "theorems": [
    "Gherkin.C20_language_of_feature",
    "Gherkin.C20_unknown_language"
   ],
   "note": "Classic matcher."
  },
  {
   "property": "C21",
   "status": "proved",
   "theorems": [
    "Gherkin.C21_lines_unambiguous"
   ],
   "note": ""
  },
  {
   "property": "C22",
   "status": "partial",
   "theorems": [
    "Gherkin.C22_longest_step_keyword_partial",
    "Gherkin.C22_counterexample"
   ],
   "note": "false for dialects en-old, ht, sk (counterexample proved); proved for all other dialects"
  },
  {
   "property": "C23",
   "status": "proved",
   "theorems": [
    "Gherkin.C23_step_type_exact"
   ],
   "note": ""
  },
  {
   "property": "C24",
   "status": "proved",
   "theorems": [
    "Gherkin.C24_pickle_count",
    "Gherkin.C24_parsed_documents_compile"
   ],
   "note": "C24_parsed_documents_compile: parsed documents meet the hypotheses and compile (header cells without regex characters)"
  },
  {
   "property": "C25",
   "status": "proved",
   "theorems": [
    "Gherkin.C25_pickle_steps"
   ],
   "note": "for documents in which backgrounds come first, which parsed documents are (C24_parsed_documents_compile)"
  },
  {
   "property": "C26",
   "status": "proved",
   "theorems": [
    "Gherkin.C26_pickle_tags"
   ],
   "note": ""
  },
  {
   "property": "C27",
   "status": "proved",
   "theorems": [
    "Gherkin.C27_pickle_types"
   ],
   "note": ""
  },
  {
   "property": "C28",
   "status": "partial",
   "theorems": [
    "Gherkin.C28_pickle_replaced_partial",
    "Gherkin.C28_replaces_partial",
    "Gherkin.C28_filled_at_once",
    "Gherkin.C28_pickle_texts_partial",
    "Gherkin.C28_interpolate_partial",
    "Gherkin.C28_counterexample_value",
    "Gherkin.C28_counterexample_header",
    "Gherkin.C28_by_pattern"
   ],
   "note": "false in general: values with placeholders of later columns are substituted again, headers are used as regular expressions; for headers without special characters the exact effect is proved (one column after the other, every <header> is replaced by the value), and that all placeholders are filled at once if values contain no <"
  },
  {
   "property": "C29",
   "status": "proved",
   "theorems": [
    "Gherkin.C29_pickles_in_order",
    "Gherkin.C29_ids_exist",
    "Gherkin.C29_pickle_ids_fresh"
   ],
   "note": ""
  },
  {
   "property": "C30",
   "status": "proved",
   "theorems": [
    "Gherkin.C30_one_test_per_pickle",
    "Gherkin.C30_compiles"
   ],
   "note": "classic and Markdown; compilation succeeds for headers without regex characters (C30_compiles), for all re engines"
  },
  {
   "property": "C31",
   "status": "proved",
   "theorems": [
    "Gherkin.C31_tags"
   ],
   "note": ""
  },
  {
   "property": "C32",
   "status": "proved",
   "theorems": [
    "Gherkin.C32_find_node",
    "Gherkin.C32_find_typed"
   ],
   "note": "enclosing node = innermost dictionary around it"
  },
  {
   "property": "C33",
   "status": "partial",
   "theorems": [
    "Gherkin.C33_errors_partial",
    "Gherkin.C33_no_tests",
    "Gherkin.C33_other_failures",
    "Gherkin.C33_type_error_iff_eof",
    "Gherkin.C33_no_feature",
    "Gherkin.C33_counterexample"
   ],
   "note": "false in the code: an unexpected end of file has no column and makes build_gherkin_model raise TypeError; proved for error lists whose errors have columns"
  },
  {
   "property": "C34",
   "status": "partial",
   "theorems": [
    "Gherkin.C34_test_names_partial",
    "Gherkin.C34_counterexample"
   ],
   "note": "false in the code for examples keywords other than \"Examples\" (counterexample); proved for \"Examples\""
  },
  {
   "property": "C35",
   "status": "proved",
   "theorems": [
    "Gherkin.C35_unescape_escape",
    "Gherkin.C51_step_arguments"
   ],
   "note": "for every predicate str.isprintable; Robot Framework's unescape is the specification (Spec/Unescape.lean)"
  },
  {
   "property": "C36",
   "status": "proved",
   "theorems": [
    "Gherkin.C36_glob",
    "Gherkin.C36_plain",
    "Gherkin.C36_star",
    "Gherkin.C36_extension",
    "Gherkin.C36_extensions",
    "Gherkin.C36_no_negation"
   ],
   "note": "the pattern runs as the text of a regular expression; classes cannot be negated; ? also matches \"/\""
  },
  {
   "property": "C37",
   "status": "proved",
   "theorems": [
    "Gherkin.C37_iter_files"
   ],
   "note": "finite trees; unreadable directories yield nothing"
  },
  {
   "property": "C38",
   "status": "proved",
   "theorems": [
    "Gherkin.C38_resource_imports",
    "Gherkin.C38_settings"
   ],
   "note": ""
  },
  {
   "property": "C39",
   "status": "partial",
   "theorems": [
    "Gherkin.C39_setup_partial",
    "Gherkin.C39_events",
    "Gherkin.C39_test_partial"
   ],
   "note": "false when a teardown exists (C40_counterexample); a keyword with several matching tags runs several times"
  },
  {
   "property": "C40",
   "status": "partial",
   "theorems": [
    "Gherkin.C40_teardown_kept_partial",
    "Gherkin.C40_counterexample",
    "Gherkin.C40_new_teardown"
   ],
   "note": "false in the code: Library.py:109 configures data.setup where data.teardown is meant; proved for every suite and test"
  },
  {
   "property": "C41",
   "status": "partial",
   "theorems": [
    "Gherkin.C41_hooks_run_partial",
    "Gherkin.C41_counterexample"
   ],
   "note": "false in the code: break in a finally clause discards the exception; order and stopping at the first failure are proved"
  },
  {
   "property": "C42",
   "status": "proved",
   "theorems": [
    "Gherkin.C42_stream_blocks",
    "Gherkin.C42_stream_ended"
   ],
   "note": "C42_stream_ended: when an exception that is no parse error ends the stream (C04)"
  },
  {
   "property": "C43",
   "status": "proved",
   "theorems": [
    "Gherkin.C43_listing",
    "Gherkin.C43_listing_of_document"
   ],
   "note": "Classic matcher. Listed (Spec/Listing.lean) says what is shown for each kind of source line."
  },
  {
   "property": "C44",
   "status": "proved",
   "theorems": [
    "Gherkin.C44_round_trip"
   ],
   "note": "Classic matcher. Printer and what can be written: Spec/Print.lean. Equality up to locations and ids (Feature.unplaced, Spec/Bare.lean). Not printable, because the format cannot express it: a doc string line that contains an escaped delimiter, cells with blanks at their ends, a step whose keyword and text together begin with an earlier keyword."
  },
  {
   "property": "C45",
   "status": "proved",
   "theorems": [
    "Gherkin.C45_document",
    "Gherkin.C45_listing",
    "Gherkin.C45_crlf",
    "Gherkin.C45_final"
   ],
   "note": "classic matcher; both builders, both error modes"
  },
  {
   "property": "C46",
   "status": "proved",
   "theorems": [
    "Gherkin.C46_insert",
    "Gherkin.C46_remove",
    "Gherkin.C46_comment_in_description",
    "Gherkin.C46_blank_in_docstring"
   ],
   "note": "classic matcher; one line at a time, any line outside doc strings (a comment also not before or in a description, where the code rejects it); same pickles, ids included"
  },
  {
   "property": "C47",
   "status": "proved",
   "theorems": [
    "Gherkin.C47_stop_at_first_error",
    "Gherkin.C47_first_error",
    "Gherkin.C47_markdown"
   ],
   "note": "same kind, message and line; the column of an unknown-language error differs (its Location object is changed afterwards). Texts with lines that cannot be read (C04): C47_first_error."
  },
  {
   "property": "C48",
   "status": "proved",
   "theorems": [
    "Gherkin.C48_error_positions"
   ],
   "note": "Classic matcher. ErrorAt (Spec/Errors.lean) says for each kind of error what is wrong at its position."
  },
  {
   "property": "C49",
   "status": "proved",
   "theorems": [
    "Gherkin.C49_descriptions"
   ],
   "note": "Classic matcher. Only empty lines at the end are dropped; white-space-only lines at the end are kept, as in the code."
  },
  {
   "property": "C50",
   "status": "proved",
   "theorems": [
    "Gherkin.C50_feature_files",
    "Gherkin.C50_reader"
   ],
   "note": ""
  },
  {
   "property": "C51",
   "status": "proved",
   "theorems": [
    "Gherkin.C51_step_arguments",
    "Gherkin.C51_arguments_tell",
    "Gherkin.C30_one_test_per_pickle"
   ],
   "note": "Python literals are a specification of their own (Spec/PyLit.lean). That Robot Framework unescapes the text inside &{{...}} before evaluating it is not modelled."
  },
  {
   "property": "C52",
   "status": "proved",
   "theorems": [
    "Gherkin.C52_documentation"
   ],
   "note": ""
  },
  {
   "property": "C53",
   "status": "proved",
   "theorems": [
    "Gherkin.C53_markdown_quotes_source",
    "Gherkin.C53_tag_lines"
   ],
   "note": "Quoted, TagsIn: Spec/Markdown.lean."
  },
  {
   "property": "C54",
   "status": "partial",
   "theorems": [
    "Gherkin.C54_doc_strings_partial",
    "Gherkin.C54_counterexample"
   ],
   "note": "Proved for texts with one kind of delimiter, no tags in headings and no description line that begins with a delimiter. False in general: kernel-checked counterexample (a code fence in a description changes how the next doc string is read)."
  },
  {
   "property": "C55",
   "status": "proved",
   "theorems": [
    "Gherkin.C55_no_line_dropped"
   ],
   "note": "Forms, separator rows, prose: Spec/Markdown.lean."
  },
  {
   "property": "C56",
   "status": "proved",
   "theorems": [
    "Gherkin.C56_accepted_iff",
    "Gherkin.C56_layout_accepted",
    "Gherkin.C56_accepted_layout",
    "Gherkin.C56_nothing_accepted"
   ],
   "note": "Classic matcher. What a well-formed arrangement is: Spec/Layout.lean; what belongs to what: Spec/Outline.lean."
  },
  {
   "property": "C57",
   "status": "partial",
   "theorems": [
    "Gherkin.C57_plain_heading_partial",
    "Gherkin.C57_counterexample_tag",
    "Gherkin.C57_counterexample_feature"
   ],
   "note": "False in the code: kernel-checked counterexamples (a scenario heading with a tag in back quotes is read as a tag line; a second feature heading is dropped). Proved for headings of rules, backgrounds, scenarios and examples without such tags."
  },
  {
   "property": "C58",
   "status": "partial",
   "theorems": [
    "Gherkin.C58_printed_lines_partial",
    "Gherkin.C58_one_value",
    "Gherkin.C58_without_ast",
    "Gherkin.C58_feature_ends",
    "Gherkin.C58_false_by_default"
   ],
   "note": "False in the code: a document with a feature, a document with comments and a parse error contain Location objects, on which json.dumps raises TypeError; the program then ends (C58_feature_ends, for every file with a feature). Proved: the lines before are right, and with --no-ast and texts that parse all events are printed."
  },
  {
   "property": "C59",
   "status": "partial",
   "theorems": [
    "Gherkin.C59_markdown_outcome_partial",
    "Gherkin.C59_no_other_exception",
    "Gherkin.C59_counterexample_row"
   ],
   "note": "False in the code: a table row that ends inside an escape sequence raises RuntimeError (C59_counterexample_row). Proved: this is the only other exception, and only for texts with such a line."
  },
  {
   "property": "C60",
   "status": "proved",
   "theorems": [
    "Gherkin.C60_markdown_error_positions"
   ],
   "note": "MdErrorAt: Spec/MdErrors.lean."
  },
  {
   "property": "C61",
   "status": "proved",
   "theorems": [
    "Gherkin.C61_what_runs",
    "Gherkin.C61_what_you_write_is_what_runs"
   ],
   "note": "TestFor, SettingsFor: Spec/Runs.lean. Examples must be fillable (PlainExamples), texts in which a < has no > before the next < are not constrained."
  },
  {
   "property": "C62",
   "status": "proved",
   "theorems": [
    "Gherkin.C62_tests_are_independent"
   ],
   "note": "Case.content, Test.unplaced: Spec/Independent.lean"
  },
  {
   "property": "C63",
   "status": "proved",
   "theorems": [
    "Gherkin.C63_markdown_mirrors_classic",
    "Gherkin.C63_same_suite",
    "Gherkin.C63_same_suite_back"
   ],
   "note": "Mirrors: Spec/Mirror.lean"
  },
  {
   "property": "C64",
   "status": "proved",
   "theorems": [
    "Gherkin.C64_language",
    "Gherkin.C64_cell",
    "Gherkin.C64_tag_comment",
    "Gherkin.C64_tag_space",
    "Gherkin.C64_md_row",
    "Gherkin.C64_md_dashes",
    "Gherkin.C64_md_heading",
    "Gherkin.C64_md_step",
    "Gherkin.C64_md_tags",
    "Gherkin.C64_escape_whitespace"
   ],
   "note": "about the model of re in Regex.lean (reader and backtracking matcher)"
  },
  {
   "property": "C65",
   "status": "proved",
   "theorems": [
    "Gherkin.C65_saved",
    "Gherkin.C65_same_suite",
    "Gherkin.C65_undecodable"
   ],
   "note": "Robot Framework's FileReader is modelled after its source, which is not in /repo"
  },
  {
   "property": "C66",
   "status": "proved",
   "theorems": [
    "Gherkin.C66_lossless",
    "Gherkin.C66_line_ends",
    "Gherkin.C66_undecodable"
   ],
   "note": "exit by TypeError included (C58)"
  },
  {
   "property": "C67",
   "status": "partial",
   "theorems": [
    "Gherkin.C67_robot_partial",
    "Gherkin.C67_bom_refused",
    "Gherkin.C67_scanner_refuses"
   ],
   "note": "proved for Robot; false for the command and for paths: every file with a byte order mark is refused"
  },
  {
   "property": "C68",
   "status": "partial",
   "theorems": [
    "Gherkin.C68_path_partial",
    "Gherkin.C68_lone_cr"
   ],
   "note": "classic texts in which each CR is followed by LF; false for a CR alone, which ends a line only when read from a path"
  },
  {
   "property": "C69",
   "status": "partial",
   "theorems": [
    "Gherkin.C69_each_file",
    "Gherkin.C69_collected_partial",
    "Gherkin.C69_runner",
    "Gherkin.C69_one_spoils"
   ],
   "note": "proved when the collection succeeds; false otherwise: it fails with TypeError exactly if one file has a parse error without a column"
  },
  {
   "property": "C70",
   "status": "proved",
   "theorems": [
    "Gherkin.C70_suite_name"
   ],
   "note": ""
  },
  {
   "property": "C71",
   "status": "proved",
   "theorems": [
    "Gherkin.C71_lines_before",
    "Gherkin.C71_error_line",
    "Gherkin.C71_first_in_list"
   ],
   "note": ""
  },
  {
   "property": "C72",
   "status": "proved",
   "theorems": [
    "Gherkin.C72_indentation",
    "Gherkin.C72_same_pickles",
    "Gherkin.C72_same_suite",
    "Gherkin.C72_white_space"
   ],
   "note": "The conditions on descriptions and doc strings are necessary: C72_description_moved, C72_docstring_moved."
  },
  {
   "property": "C73",
   "status": "proved",
   "theorems": [
    "Gherkin.C73_plain_argument"
   ],
   "note": ""
  },
  {
   "property": "C74",
   "status": "partial",
   "theorems": [
    "Gherkin.C74_one_variable_partial",
    "Gherkin.C74_balanced_texts",
    "Gherkin.C74_unequal_braces",
    "Gherkin.C74_counterexample"
   ],
   "note": "False in the code if braces in a cell or doc string are not balanced: a closing brace alone ends the variable early (C74_counterexample). Proved: exactly one argument, and it is one dictionary variable iff the braces close; this holds if they are balanced in each text (C74_balanced_texts) and fails if their numbers differ (C74_unequal_braces)."
  },
  {
   "property": "C75",
   "status": "proved",
   "theorems": [
    "Gherkin.C75_run",
    "Gherkin.C75_help",
    "Gherkin.C75_usage",
    "Gherkin.C75_output",
    "Gherkin.C75_unreadable"
   ],
   "note": ""
  },
  {
   "property": "C76",
   "status": "proved",
   "theorems": [
    "Gherkin.C76_filter",
    "Gherkin.C76_pickles"
   ],
   "note": ""
  },
  {
   "property": "C77",
   "status": "proved",
   "theorems": [
    "Gherkin.C77_insert",
    "Gherkin.C77_remove",
    "Gherkin.C77_before_feature",
    "Gherkin.C77_in_docstring",
    "Gherkin.C77_separator",
    "Gherkin.C77_bad_row"
   ],
   "note": "the conditions are shown necessary by the last four; OneFence and PlainHeadings, as in C03 and C54, keep the parser from processing lines out of order; no text is known that fails only for want of them"
  },
  {
   "property": "C78",
   "status": "proved",
   "theorems": [
    "Gherkin.C78_insert",
    "Gherkin.C78_remove",
    "Gherkin.C78_insert_prose",
    "Gherkin.C78_remove_prose"
   ],
   "note": "the places are those of C46 and C77, where the conditions are shown necessary"
  },
  {
   "property": "C79",
   "status": "proved",
   "theorems": [
    "Gherkin.C79_same_document",
    "Gherkin.C79_same_pickles",
    "Gherkin.C79_other_type",
    "Gherkin.C79_unsorted"
   ],
   "note": "`C79_unsorted` shows that the condition on the order of keywords is needed: C22 fails in those languages"
  },
  {
   "property": "C80",
   "status": "proved",
   "theorems": [
    "Gherkin.C80_text",
    "Gherkin.C80_pickles",
    "Gherkin.C80_one_meaning"
   ],
   "note": "which texts a pattern stands for is defined by its syntax (Spec/Pattern.lean); this also checks the reader and the matcher of the model of re against that definition"
  },
  {
   "property": "C81",
   "status": "proved",
   "theorems": [
    "Gherkin.C81_pickles",
    "Gherkin.C81_suite",
    "Gherkin.C81_reorder",
    "Gherkin.C81_remove"
   ],
   "note": "texts are cut along their layout (Spec/Layout.lean; by C56 every accepted text with a feature has one)"
  },
  {
   "property": "C82",
   "status": "proved",
   "theorems": [
    "Gherkin.C82_pickles",
    "Gherkin.C82_suite",
    "Gherkin.C82_unrolled_pickles",
    "Gherkin.C82_unrolled_suite",
    "Gherkin.C82_reorder",
    "Gherkin.C82_remove"
   ],
   "note": "texts are cut along their layout (Spec/Layout.lean; by C56 every accepted text with a feature has one)"
  },
  {
   "property": "C83",
   "status": "proved",
   "theorems": [
    "Gherkin.C83_pickles",
    "Gherkin.C83_suite",
    "Gherkin.C83_plain",
    "Gherkin.C83_background_not_filled"
   ],
   "note": "texts are rewritten along their layout (Spec/Layout.lean; by C56 every accepted text with a feature has one); the condition on placeholders in backgrounds is part of the property, C83_background_not_filled shows that it is needed"
  },
  {
   "property": "C84",
   "status": "proved",
   "theorems": [
    "Gherkin.C84_pickles",
    "Gherkin.C84_suite"
   ],
   "note": "texts are given by their layout (Spec/Layout.lean; by C56 every accepted text with a feature has one)"
  },
  {
   "property": "C85",
   "status": "proved",
   "theorems": [
    "Gherkin.C85_markdown_listing"
   ],
   "note": "for prose the text shown is the line without some of the white space before it, perhaps unescaped (ProseOf); C54 says more about doc strings. The order of lines is C03"
  },
  {
   "property": "C86",
   "status": "proved",
   "theorems": [
    "Gherkin.C86_document",
    "Gherkin.C86_listing",
    "Gherkin.C86_crlf",
    "Gherkin.C86_final",
    "Gherkin.C86_suite",
    "Gherkin.C86_blank_feature"
   ],
   "note": "the condition on the first line is shown necessary by the last"
  },
  {
   "property": "C87",
   "status": "proved",
   "theorems": [
    "Gherkin.C87_round_trip",
    "Gherkin.C87_what_runs"
   ],
   "note": ""
  },
  {
   "property": "C88",
   "status": "proved",
   "theorems": [
    "Gherkin.C88_printable",
    "Gherkin.C88_apart",
    "Gherkin.C88_dialects",
    "Gherkin.C88_round_trip",
    "Gherkin.C88_stable",
    "Gherkin.C88_suite",
    "Gherkin.C88_counterexample"
   ],
   "note": "the condition on longer keywords (Document.Rewritable) is part of the claim; C88_counterexample shows that it is needed"
  },
  {
   "property": "C89",
   "status": "proved",
   "theorems": [
    "Gherkin.C89_listing_and_document",
    "Gherkin.C89_markdown",
    "Gherkin.C89_listed",
    "Gherkin.C89_stopping",
    "Gherkin.C89_markdown_stopping"
   ],
   "note": "a lockstep simulation of the two parses; the condition on tags is part of the claim"
  },
  {
   "property": "C90",
   "status": "proved",
   "theorems": [
    "Gherkin.C90_move",
    "Gherkin.C90_convert",
    "Gherkin.C90_suite"
   ],
   "note": "the conditions (Document.Rewritable, MdPrintable.Beyond) are part of the claim"
  },
  {
   "property": "C91",
   "status": "proved",
   "theorems": [
    "Gherkin.C91_same_document",
    "Gherkin.C91_same_pickles",
    "Gherkin.C91_same_suite",
    "Gherkin.C91_markdown"
   ],
   "note": "what counts as formatting is SameFile in Spec/Reformat.lean; steps that are a mere keyword are an exception (C91_bare_keyword)"
  },
  {
   "property": "C92",
   "status": "proved",
   "theorems": [
    "Gherkin.C92_calls_are_independent",
    "Gherkin.C92_editing"
   ],
   "note": "the condition on And and But at the beginning of the steps that follow cannot be dropped (C92_conjunction)"
  },
  {
   "property": "C93",
   "status": "proved",
   "theorems": [
    "Gherkin.C93_columns"
   ],
   "note": "the condition on the values cannot be dropped (C93_order)"
  },
  {
   "property": "C94",
   "status": "proved",
   "theorems": [
    "Gherkin.C94_written_out"
   ],
   "note": "the condition on the first step cannot be dropped (C94_first_and)"
  },
  {
   "property": "C95",
   "status": "proved",
   "theorems": [
    "Gherkin.C95_document",
    "Gherkin.C95_pickle",
    "Gherkin.C95_event"
   ],
   "note": "fields that Cucumber requires (keyword, name, text) are optional for the reader, since the builder drops keys without value"
  },
  {
   "property": "C96",
   "status": "proved",
   "theorems": [
    "Gherkin.C96_complete",
    "Gherkin.C96_markdown"
   ],
   "note": "the two exceptions for Markdown are real (C96_markdown_missing)"
  },
  {
   "property": "C97",
   "status": "proved",
   "theorems": [
    "Gherkin.C97_parts"
   ],
   "note": ""
  },
  {
   "property": "C98",
   "status": "proved",
   "theorems": [
    "Gherkin.C98_pickles",
    "Gherkin.C98_suite"
   ],
   "note": "texts are rewritten along their layout (Spec/Layout.lean; by C56 every accepted text with a feature has one)"
  }
 ]
}