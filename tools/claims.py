claim('C01', 'proved', ['Gherkin.C01_classic_parse_terminates', 'Gherkin.C01_markdown_parse_terminates'],
      'fuel = number of lines + 1 never runs out; main loop takes at most lines + 1 tokens; look-aheads end from any state')
claim('C02', 'proved', ['Gherkin.C02_classic_lines_in_order'], 'for any builder whose errors own their location (both shipped builders do)')
claim('C05', 'proved', ['Gherkin.C05_accepted_text_is_derivation_tree', 'Gherkin.C05_markdown_accepted_text_is_derivation_tree'],
      'grammar transcribed from gherkin.berp in Spec/Grammar.lean')
claim('C06', 'proved', ['Gherkin.C06_error_list_bounded', 'Gherkin.C06_stops_at_eleventh'], '')
claim('C07', 'proved', ['Gherkin.C07_document_iff_no_error'], '')
claim('C13', 'proved', ['Gherkin.C13_tags_read', 'Gherkin.C13_tags_roundtrip', 'Gherkin.C13_tags_recognised'], 'white space between @ and name is skipped by the code; crash on white space inside a tag is C04')
claim('C14', 'proved', ['Gherkin.C14_row_roundtrip', 'Gherkin.C14_row_recognised'], 'values that begin or end with white space other than newline cannot be told from padding (CellValue); if there is no padding after a cell, its value must not have white space before a final newline (Tight)')
claim('C15', 'proved', ['Gherkin.C15_cell_columns'], '')
claim('C21', 'proved', ['Gherkin.C21_lines_unambiguous'], '')
claim('C22', 'partial', ['Gherkin.C22_longest_step_keyword_partial', 'Gherkin.C22_counterexample'], 'false for dialects en-old, ht, sk (counterexample proved); proved for all other dialects')
claim('C23', 'proved', ['Gherkin.C23_step_type_exact'], '')
claim('C08', 'proved', ['Gherkin.C08_ids_distinct', 'Gherkin.C08_document_returned'], 'ids of a document = exactly the ids handed out during the parse')
claim('C11', 'proved', ['Gherkin.C11_document_quotes_source'], 'classic matcher; also tags, rows and cells')
claim('C12', 'proved', ['Gherkin.C12_document_reads_source', 'Gherkin.C12_markdown_document_reads_source'], '')
claim('C16', 'proved', ['Gherkin.C16_tables_rectangular'], '')
claim('C24', 'proved', ['Gherkin.C24_pickle_count', 'Gherkin.C24_parsed_documents_compile'], 'C24_parsed_documents_compile: parsed documents meet the hypotheses and compile (header cells without regex characters)')
claim('C25', 'proved', ['Gherkin.C25_pickle_steps'], 'for documents in which backgrounds come first, which parsed documents are (C24_parsed_documents_compile)')
claim('C26', 'proved', ['Gherkin.C26_pickle_tags'], '')
claim('C27', 'proved', ['Gherkin.C27_pickle_types'], '')
claim('C28', 'partial', ['Gherkin.C28_pickle_replaced_partial', 'Gherkin.C28_replaces_partial', 'Gherkin.C28_filled_at_once', 'Gherkin.C28_pickle_texts_partial', 'Gherkin.C28_interpolate_partial', 'Gherkin.C28_counterexample_value', 'Gherkin.C28_counterexample_header', 'Gherkin.C28_by_pattern'], 'false in general: values with placeholders of later columns are substituted again, headers are used as regular expressions; for headers without special characters the exact effect is proved (one column after the other, every <header> is replaced by the value), and that all placeholders are filled at once if values contain no <')
claim('C29', 'proved', ['Gherkin.C29_pickles_in_order', 'Gherkin.C29_ids_exist', 'Gherkin.C29_pickle_ids_fresh'], '')
claim('C09', 'proved', ['Gherkin.C09_stream_ids_distinct'], '')
claim('C10', 'proved', ['Gherkin.C10_reuse', 'Gherkin.C10_markdown_reuse'], 'for any history of earlier parses on the same objects')
claim('C42', 'proved', ['Gherkin.C42_stream_blocks', 'Gherkin.C42_stream_ended'], 'C42_stream_ended: when an exception that is no parse error ends the stream (C04)')
claim('C36', 'proved', ['Gherkin.C36_glob', 'Gherkin.C36_plain', 'Gherkin.C36_star', 'Gherkin.C36_extension', 'Gherkin.C36_extensions', 'Gherkin.C36_no_negation'], 'the pattern runs as the text of a regular expression; classes cannot be negated; ? also matches "/"')
claim('C37', 'proved', ['Gherkin.C37_iter_files'], 'finite trees; unreadable directories yield nothing')
claim('C39', 'partial', ['Gherkin.C39_setup_partial', 'Gherkin.C39_events', 'Gherkin.C39_test_partial'], 'false when a teardown exists (C40_counterexample); a keyword with several matching tags runs several times')
claim('C40', 'partial', ['Gherkin.C40_teardown_kept_partial', 'Gherkin.C40_counterexample', 'Gherkin.C40_new_teardown'], 'false in the code: Library.py:109 configures data.setup where data.teardown is meant; proved for every suite and test')
claim('C41', 'partial', ['Gherkin.C41_hooks_run_partial', 'Gherkin.C41_counterexample'], 'false in the code: break in a finally clause discards the exception; order and stopping at the first failure are proved')
claim('C50', 'proved', ['Gherkin.C50_feature_files', 'Gherkin.C50_reader'], '')
claim('C35', 'proved', ['Gherkin.C35_unescape_escape', 'Gherkin.C51_step_arguments'], 'for every predicate str.isprintable; Robot Framework\'s unescape is the specification (Spec/Unescape.lean)')
claim('C32', 'proved', ['Gherkin.C32_find_node', 'Gherkin.C32_find_typed'], 'enclosing node = innermost dictionary around it')
claim('C30', 'proved', ['Gherkin.C30_one_test_per_pickle', 'Gherkin.C30_compiles'], 'classic and Markdown; compilation succeeds for headers without regex characters (C30_compiles), for all re engines')
claim('C31', 'proved', ['Gherkin.C31_tags'], '')
claim('C33', 'partial', ['Gherkin.C33_errors_partial', 'Gherkin.C33_no_tests', 'Gherkin.C33_other_failures', 'Gherkin.C33_type_error_iff_eof', 'Gherkin.C33_no_feature', 'Gherkin.C33_counterexample'], 'false in the code: an unexpected end of file has no column and makes build_gherkin_model raise TypeError; proved for error lists whose errors have columns')
claim('C34', 'partial', ['Gherkin.C34_test_names_partial', 'Gherkin.C34_counterexample'], 'false in the code for examples keywords other than "Examples" (counterexample); proved for "Examples"')
claim('C38', 'proved', ['Gherkin.C38_resource_imports', 'Gherkin.C38_settings'], '')
claim('C17','proved',['Gherkin.C17_doc_strings_quoted','Gherkin.C17_doc_string_read_back'],'Classic matcher, accepted texts: every doc string quotes its lines; and a doc string written (WritesDoc) under a step is the argument of that step, with exactly its delimiter, media type and content lines. The content lines must not contain the escape sequence of the delimiter itself (there is no way to write those).')
claim('C18','proved',['Gherkin.C18_doc_strings_opaque','Gherkin.C17_doc_strings_quoted'],'Classic matcher, accepted texts.')
claim('C19','proved',['Gherkin.C19_comments','Gherkin.C19_comments_nowhere_else'],'Classic matcher. The language header itself is not listed as a comment.')
claim('C20','proved',['Gherkin.C20_language_of_feature','Gherkin.C20_unknown_language'],'Classic matcher.')
claim('C49','proved',['Gherkin.C49_descriptions'],'Classic matcher. Only empty lines at the end are dropped; white-space-only lines at the end are kept, as in the code.')
claim('C04','partial',['Gherkin.C04_parse_outcome_partial','Gherkin.C04_no_other_exception','Gherkin.C04_counterexample_tag','Gherkin.C04_counterexample_row'],'false in the code for tag lines with white space inside a tag (AttributeError) and table rows that end inside an escape sequence (RuntimeError); proved that these are the only other exceptions, and which lines cause them')
claim('C47','proved',['Gherkin.C47_stop_at_first_error','Gherkin.C47_first_error','Gherkin.C47_markdown'],'same kind, message and line; the column of an unknown-language error differs (its Location object is changed afterwards). Texts with lines that cannot be read (C04): C47_first_error.')
claim('C48','proved',['Gherkin.C48_error_positions'],'Classic matcher. ErrorAt (Spec/Errors.lean) says for each kind of error what is wrong at its position.')
claim('C43','proved',['Gherkin.C43_listing','Gherkin.C43_listing_of_document'],'Classic matcher. Listed (Spec/Listing.lean) says what is shown for each kind of source line.')
claim('C45', 'proved', ['Gherkin.C45_document', 'Gherkin.C45_listing', 'Gherkin.C45_crlf', 'Gherkin.C45_final'], 'classic matcher; both builders, both error modes')
claim('C46', 'proved', ['Gherkin.C46_insert', 'Gherkin.C46_remove', 'Gherkin.C46_comment_in_description', 'Gherkin.C46_blank_in_docstring'], 'classic matcher; one line at a time, any line outside doc strings (a comment also not before or in a description, where the code rejects it); same pickles, ids included')
claim('C03','partial',['Gherkin.C03_lines_in_order_partial','Gherkin.C03_counterexample_title','Gherkin.C03_markdown_all_lines','Gherkin.C03_counterexample_fences','Gherkin.C03_counterexample_accepted'], 'False in the code: kernel-checked counterexamples (a tag in back quotes in a heading after a tag line, even in an accepted text; mixed doc string fences). Proved for texts with one kind of fence and no tags in headings; for all accepted Markdown texts it is proved that each line is processed exactly once (C03_markdown_all_lines).')
claim('C51', 'proved', ['Gherkin.C51_step_arguments', 'Gherkin.C51_arguments_tell', 'Gherkin.C30_one_test_per_pickle'], "Python literals are a specification of their own (Spec/PyLit.lean). That Robot Framework unescapes the text inside &{{...}} before evaluating it is not modelled.")
claim('C52', 'proved', ['Gherkin.C52_documentation'], '')
claim('C53','proved',['Gherkin.C53_markdown_quotes_source','Gherkin.C53_tag_lines'],'Quoted, TagsIn: Spec/Markdown.lean.')
claim('C54','partial',['Gherkin.C54_doc_strings_partial','Gherkin.C54_counterexample'],'Proved for texts with one kind of delimiter, no tags in headings and no description line that begins with a delimiter. False in general: kernel-checked counterexample (a code fence in a description changes how the next doc string is read).')
claim('C56','proved',['Gherkin.C56_accepted_iff','Gherkin.C56_layout_accepted','Gherkin.C56_accepted_layout','Gherkin.C56_nothing_accepted'],'Classic matcher. What a well-formed arrangement is: Spec/Layout.lean; what belongs to what: Spec/Outline.lean.')
claim('C44','proved',['Gherkin.C44_round_trip'],'Classic matcher. Printer and what can be written: Spec/Print.lean. Equality up to locations and ids (Feature.unplaced, Spec/Bare.lean). Not printable, because the format cannot express it: a doc string line that contains an escaped delimiter, cells with blanks at their ends, a step whose keyword and text together begin with an earlier keyword.')
claim('C55','proved',['Gherkin.C55_no_line_dropped'],'Forms, separator rows, prose: Spec/Markdown.lean.')
claim('C57','partial',['Gherkin.C57_plain_heading_partial','Gherkin.C57_counterexample_tag','Gherkin.C57_counterexample_feature'],'False in the code: kernel-checked counterexamples (a scenario heading with a tag in back quotes is read as a tag line; a second feature heading is dropped). Proved for headings of rules, backgrounds, scenarios and examples without such tags.')
claim('C58','partial',['Gherkin.C58_printed_lines_partial','Gherkin.C58_one_value','Gherkin.C58_without_ast','Gherkin.C58_feature_ends','Gherkin.C58_false_by_default'],'False in the code: a document with a feature, a document with comments and a parse error contain Location objects, on which json.dumps raises TypeError; the program then ends (C58_feature_ends, for every file with a feature). Proved: the lines before are right, and with --no-ast and texts that parse all events are printed.')
claim('C59','partial',['Gherkin.C59_markdown_outcome_partial','Gherkin.C59_no_other_exception','Gherkin.C59_counterexample_row'],'False in the code: a table row that ends inside an escape sequence raises RuntimeError (C59_counterexample_row). Proved: this is the only other exception, and only for texts with such a line.')
claim('C60','proved',['Gherkin.C60_markdown_error_positions'],'MdErrorAt: Spec/MdErrors.lean.')
claim('C61','proved',['Gherkin.C61_what_runs','Gherkin.C61_what_you_write_is_what_runs'],'TestFor, SettingsFor: Spec/Runs.lean. Examples must be fillable (PlainExamples), texts in which a < has no > before the next < are not constrained.')
claim('C62','proved',['Gherkin.C62_tests_are_independent'],'Case.content, Test.unplaced: Spec/Independent.lean')
claim('C63','proved',['Gherkin.C63_markdown_mirrors_classic','Gherkin.C63_same_suite','Gherkin.C63_same_suite_back'],'Mirrors: Spec/Mirror.lean')
claim('C64','proved',['Gherkin.C64_language','Gherkin.C64_cell','Gherkin.C64_tag_comment','Gherkin.C64_tag_space','Gherkin.C64_md_row','Gherkin.C64_md_dashes','Gherkin.C64_md_heading','Gherkin.C64_md_step','Gherkin.C64_md_tags','Gherkin.C64_escape_whitespace'],'about the model of re in Regex.lean (reader and backtracking matcher)')
claim('C65','proved',['Gherkin.C65_saved','Gherkin.C65_same_suite','Gherkin.C65_undecodable'],'Robot Framework\'s FileReader is modelled after its source, which is not in /repo')
claim('C66','proved',['Gherkin.C66_lossless','Gherkin.C66_line_ends','Gherkin.C66_undecodable'],'exit by TypeError included (C58)')
claim('C67','partial',['Gherkin.C67_robot_partial','Gherkin.C67_bom_refused','Gherkin.C67_scanner_refuses'],'proved for Robot; false for the command and for paths: every file with a byte order mark is refused')
claim('C68','partial',['Gherkin.C68_path_partial','Gherkin.C68_lone_cr'],'classic texts in which each CR is followed by LF; false for a CR alone, which ends a line only when read from a path')
claim('C69','partial',['Gherkin.C69_each_file','Gherkin.C69_collected_partial','Gherkin.C69_runner','Gherkin.C69_one_spoils'],'proved when the collection succeeds; false otherwise: it fails with TypeError exactly if one file has a parse error without a column')
claim('C70','proved',['Gherkin.C70_suite_name'],'')
claim('C71','proved',['Gherkin.C71_lines_before','Gherkin.C71_error_line','Gherkin.C71_first_in_list'],'')
claim('C72','proved',['Gherkin.C72_indentation','Gherkin.C72_same_pickles','Gherkin.C72_same_suite','Gherkin.C72_white_space'],'The conditions on descriptions and doc strings are necessary: C72_description_moved, C72_docstring_moved.')
claim('C73','proved',['Gherkin.C73_plain_argument'],'')
claim('C74','partial',['Gherkin.C74_one_variable_partial','Gherkin.C74_balanced_texts','Gherkin.C74_unequal_braces','Gherkin.C74_counterexample'],'False in the code if braces in a cell or doc string are not balanced: a closing brace alone ends the variable early (C74_counterexample). Proved: exactly one argument, and it is one dictionary variable iff the braces close; this holds if they are balanced in each text (C74_balanced_texts) and fails if their numbers differ (C74_unequal_braces).')
claim('C75','proved',['Gherkin.C75_run','Gherkin.C75_help','Gherkin.C75_usage','Gherkin.C75_output','Gherkin.C75_unreadable'],'')
claim('C76','proved',['Gherkin.C76_filter','Gherkin.C76_pickles'],'')
claim('C77','proved',['Gherkin.C77_insert','Gherkin.C77_remove','Gherkin.C77_before_feature','Gherkin.C77_in_docstring','Gherkin.C77_separator','Gherkin.C77_bad_row'],'the conditions are shown necessary by the last four; OneFence and PlainHeadings, as in C03 and C54, keep the parser from processing lines out of order; no text is known that fails only for want of them')
claim('C78','proved',['Gherkin.C78_insert','Gherkin.C78_remove','Gherkin.C78_insert_prose','Gherkin.C78_remove_prose'],'the places are those of C46 and C77, where the conditions are shown necessary')
claim('C79','proved',['Gherkin.C79_same_document','Gherkin.C79_same_pickles','Gherkin.C79_other_type','Gherkin.C79_unsorted'],'`C79_unsorted` shows that the condition on the order of keywords is needed: C22 fails in those languages')
claim('C80','proved',['Gherkin.C80_text','Gherkin.C80_pickles','Gherkin.C80_one_meaning'],'which texts a pattern stands for is defined by its syntax (Spec/Pattern.lean); this also checks the reader and the matcher of the model of re against that definition')
claim('C81','proved',['Gherkin.C81_pickles','Gherkin.C81_suite','Gherkin.C81_reorder','Gherkin.C81_remove'],'texts are cut along their layout (Spec/Layout.lean; by C56 every accepted text with a feature has one)')
claim('C82','proved',['Gherkin.C82_pickles','Gherkin.C82_suite','Gherkin.C82_unrolled_pickles','Gherkin.C82_unrolled_suite','Gherkin.C82_reorder','Gherkin.C82_remove'],'texts are cut along their layout (Spec/Layout.lean; by C56 every accepted text with a feature has one)')
claim('C83','proved',['Gherkin.C83_pickles','Gherkin.C83_suite','Gherkin.C83_plain','Gherkin.C83_background_not_filled'],'texts are rewritten along their layout (Spec/Layout.lean; by C56 every accepted text with a feature has one); the condition on placeholders in backgrounds is part of the property, C83_background_not_filled shows that it is needed')
claim('C84','proved',['Gherkin.C84_pickles','Gherkin.C84_suite'],'texts are given by their layout (Spec/Layout.lean; by C56 every accepted text with a feature has one)')
claim('C85','proved',['Gherkin.C85_markdown_listing'],'for prose the text shown is the line without some of the white space before it, perhaps unescaped (ProseOf); C54 says more about doc strings. The order of lines is C03')
claim('C86','proved',['Gherkin.C86_document','Gherkin.C86_listing','Gherkin.C86_crlf','Gherkin.C86_final','Gherkin.C86_suite','Gherkin.C86_blank_feature'],'the condition on the first line is shown necessary by the last')
claim('C87','proved',['Gherkin.C87_round_trip','Gherkin.C87_what_runs'],'')
claim('C88','proved',['Gherkin.C88_printable','Gherkin.C88_apart','Gherkin.C88_dialects','Gherkin.C88_round_trip','Gherkin.C88_stable','Gherkin.C88_suite','Gherkin.C88_counterexample'],'the condition on longer keywords (Document.Rewritable) is part of the claim; C88_counterexample shows that it is needed')
claim('C89','proved',['Gherkin.C89_listing_and_document','Gherkin.C89_markdown','Gherkin.C89_listed','Gherkin.C89_stopping','Gherkin.C89_markdown_stopping'],'a lockstep simulation of the two parses; the condition on tags is part of the claim')
claim('C90','proved',['Gherkin.C90_move','Gherkin.C90_convert','Gherkin.C90_suite'],'the conditions (Document.Rewritable, MdPrintable.Beyond) are part of the claim')
claim('C91','proved',['Gherkin.C91_same_document','Gherkin.C91_same_pickles','Gherkin.C91_same_suite','Gherkin.C91_markdown'],'what counts as formatting is SameFile in Spec/Reformat.lean; steps that are a mere keyword are an exception (C91_bare_keyword)')
claim('C92','proved',['Gherkin.C92_calls_are_independent','Gherkin.C92_editing'],'the condition on And and But at the beginning of the steps that follow cannot be dropped (C92_conjunction)')
claim('C93','proved',['Gherkin.C93_columns'],'the condition on the values cannot be dropped (C93_order)')
claim('C94','proved',['Gherkin.C94_written_out'],'the condition on the first step cannot be dropped (C94_first_and)')
claim('C95','proved',['Gherkin.C95_document','Gherkin.C95_pickle','Gherkin.C95_event'],'fields that Cucumber requires (keyword, name, text) are optional for the reader, since the builder drops keys without value')
claim('C96','proved',['Gherkin.C96_complete','Gherkin.C96_markdown'],'the two exceptions for Markdown are real (C96_markdown_missing)')
claim('C97','proved',['Gherkin.C97_parts'],'')
claim('C98','proved',['Gherkin.C98_pickles','Gherkin.C98_suite'],'texts are rewritten along their layout (Spec/Layout.lean; by C56 every accepted text with a feature has one)')
