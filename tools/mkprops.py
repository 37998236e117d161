#!/usr/bin/env python3
"""Writes /verif/properties.jsonl (one property per line)."""
import json
G="packages/gurke/src/gurke/"
R="src/GherkinParser/"
P=[]
def p(title,statement,quant,why,*anchors):
    P.append(dict(id=f"C{len(P)+1:02d}",title=title,statement=statement,quantifier=quant,why_tests_cant=why,anchors=list(anchors)))

p("Parsing terminates after one pass",
  "Parser.parse ends for every text, with the classic and with the Markdown matcher, having taken at most (number of lines + 1) tokens in its main loop, and each look-ahead also ends.",
  "every source text, both matchers, both stop_at_first_error settings",
  "A test runs finitely many texts; termination has to hold for every text and every look-ahead length.",
  G+"parser.py:Parser.parse",G+"parser.py:Parser.lookahead_0",G+"parser.py:Parser.lookahead_1",G+"token_scanner.py:TokenScanner.read")
p("Classic: every line is processed exactly once and in source order",
  "With the classic matcher the k-th token that the parser processes is the k-th line of the text, the last one is the end-of-file token; look-ahead for tag lines never reorders, drops or repeats a line.",
  "every source text, every point of the run",
  "Look-ahead pushes tokens back with extend(), which is only correct if two look-aheads stop at the same token; this must hold for every interleaving of tags, comments and blank lines.",
  G+"parser.py:Parser.read_token",G+"parser.py:Parser.lookahead_0",G+"parser.py:Parser.lookahead_1")
p("Markdown: every line is processed exactly once and in source order",
  "With the Markdown matcher the lines of a .feature.md file are processed exactly once and in source order.",
  "every Markdown source text",
  "Matching a blank line in Markdown mode changes the matcher's state, so the claim depends on the whole history of attempted matches, not on single lines.",
  G+"token_matcher_markdown.py:GherkinInMarkdownTokenMatcher.match_Empty",G+"parser.py:Parser.lookahead_1")
p("Malformed input is reported as CompositeParserException",
  "Parser.parse on a classic text either returns a document or raises CompositeParserException; it never fails with another Python exception.",
  "every source text",
  "Absence of AttributeError, IndexError, StopIteration, ... in the AST builder must hold for every sequence of lines, including every broken one.",
  G+"parser.py:Parser.parse",G+"ast_builder.py:AstBuilder.transform_node",G+"gherkin_line.py:GherkinLine.tags",G+"gherkin_line.py:GherkinLine.split_table_cells")
p("Accepted documents obey the Gherkin grammar",
  "When parse returns a document, the lines of the text form a derivation tree of the grammar in gherkin.berp: every rule's children are a word of that rule's right-hand side, and the leaves of the tree are all the lines in order.",
  "every accepted text, both matchers",
  "The 50-state table was generated; tests cover a few paths through it, the grammar describes infinitely many.",
  "packages/gurke/gherkin.berp",G+"parser.py:Parser.match_token")
p("Error lists are bounded and free of duplicates",
  "The error list of a CompositeParserException raised by parse has between 1 and 11 entries, no two with the same message, and as soon as an 11th distinct error is found parsing stops.",
  "every source text",
  "The bound must survive every mix of lexical, syntax and AST errors.",
  G+"parser.py:Parser.add_error",G+"parser.py:Parser.handle_external_error")
p("A document is returned only when no error occurred",
  "parse returns a document iff no error was recorded at any line; a document is never returned for a text with an unexpected token, an unknown language or a ragged table.",
  "every source text",
  "Errors are collected and parsing goes on; that none is lost until the end must hold for all continuations.",
  G+"parser.py:Parser.parse",G+"parser.py:Parser.add_error")
p("AST ids are pairwise distinct",
  "All ids (tags, rows, steps, backgrounds, scenarios, examples, rules) in a parsed document are pairwise distinct.",
  "every accepted text and every starting value of the id generator",
  "Uniqueness is a statement about all pairs of nodes of documents of any size.",
  G+"ast_builder.py:AstBuilder",G+"stream/id_generator.py:IdGenerator.get_next_id")
p("Ids are distinct across a whole event stream",
  "In one event stream over any list of sources, all ids of all documents and all pickles emitted are pairwise distinct, even when some of the sources fail to parse.",
  "every finite list of sources",
  "Ranges over histories: any number of sources in any order, with any failures in between.",
  G+"stream/gherkin_events.py:GherkinEvents.enum",G+"pickles/compiler.py:Compiler")
p("A parser object can be reused",
  "The result of parse does not depend on what the same parser and matcher objects parsed before (including failed parses, open doc strings and changed languages), except that ids are shifted by the number of ids already handed out.",
  "every history of earlier parses and every next text",
  "Quantifies over all histories of a stateful object.",
  G+"parser.py:Parser.parse",G+"token_matcher.py:TokenMatcher.reset",G+"ast_builder.py:AstBuilder.reset")
p("AST nodes quote the source faithfully",
  "For every feature, rule, background, scenario, examples and step in a parsed document, the source line with the node's line number has, at the node's column and after nothing but white space, the node's keyword (plus ':' for titles), and the node's name or text is the stripped rest of that line.",
  "every accepted classic text and every node of its AST",
  "Ranges over all nodes of all documents, with any indentation and any Unicode white space.",
  G+"token_matcher.py:TokenMatcher._match_title_line",G+"token_matcher.py:TokenMatcher.match_StepLine",G+"ast_builder.py:AstBuilder.transform_node")
p("No step is lost, duplicated or moved",
  "The steps of a parsed document in document order are exactly the lines recognised as step lines in source order; the same holds for scenarios, examples blocks, rules, backgrounds and tag lines.",
  "every accepted text",
  "A relation between an arbitrarily long source and the whole AST.",
  G+"ast_builder.py:AstBuilder.transform_node",G+"ast_node.py:AstNode.get_items",G+"parser.py:Parser.match_token")
p("Tags are read with the right names and columns",
  "For a tag line, every tag reported stands in the line as an '@' at exactly the reported column followed by the tag's name (white space between them is skipped), names contain no white space, and the tags reported are all the tags of the line up to a comment, in line order; writing tags separated by white space and optionally followed by a comment reads back exactly these tags.",
  "every tag line, any number of tags, any spacing",
  "Columns depend on all preceding tags and gaps; needs induction over the tag list.",
  G+"gherkin_line.py:GherkinLine.tags")
p("Table cells survive escaping",
  "Writing any list of cell values as a table row (escaping backslash, pipe and newline, any padding) and reading the row back gives the same list of values.",
  "every list of cell values without outer white space, every padding and indentation",
  "A round trip over all strings, including every mix of escapes.",
  G+"gherkin_line.py:GherkinLine.split_table_cells",G+"gherkin_line.py:GherkinLine.table_cells")
p("Cell columns point at the cell content",
  "The column reported for a table cell is the 1-based position in the source line where that cell's (escaped) content begins.",
  "every list of cells, every padding and indentation",
  "The column depends on all earlier cells with their escapes.",
  G+"gherkin_line.py:GherkinLine.table_cells")
p("Tables in accepted documents are rectangular",
  "In a parsed document every data table has at least one row and all its rows have the same number of cells; likewise the header and body rows of every examples table.",
  "every accepted text, every table",
  "Ranges over tables of every size.",
  G+"ast_builder.py:AstBuilder.ensure_cell_count",G+"ast_builder.py:AstBuilder.get_table_rows")
p("Doc string content is preserved",
  "A doc string written with any delimiter, media type and content lines under a step is read back with the same delimiter, media type and content: the opening indentation is removed from each line, deeper indentation stays, an escaped delimiter is unescaped.",
  "every list of content lines of which none starts with the delimiter, every indentation",
  "Content lines are arbitrary strings, including ones that look like Gherkin.",
  G+"token_matcher.py:TokenMatcher._match_DocStringSeparator",G+"token_matcher.py:TokenMatcher.match_Other",G+"ast_builder.py:AstBuilder.transform_node")
p("Doc strings are opaque",
  "Inside an open doc string no line other than one beginning with the opening delimiter ends it or is interpreted: keywords, tags, tables, comments, language headers and the other delimiter are all content.",
  "every line of every open doc string",
  "Must hold for every string a user may put in a doc string.",
  G+"token_matcher.py:TokenMatcher.match_DocStringSeparator",G+"parser.py:Parser.match_token_at_43")
p("Comments are collected completely",
  "document.comments lists exactly the comment lines of the text, in order, each with its full text (without line end), its line number and column 1, and comment lines appear nowhere else in the AST.",
  "every accepted text",
  "A relation between the whole source and the whole AST.",
  G+"ast_builder.py:AstBuilder.build",G+"token_matcher.py:TokenMatcher.match_Comment")
p("Language headers select the dialect",
  "A header '# language: xx' (any spacing) before the feature selects dialect xx for the rest of the text if xx is known, and otherwise makes parsing fail with 'Language not supported: xx' at that line; the feature's language field is the dialect in force.",
  "every language name, spacing and text",
  "Ranges over all names and spacings and over the rest of the text.",
  G+"token_matcher.py:TokenMatcher.match_Language",G+"token_matcher.py:TokenMatcher._change_dialect",G+"dialect.py:Dialect.for_name")
p("Title lines are unambiguous in every dialect",
  "In every shipped dialect a line is recognised as at most one of feature, rule, background, scenario (or outline) and examples line, and never both as a title line and as a step, comment, tag, table or doc string line.",
  "all 79 dialects, every line",
  "A line can have any text; the keyword tables have thousands of pairs.",
  G+"gherkin-languages.json",G+"token_matcher.py:TokenMatcher._match_title_line")
p("The longest step keyword wins",
  "If several step keywords of the dialect are prefixes of a step line, the step's keyword is the longest of them.",
  "every dialect and every line",
  "Keyword lists are searched first-match; correctness depends on the order of every table and on every line.",
  G+"token_matcher.py:TokenMatcher.match_StepLine",G+"gherkin-languages.json")
p("Step keyword types are exact",
  "A step's keywordType is Context, Action, Outcome or Conjunction according to the one keyword list that contains its keyword, and Unknown exactly for the '* ' bullet.",
  "every dialect and every step line",
  "Covers every keyword of every dialect with any step text.",
  G+"token_matcher.py:TokenMatcher.match_StepLine",G+"token_matcher.py:TokenMatcher._change_dialect")
p("Pickle counts",
  "Compiling a document gives one pickle for each scenario without examples blocks and, for a scenario with examples blocks, one pickle per body row of every examples block that has a header; nothing else.",
  "every document",
  "Documents of every shape and size.",
  G+"pickles/compiler.py:Compiler.compile")
p("Pickle steps are background steps followed by scenario steps",
  "The steps of a pickle refer, in order, to the feature background's steps, then the enclosing rule's background steps, then the scenario's steps; if the scenario has no steps the pickle has none. A rule's background never reaches scenarios outside that rule.",
  "every document, every pickle",
  "Ranges over all documents and relies on list aliasing being harmless.",
  G+"pickles/compiler.py:Compiler._compile_rule",G+"pickles/compiler.py:Compiler._compile_scenario",G+"pickles/compiler.py:Compiler._compile_scenario_outline")
p("Pickle tags are inherited in order",
  "The tags of a pickle are the feature's tags, the enclosing rule's tags, the scenario's tags and (for outline rows) the examples block's tags, in this order, with their ids.",
  "every document, every pickle",
  "Ranges over all documents.",
  G+"pickles/compiler.py:Compiler._pickle_tags")
p("And/But steps inherit the previous step's type",
  "The type of a pickle step is the keyword type of the nearest step at or before it in the pickle that is not a conjunction; if there is none it is Unknown (scenario) or None (outline row).",
  "every document, every step of every pickle",
  "Depends on an arbitrarily long prefix of steps, crossing backgrounds.",
  G+"pickles/compiler.py:Compiler._compile_scenario",G+"pickles/compiler.py:Compiler._compile_scenario_outline")
p("Outline placeholders are replaced by the row's values, simultaneously and verbatim",
  "In an outline row's name, step texts, table cells and doc strings every <header> is replaced by the row's value exactly as written (backslashes included), other text and unknown placeholders stay, and replaced values are not substituted again.",
  "every template, header row and value row",
  "Strings and tables of every size; substitution is done column by column.",
  G+"pickles/compiler.py:Compiler._interpolate")
p("Pickles come in document order and refer to existing nodes",
  "Pickles are emitted in document order (scenarios before rules as in the document, example rows in table order); the ids in astNodeIds and in pickle tags are ids of the scenario, row, step and tag nodes of the same document.",
  "every document",
  "Ranges over all documents.",
  G+"pickles/compiler.py:Compiler.compile")
p("One Robot test per pickle, one keyword call per pickle step",
  "For a feature file that parses and compiles to pickles the Robot model has one test case per pickle, in order, and each test case has one keyword call per pickle step, in order, named keyword + text (text only if the step type is Unknown) and carrying the source line of its step.",
  "every accepted feature file",
  "Ranges over all documents; relies on id lookup finding the right node every time.",
  R+"gherkin_builder.py:build_gherkin_model")
p("Robot tests carry the right tags",
  "A Robot test case is tagged with the names, without '@', of its rule, scenario and examples tags, and the suite's test tags are the feature's tags; a tag repeated on feature and scenario is kept on the test.",
  "every accepted feature file",
  "Ranges over all documents; tags are told apart by id.",
  R+"gherkin_builder.py:build_gherkin_model")
p("Node lookup by id finds the unique node",
  "find_ast_node_id on a parsed document returns exactly the node with the given id and its enclosing node, for each id occurring in the document, and nothing for other ids.",
  "every parsed document and every id",
  "Depth-first search over arbitrary trees.",
  R+"gherkin_builder.py:find_ast_node_id")
p("Parse errors become error entries, never tests",
  "For a feature file that does not parse, build_gherkin_model returns a model without any test case, whose entries are the parse errors one by one with their message, line and column.",
  "every feature file that does not parse",
  "Ranges over all broken inputs and all kinds of errors.",
  R+"gherkin_builder.py:build_gherkin_model",G+"errors.py:UnexpectedEOFException")
p("Test names of outline rows tell rows apart",
  "The test case name of an outline row is the interpolated scenario name followed by ' header = value' for each column of its examples table, whatever keyword introduces the examples.",
  "every accepted feature file with examples",
  "Ranges over all tables, dialects and keywords.",
  R+"gherkin_builder.py:build_gherkin_model")
p("Argument escaping is lossless",
  "Applying Robot Framework's unescaping to the text that escape() makes of a string gives the original string.",
  "every string",
  "A round trip over all strings.",
  R+"gherkin_builder.py:escape",R+"gherkin_builder.py:escape_whitespace")
p("Glob patterns mean what they say",
  "Pattern.matches: a pattern without special characters matches exactly itself; '*' matches any text without '/'; '**/*.ext' matches exactly the paths ending in '.ext' at any depth; '**/*.{a,b}' those ending in '.a' or '.b'.",
  "every pattern of these forms and every path",
  "Ranges over all paths; the implementation goes through a generated regular expression.",
  R+"glob_path.py:_glob_pattern_to_re",R+"glob_path.py:Pattern.matches")
p("File search is sound and complete",
  "iter_files yields exactly the files below the directory whose path relative to it matches one of the patterns and none of whose path prefixes matches an ignore pattern, each once.",
  "every directory tree and every pattern set",
  "Trees of every depth and width.",
  R+"glob_path.py:iter_files")
p("Resource imports are complete, filtered and sorted",
  "The suite imports exactly the .resource files below the feature file's directory whose name does not start with '_' or '.', as relative posix paths in sorted order, after the GherkinParser library.",
  "every directory tree",
  "Trees of every shape.",
  R+"gherkin_builder.py:build_gherkin_model")
p("Before-hooks run in order before the existing setup",
  "When a suite or test starts, its setup becomes a Run Keywords call that runs all matching hook keywords in resource-then-library order followed by the original setup with its arguments; without hooks nothing changes.",
  "every set of imported keywords and tags and every existing setup/teardown",
  "Ranges over all keyword stores.",
  R+"Library.py:Library._create_setup_and_teardown",R+"Library.py:Library.yield_hooks")
p("An existing teardown is kept and the setup not disturbed",
  "When a suite or test with a teardown starts and hooks match, the existing teardown still runs as teardown and the setup configured from the hooks is not replaced by it.",
  "every set of hooks and every existing setup/teardown",
  "Ranges over all keyword stores and configurations.",
  R+"Library.py:Library._create_setup_and_teardown")
p("A failing hook stops the hooks and fails the call",
  "call_hooks runs matching hook keywords in order until the first failure; a failure of a hook is passed on to the caller.",
  "every list of keywords and every failure position",
  "Ranges over all failure positions.",
  R+"Library.py:Library.call_hooks")
p("Event streams are all-or-nothing per source",
  "For each source the event stream emits either (as enabled) the source, then its document, then its pickles in compile order, or only parseError events, one per error in order; it goes on with the next source.",
  "every list of sources and every option setting",
  "Ranges over all inputs and histories.",
  G+"stream/gherkin_events.py:GherkinEvents.enum")
p("Token listings mirror the source",
  "Parsing with the token formatter returns one line per source line plus 'EOF', in order, each showing the line's number, the column, token type, keyword, text and items as matched.",
  "every accepted text",
  "Ranges over all texts.",
  G+"token_formatter_builder.py:TokenFormatterBuilder")
p("Printing and parsing again is the identity",
  "Printing any well-formed abstract feature (language, tags, names, descriptions, background, scenarios, steps, tables, doc strings, examples, rules) as Gherkin text and parsing the text gives back exactly this feature.",
  "every well-formed abstract feature",
  "The round trip ranges over all documents; it is the completeness half of grammar conformance.",
  G+"parser.py:Parser.parse",G+"ast_builder.py:AstBuilder",G+"token_matcher.py:TokenMatcher")
p("Line endings do not matter",
  "Parsing a text with LF line endings, the same text with CRLF line endings, and the same text with or without the line end of a non-empty last line gives the same result (same document or same errors).",
  "every text, every mixture of LF and CRLF line ends",
  "A relation between two runs over every text.",
  G+"token_scanner.py:TokenScanner.read",G+"token_matcher.py:TokenMatcher._set_token_matched")
p("Blank lines and comments do not change tests",
  "Adding or removing blank lines and comment lines outside doc strings and descriptions does not change the pickles of a document apart from ids.",
  "every text and every insertion point outside doc strings and descriptions",
  "A relation between two runs for all texts and insertion points.",
  G+"parser.py:Parser.match_token",G+"token_matcher.py:TokenMatcher.match_Empty")
p("Stopping at the first error reports the first error",
  "With stop_at_first_error set, parse returns the same document for error-free texts and otherwise raises the error that the collecting mode lists first (same kind, message and line).",
  "every text",
  "A relation between two runs for all texts.",
  G+"parser.py:Parser.handle_external_error",G+"parser.py:Parser.add_error")
p("Error positions lie in the text",
  "Every error raised by parse has a line number between 1 and number of lines + 1, equal to the line of the offending token, and unexpected-token messages quote exactly that line's trimmed text and list what the state expects.",
  "every source text that does not parse",
  "Ranges over all broken inputs.",
  G+"errors.py:UnexpectedTokenException",G+"parser.py:Parser.match_token")
p("Descriptions are the literal lines",
  "The description of a feature, rule, background, scenario or examples block is the text of the consecutive lines after the title up to the next keyword, tag, comment (or step/table) line, with leading and trailing blank lines removed and inner lines unchanged.",
  "every accepted text",
  "Descriptions consist of arbitrarily many arbitrary lines.",
  G+"ast_builder.py:AstBuilder.transform_node",G+"token_matcher.py:TokenMatcher.match_Other")
p("Feature files are found by their extension",
  "collect_gherkin_suites reads exactly the files at any depth below a directory whose names end in .feature or .feature.md, the latter as Markdown, the former as plain Gherkin.",
  "every finite directory tree and file name",
  "Ranges over all directory trees.",
  "src/GherkinParser/gherkin_builder.py:collect_gherkin_suites","src/GherkinParser/glob_path.py:iter_files")
p("Step arguments reach the keyword call unchanged",
  "A step without argument becomes a keyword call without argument; a data table or doc string becomes one argument &{{...}} whose inner text, after undoing Robot Framework's escapes, is a Python literal of the dictionary with exactly the table's cell values, row by row, or the doc string's content and media type.",
  "every accepted feature file, every table and doc string with any cell values and contents",
  "Cells and contents are arbitrary Unicode strings (quotes, backslashes, '=', control characters, runs of blanks) that pass two layers of escaping.",
  "src/GherkinParser/gherkin_builder.py:build_gherkin_model","src/GherkinParser/gherkin_builder.py:escape")
p("Suites and tests are documented and placed as in the feature file",
  "Each Robot test is documented with the description of its scenario (outer white space removed; nothing if there is none) and placed at the scenario's line and column; the suite has the feature's description as documentation and the feature's name.",
  "every accepted feature file that compiles",
  "Ranges over all documents; the node is found again by id lookup in the whole document.",
  "src/GherkinParser/gherkin_builder.py:build_gherkin_model","src/GherkinParser/gherkin_builder.py:find_ast_node_id")
p("Markdown documents quote the source",
  "In a document parsed from Markdown, every feature, rule, background, scenario and examples block stands in a heading of one to six '#' with a keyword of the language, ':' and the name, at the column reported (a feature may also be a plain line), every step in a list item with a step keyword and its text, every tag in back quotes, every row in a line beginning with '|' after at most five white space characters and not a separator row; a line is a tag line exactly if it has a tag in back quotes, and then all of them are its tags.",
  "every Markdown text, every language, both error modes",
  "Lines and languages are arbitrary; the matcher is stateful and probes lines repeatedly.",
  G+"token_matcher_markdown.py:GherkinInMarkdownTokenMatcher")
p("Markdown doc strings are read like classic ones",
  "A doc string in an accepted Markdown text has as content the lines between its two separator lines, without the indentation of the opening separator and with escaped separators replaced, and the rest of the opening line as media type.",
  "every accepted Markdown text",
  "Whether a separator line opens or closes depends on matcher state changed by look-ahead and by probing arbitrary earlier lines.",
  G+"token_matcher_markdown.py:GherkinInMarkdownTokenMatcher.match_DocStringSeparator",G+"token_matcher_markdown.py:GherkinInMarkdownTokenMatcher.match_Empty")
p("No Gherkin line of a Markdown text is silently dropped",
  "In an accepted Markdown text every line that has the form of a tag line (a tag in back quotes), of a heading with a rule, background, scenario or examples keyword of the language, of a list item (*, + or -) with a step keyword, or of a table row with at most five blanks before it, and that is no separator row, appears in the document: there is an element at its line, of a form the line has (or it is the feature line), or its text stands in a description or doc string, or it is a doc string fence.",
  "every accepted Markdown text, every language",
  "In Markdown every line that is not recognised is ignored, so a recogniser that misses a form loses steps or tests without an error.",
  G+"token_matcher_markdown.py:GherkinInMarkdownTokenMatcher")
p("Exactly the well-formed texts are accepted, with the structure of the text",
  "A text is accepted, in either error mode, if and only if its lines are arranged as Gherkin asks for: blank lines and comments; an optional language header naming a known language; tag lines; the feature title with its description; an optional background; scenarios with steps, their tables (all rows equally long) or closed doc strings, and examples; rules of the same kind; every line of the kind its place asks for in the language in force, comments anywhere except inside or before a description; or if there are only blank lines and comments. The document then has exactly the elements of that arrangement, each at its line and below the element it belongs to.",
  "every text, every default language, both error modes",
  "Both directions range over all texts: unit tests can only show some accepted and some rejected ones.",
  G+"parser.py:Parser.parse",G+"token_matcher.py:TokenMatcher",G+"ast_builder.py:AstBuilder")
p("A Markdown heading is read as that heading whatever its title contains",
  "In an accepted Markdown text, a heading with a feature, rule, background, scenario or examples keyword of the language is read as exactly that heading, whatever else stands in its title, unless it stands in a description or doc string.",
  "every accepted Markdown text, every language",
  "The forms of Markdown lines overlap (a heading can contain a tag in back quotes); which one wins depends on the order in which the parser asks, in every state.",
  G+"token_matcher_markdown.py:GherkinInMarkdownTokenMatcher.match_TagLine",G+"token_matcher_markdown.py:GherkinInMarkdownTokenMatcher.match_FeatureLine",G+"parser.py:Parser")
p("The command line program prints every event as one line of JSON",
  "python -m gurke prints, for the events of the files in order, one line each, which is a JSON text of printable ASCII characters whose value is the event; reading the line gives that value and no other. It ends with an exception only if parser or compiler do.",
  "all sequences of files, all options, all texts in all scripts",
  "Ranges over all texts, and so over every character that has to be escaped, and over every kind of event.",
  G+"__main__.py",G+"stream/gherkin_events.py:GherkinEvents.enum",G+"stream/source_events.py:source_event",G+"pickles/compiler.py:Compiler")
p("Parsing a Markdown text ends with a document or parser errors",
  "Parsing any Markdown text returns a document or raises CompositeParserException with at least one error (stop_at_first_error off) or a single ParserException (on); no other exception escapes.",
  "every Markdown text, every matcher and builder state, both error modes",
  "The Markdown matcher asks many questions about a line and keeps state across them, and the builder fails on token sequences it was not written for; only a proof over all texts and states excludes every other exception.",
  G+"parser.py:Parser.parse",G+"token_matcher_markdown.py:GherkinInMarkdownTokenMatcher",G+"gherkin_line.py:GherkinLine.split_table_cells",G+"ast_builder.py:AstBuilder")
p("Markdown parser errors name the line that is wrong",
  "Every error of a Markdown text names a line of the text (or the one after the last) and is true of it: a line is called unexpected only if it is a Gherkin line (a heading, list item, tag line, table row, separator row or doc string fence) that is quoted in the message and has none of the expected forms; an inconsistent row has another number of cells than another row; the end of the file is unexpected only if no end was expected.",
  "every Markdown text, every language, both error modes",
  "Ordinary prose lines must never be reported, whatever stands around them: that ranges over all texts and parser states.",
  G+"parser.py:Parser.match_token",G+"errors.py:UnexpectedTokenException",G+"errors.py:UnexpectedEOFException",G+"token_matcher_markdown.py:GherkinInMarkdownTokenMatcher.match_Empty",G+"ast_builder.py:AstBuilder.ensure_cell_count")
p("What you write is what Robot runs",
  "Building any feature file that parses and has a feature gives a suite with the feature's name, description and tags and exactly one test per scenario or example row, in document order; each test is named after its scenario (placeholders filled, row appended below Examples), documented with its description, tagged with the tags of rule, scenario and examples block, and calls the background steps and then its own steps, in order, each as written with the row's values in place of the placeholders and with the step's table or doc string as its argument. In particular this holds for any feature that is printed with any indentation and any language and then built. Header cells of examples have no character special in regular expressions (see C28).",
  "every feature file that parses, plain or Markdown; every feature that can be written down, every indentation, every language",
  "It chains tokenizer, parser, AST builder, compiler and Robot builder: a test shows it for one file, the claim is about every file and every feature.",
  "src/GherkinParser/gherkin_builder.py:build_gherkin_model",G+"parser.py:Parser.parse",G+"ast_builder.py:AstBuilder",G+"pickles/compiler.py:Compiler.compile")
p("A test depends on its own scenario only",
  "If a case (a scenario, or a row of an outline) of one feature file has the same content as a case of another feature file - the same name, description and steps, the same tags, the same background steps, the same headers and values - and the features have the same tags, then both files give the same Robot test for it, except for positions. So adding, removing or reordering other scenarios, rows, rules, blank lines or comments never changes what a test does.",
  "every two feature files that build to suites, and every pair of cases in them",
  "A test compares the output for files somebody thought of; the claim compares any two files that share a case.",
  "src/GherkinParser/gherkin_builder.py:build_gherkin_model",G+"pickles/compiler.py:Compiler.compile")
p("A Markdown file means what the classic file it mirrors means",
  "Take a classic feature file without descriptions and a Markdown file that says line by line the same: titles as headings, steps as list items, tags in back quotes, the same table rows and doc strings, separator rows where the classic file has comments, prose where it has blank lines. If the classic file is accepted then so is the Markdown file, its feature is the same up to columns, and the two files build to the same suite, up to positions.",
  "every pair of texts that mirror each other, in every language, both error modes",
  "A test has one pair of files; the claim is about all pairs, with tags, rules, outlines, tables, doc strings and prose in any arrangement.",
  G+"token_matcher_markdown.py:GherkinInMarkdownTokenMatcher",G+"token_matcher.py:TokenMatcher","src/GherkinParser/gherkin_builder.py:build_gherkin_model")
p("The regular expressions accept exactly the documented line syntax",
  "Run as regular expressions, the patterns in the code mean what the line syntax says, on every text: a line is a language header iff it reads '# language: name' with any white space between the parts; a table cell loses white space but no newline at its ends; a tag line ends before white space followed by '#'; a tag is refused iff it contains white space; in Markdown a heading is one to six '#', one white-space character, a keyword of the dialect and ':', a step is a bullet, white space and a step keyword, a table row has at most five white-space characters before its bar, a separator cell consists of dashes with optional colons, tags stand with their '@' between back quotes; escaping puts a backslash between the characters of each run of white space.",
  "every text; every dialect and every list of its keywords for the generated patterns",
  "Backtracking, anchors, escapes and character classes interact on inputs nobody wrote down; a unit test runs a pattern on a few strings.",
  G+"token_matcher.py:TokenMatcher.LANGUAGE_RE",G+"gherkin_line.py:GherkinLine.table_cells",G+"gherkin_line.py:GherkinLine.tags",G+"token_matcher_markdown.py:GherkinInMarkdownTokenMatcher._match_title_line","src/GherkinParser/gherkin_builder.py:escape")
p("Robot gets the same suite however the file is saved",
  "A feature file gives Robot Framework the same suite or the same error entries whether it is saved with LF or CRLF line ends or a mixture of both, and with or without a byte order mark. A file that is not UTF-8 becomes an error entry in line 1 and raises nothing.",
  "every text, every saved form of it; every byte sequence that is not UTF-8",
  "Ranges over all texts and all byte sequences; relates two runs on different bytes.",
  "src/GherkinParser/gherkin_builder.py:build_gherkin_model")
p("The command line program reads files without loss",
  "A source event carries the file's text exactly: encoding it again as UTF-8 gives the bytes of the file. Apart from source events the output does not depend on the files' line ends. A file that is not UTF-8 ends the program only after everything about the files before it has been printed, and nothing about later files is printed.",
  "every list of files, every content, every choice of options",
  "Ranges over all byte sequences and all positions of a wrong file in the list.",
  G+"stream/source_events.py:source_event",G+"__main__.py")
p("A byte order mark does not matter",
  "A file that begins with a UTF-8 byte order mark gives the same result as the file without it, for Robot Framework, for the command line program and for parsing from a path.",
  "every file, every entry point that reads a file",
  "Relates two runs on every file.",
  G+"stream/source_events.py:source_event",G+"token_scanner.py:TokenScanner.__init__","src/GherkinParser/gherkin_builder.py:build_gherkin_model")
p("Parsing a path is parsing its text",
  "Parsing a file given by its path gives the same document or errors as parsing the text of the file given as a string.",
  "every file, both error modes",
  "Relates two ways of reading over every text, including every use of carriage returns.",
  G+"token_scanner.py:TokenScanner.__init__",G+"token_scanner.py:TokenScanner.read")
p("Collecting a directory gives every feature file its own result",
  "Collecting the suites of a directory gives exactly one result for each feature file below it, at any depth; each result is what this file alone gives and does not depend on the content of other feature files. A file with errors gives its error entries and leaves the others alone. The runner adds the results behind the suites that are already there.",
  "every directory tree, every content of its files",
  "Ranges over all trees and all contents, and over which of many files is wrong.",
  "src/GherkinParser/gherkin_builder.py:collect_gherkin_suites","src/GherkinParser/gherkin_builder.py:GherkinRunner.start_suite")
p("A Robot suite is named after its feature",
  "The suite that Robot Framework gets for a file with tests has exactly the name of the feature in the file; a file that only gives error entries gives a suite without a name, and never a test.",
  "every file content",
  "Ranges over all byte sequences, including those that are no text or do not parse.",
  "src/GherkinParser/gherkin_parser.py:GherkinParser.parse","src/GherkinParser/gherkin_builder.py:build_gherkin_model")
p("The first syntax error is at the first line that cannot be right",
  "When the first error is a syntax error, the lines before the reported line can be continued to a text the parser accepts (unless they contain a table with rows of different widths, which is compared later), and, when it is a refused line, every text that has the same lines up to and including the reported one is refused there with the same error. The parser never reports a line too early or too late.",
  "every text whose first error is a syntax error, every text that begins with the same lines",
  "Ranges over all texts and all continuations of their beginnings; it relates the result for one text to infinitely many others.",
  "packages/gurke/src/gurke/parser.py:Parser.parse","packages/gurke/src/gurke/parser.py:Parser.match_token","packages/gurke/src/gurke/errors.py:UnexpectedTokenException","packages/gurke/src/gurke/errors.py:UnexpectedEOFException")
p("Indentation does not matter",
  "Changing the white space at the beginning of lines of an accepted text - except in descriptions, which are quoted, and in doc strings, whose content must keep its place relative to the opening line - gives an accepted text with the same feature: the same tags, titles, steps, tables, doc strings, descriptions and ids in the same lines, only columns differ. The pickles are the same, and so is the Robot suite, except for positions.",
  "every accepted text and every other indentation of it, every start state and error mode",
  "Ranges over all texts and all ways to indent their lines, including tabs and other Unicode white space; the doc string matcher carries the indentation as hidden state from line to line.",
  "packages/gurke/src/gurke/gherkin_line.py:GherkinLine","packages/gurke/src/gurke/token_matcher.py:TokenMatcher","packages/gurke/src/gurke/parser.py:Parser.parse")
p("An escaped text stays one plain argument",
  "For every text, what the escaping makes of it is one plain argument when Robot Framework reads it: no two white space characters stand next to each other (which would end the argument), every equals sign is escaped (which would make it a named argument), and it is never one of the words ELSE, ELSE IF, AND, which Robot Framework treats specially.",
  "every text, whatever counts as printable",
  "Ranges over all strings: runs of any Unicode white space of any length, any number of backslashes before an equals sign or a blank.",
  "src/GherkinParser/gherkin_builder.py:escape","src/GherkinParser/gherkin_builder.py:escape_whitespace")
p("A table or doc string arrives as one dictionary variable",
  "In the tests built from a feature file, the keyword call of a step with a data table or doc string has exactly one argument, and Robot Framework sees this argument as one dictionary variable - whatever is written in the cells or the doc string.",
  "every feature file, every pickle and step of it, every cell and doc string content",
  "Ranges over all contents of cells and doc strings, among them braces, quotes and backslashes in any number and order, which are escaped twice and then counted by Robot Framework's variable search.",
  "src/GherkinParser/gherkin_builder.py:build_gherkin_model","src/GherkinParser/gherkin_builder.py:escape")
p("Options may stand anywhere on the command line and mean what they say",
  "python -m gurke runs iff every argument before -- (if there is one) is a path or one of the switches --no-source, --no-ast, --no-pickles, written in full or cut short without ambiguity; it then reads exactly the other arguments and everything after --, in their order, and leaves out exactly the kinds of events whose switch is given, wherever the switch stands. Otherwise it shows help or refuses, without reading a file. A path that cannot be read ends it after everything about the files before has been printed.",
  "every list of arguments and every content of the disk",
  "Ranges over all argument lists: any number and order of switches and paths, abbreviations, dashes in paths.",
  "packages/gurke/src/gurke/__main__.py","packages/gurke/src/gurke/stream/source_events.py:SourceEvents")
p("Switching events off leaves them out and changes nothing else",
  "Switching off source or document events leaves out exactly these events of the stream: the others are the same, with the same ids and order, and the stream ends in the same way. Switching off pickles leaves out exactly the pickles; of the other events only the ids of documents may differ, and no exception is added.",
  "every list of sources and every combination of switches",
  "Ranges over all sequences of sources; parser and compiler share one id generator, so that the switches could influence later events through it.",
  "packages/gurke/src/gurke/stream/gherkin_events.py:GherkinEvents.enum","packages/gurke/src/gurke/stream/id_generator.py:IdGenerator")
p("Prose in Markdown does not change tests",
  "In an accepted Markdown feature file a line of prose (no heading with keyword, list item with step keyword, tag, table row, separator row or fence) can be added or removed anywhere after the feature's line and outside doc strings, even between the rows of a table: the file is still accepted, its feature is the same except for places, comments and descriptions, and it compiles to exactly the same pickles. (For files with one kind of fence and no tags in headings.)",
  "every accepted Markdown text, every line of prose, every place after the feature's line and outside doc strings, every language",
  "Ranges over all texts and places; prose is an empty line for the parser in some states and a description in others, it shifts line numbers, and look-ahead reads past it.",
  "packages/gurke/src/gurke/token_matcher_markdown.py:GherkinInMarkdownTokenMatcher.match_Empty","packages/gurke/src/gurke/parser.py:Parser.parse","packages/gurke/src/gurke/pickles/compiler.py:Compiler.compile")
p("Blank lines, comments and prose do not change the suite",
  "Take a feature file that Robot Framework gets a suite for. Adding or removing a blank line or a comment (outside doc strings, and a comment not before or inside a description), or in a Markdown file a line of prose after the feature's line, gives a file that still becomes a suite, of the same name, with the same library, resources, metadata and test tags, and with the same tests in the same order, each with the same name, tags and keyword calls with the same arguments. Only documentation and positions may differ.",
  "every feature file (classic or Markdown) that gives a suite, every such line and place, every directory and uri",
  "Ranges over all files and places; the test of a pickle is found again by searching node ids in the serialised document, whose line numbers all move.",
  "src/GherkinParser/gherkin_builder.py:build_gherkin_model","packages/gurke/src/gurke/parser.py:Parser.parse","packages/gurke/src/gurke/pickles/compiler.py:Compiler.compile")
p("Translating the keywords does not change the tests",
  "Take an accepted text and translate it to another language: its language header names the other language (or, without header, the parser is told that language), every line that begins with a title or step keyword begins with a keyword of the other language for the same kind of title or the same type of step, and everything else is kept. The translation is accepted too. Its document is the same except for the language, the keywords and the columns, and its pickles are the same except for the language they name.",
  "every text, every pair of languages whose keyword lists are ordered (all but three of the shipped ones), every such translation, every replacement of regular expressions",
  "Ranges over all texts and all pairs of about 80 languages; a keyword of one language may be the beginning of another or mean several types.",
  "packages/gurke/src/gurke/token_matcher.py:TokenMatcher","packages/gurke/src/gurke/dialect.py:Dialect.for_name","packages/gurke/src/gurke/pickles/compiler.py:Compiler.compile")
p("A header of an examples table is a regular expression",
  "If the headers of the examples tables of an accepted text are, between < and >, regular expressions in Python's notation (characters, escapes, classes, groups, alternatives, repetitions), the text compiles. In every pickle of an outline row the name, step texts, table cells, doc strings and media types are those of the outline where, one column after the other and from left to right, what the expression <header> matches is replaced by the row's value, verbatim, and everything else is kept. Everything else of the pickles is copied.",
  "every accepted text (classic or Markdown), every header in the notation that does not match the empty text, every value and every outline text",
  "Ranges over all patterns, values and texts: what a pattern matches is a set of texts given by its syntax.",
  "packages/gurke/src/gurke/pickles/compiler.py:Compiler._interpolate","packages/gurke/src/gurke/pickles/compiler.py:Compiler._compile_scenario_outline")
p("A file's tests are those of its scenarios, one after the other",
  "Cut an accepted feature file into its scenarios: for each the text with everything above the first scenario or rule, the lines of its rule above the rule's first scenario, and the lines of the scenario. These texts are accepted too. The cases of the file are theirs, one after the other, and so are the pickles, ids apart; if one cannot be compiled, the file cannot, for the reason of the first one. The file builds to a suite just if they all do; name and settings are the same and the tests are their tests, one after the other, positions apart. So changing the order of scenarios only changes the order of the tests, and taking scenarios away only takes their tests away.",
  "every accepted classic text, however many scenarios, rules, backgrounds and examples blocks it has, every regular expression engine, directory and place",
  "Ranges over all texts and all their cuts: nothing may leak from one scenario to another through parser, builder, compiler or id generator.",
  "packages/gurke/src/gurke/parser.py:Parser.parse","packages/gurke/src/gurke/ast_builder.py:AstBuilder","packages/gurke/src/gurke/pickles/compiler.py:Compiler.compile","src/GherkinParser/gherkin_builder.py:build_gherkin_model")
p("An outline's tests are those of its rows, one after the other",
  "Cut an accepted feature file into its scenarios without examples and its example rows: for each row the text with everything above the first scenario or rule, the lines of the rule above its first scenario, and the outline with only this row below the header of its table. These texts are accepted too. The cases of the file are theirs, one after the other, and so are the pickles, ids apart (with the exception of the first one that cannot be compiled). The file builds to a suite just if they all do; name and settings are the same and the tests are their tests, positions apart. A file in which every row is written as an outline of its own has the same suite; another order of rows only changes the order of tests, and taking rows away only takes tests away.",
  "every accepted classic text, however many outlines, examples blocks and rows it has, every regular expression engine, directory and place",
  "Ranges over all texts and all their rows: no value of one row may leak into the test of another, and the number and place of a row may not change its test.",
  "packages/gurke/src/gurke/parser.py:Parser.parse","packages/gurke/src/gurke/ast_builder.py:AstBuilder","packages/gurke/src/gurke/pickles/compiler.py:Compiler.compile","src/GherkinParser/gherkin_builder.py:build_gherkin_model")
p("Rules and backgrounds are abbreviations",
  "Take an accepted feature file and write it without rules and backgrounds: every scenario gets the tag lines of its rule above its own and, if it has steps, the steps of the feature's and the rule's background before its own. The result is accepted, its cases have the same descriptions, rows, tags and step keywords, and - if no placeholder of an example row stands in a background step - the same pickles, ids apart. It builds to a suite just if the original does, and the suites are the same except for positions. Backgrounds without an opening angle bracket meet the condition, if the headers have no characters special in regular expressions; with a placeholder in the background the tests may differ, because the code does not fill it there.",
  "every accepted classic text, however many rules and backgrounds it has, every regular expression engine, directory and place",
  "Ranges over all texts: the type of a step that begins with And, the order of tags and steps, and steps of one rule in the scenarios of another are only settled for all of them together.",
  "packages/gurke/src/gurke/pickles/compiler.py:Compiler.compile","packages/gurke/src/gurke/ast_builder.py:AstBuilder","src/GherkinParser/gherkin_builder.py:build_gherkin_model")
p("It does not matter how the language of a text is given",
  "Take two texts with the same feature whose language is the same: named by a language header, or the default of the matcher when there is no header; comments and blank lines around the header may differ. Both are accepted. Their features have this language and are the same except for positions, their cases are the same, and so are, ids apart, their pickles. Two such files build to the same suite, except for positions.",
  "every accepted classic text with a feature, every way to write its language header, all default languages of the matchers, every regular expression engine, directory and place",
  "Ranges over all texts, languages and header spellings, and over two matchers with different histories; a test compares a few pairs.",
  "packages/gurke/src/gurke/token_matcher.py:TokenMatcher","packages/gurke/src/gurke/dialect.py:Dialect.for_name","src/GherkinParser/gherkin_builder.py:build_gherkin_model")
p("A token listing of a Markdown text shows every line",
  "When a parse of a Markdown text with the token formatter gives a result, the result has one line for each line of the text and a last line EOF, separated by newlines. What the line for a text line shows - line number, column, type, keyword with its type, text and items - is determined by the form of the line: headings and list items with keywords, tags in back quotes, table and separator rows, doc string delimiters, prose. Lines stand in the order in which the parser takes them up, and this is the order of the text if all doc string delimiters are of one kind and no heading has a tag in back quotes.",
  "all Markdown texts, all languages, both error modes, builders with any history",
  "Ranges over all texts; a token that was peeked at carries what earlier match attempts left in it, and whether this shows in the listing depends on the whole text.",
  "packages/gurke/src/gurke/token_formatter_builder.py:TokenFormatterBuilder","packages/gurke/src/gurke/token_matcher_markdown.py:GherkinInMarkdownTokenMatcher","packages/gurke/src/gurke/parser.py:Parser.parse")
p("Line ends do not matter in Markdown texts",
  "Two Markdown texts that differ in their line ends only - Unix or Windows line ends, also mixed, with or without an end of a non-empty last line - parse to the same document or the same errors and have the same token listing, in both error modes, provided that the first line without tags in back quotes is not blank. The suite or error list that Robot Framework gets from a feature file or a Markdown file is the same too. (If that line is blank, it makes the feature, and the column of the feature counts the characters of the line end.)",
  "all pairs of texts that differ in line ends only, all languages, both error modes, both builders with any history, all file names and hook definitions",
  "Ranges over all texts; indentation, trimmed text and column of a line are computed from the line with its end, and queued tokens keep what failed match attempts left in them.",
  "packages/gurke/src/gurke/token_matcher_markdown.py:GherkinInMarkdownTokenMatcher","packages/gurke/src/gurke/gherkin_line.py:GherkinLine","packages/gurke/src/gurke/token_scanner.py:TokenScanner","src/GherkinParser/gherkin_builder.py:build_gherkin_model")
p("Writing a feature as Markdown and parsing it gives the feature back",
  "Every feature that can be written in Markdown (no descriptions, no dash-only cells, no text that looks like a tag in back quotes, no step with the keyword `* `) and is written down as Markdown - headings of any level from one to six, list items with any of the three markers and any indentation, tags in back quotes, rows indented by at most five blanks, doc strings - is accepted by the Markdown parser for its language, in both error modes, and the document has the same feature: same language, tags, keywords, names, steps, tables, doc strings, examples and rules, in the same order; only locations and ids are new. Run from a file ending in `.md`, an English feature gives a suite with its name and tags and exactly one test per case, as for a classic file.",
  "all features that can be written in Markdown, all styles of writing, all languages, both error modes, any history of the builder, all hook definitions",
  "Ranges over all features and all ways of writing them; headings, list items, tags, separator rows and fences are recognised by overlapping regular expressions, so that each line must be shown to be read as what it was written for.",
  "packages/gurke/src/gurke/token_matcher_markdown.py:GherkinInMarkdownTokenMatcher","packages/gurke/src/gurke/parser.py:Parser.parse","packages/gurke/src/gurke/ast_builder.py:AstBuilder","src/GherkinParser/gherkin_builder.py:build_gherkin_model")
p("What the parser reads can be written again: tidying up a feature file changes nothing",
  "Take any text the parser accepts, with a feature, and write the feature it has read as a text again, with any indentation of tags, titles, steps and tables. This text is accepted, with any matcher and in both error modes, and gives the same feature except for positions and ids, the same cases, the same pickles, and, from a file, the same Robot suite; writing what has been read from it gives the same text once more. The only condition is that no step keyword and step text, put together, begin with a longer keyword; this cannot happen in 74 of the 79 languages, and without it the claim is false (French: two blanks between `Étant donné` and `que`).",
  "all accepted texts with a feature, all styles of writing, all valid matchers for reading and reading again, both error modes, any history of the builder, all hook definitions",
  "Ranges over all accepted texts: every value the parser can take out of a line (tags, names, step texts, cells, descriptions, doc string lines with partly escaped delimiters) must be one that can be written, which is the converse of reading back what was written.",
  "packages/gurke/src/gurke/token_matcher.py:TokenMatcher","packages/gurke/src/gurke/parser.py:Parser.parse","packages/gurke/src/gurke/ast_builder.py:AstBuilder","packages/gurke/src/gurke/pickles/compiler.py:Compiler.compile","src/GherkinParser/gherkin_builder.py:build_gherkin_model")
p("A text has a token listing exactly when it has a document, but for uneven tables",
  "Parse the same text twice, collecting errors: into a document, and into a token listing. Either there are both; or all errors of the document (at most ten) are about tables with uneven rows, and there is a listing; or the listing fails with those errors of the document that are not about tables, in the same order; or the document has eleven errors, where parsing ends, and then all of them are about tables or there is no listing. When parsing stops at the first error, a text with a document has a listing, and a text with a listing has a document unless its first error is about a table with uneven rows. This is claimed for Markdown texts and for classic texts without white space inside a tag.",
  "all Markdown texts; all classic texts without white space inside a tag; all valid matchers; any history of the builders",
  "Ranges over all texts, with and without errors: the two builders see different histories once a table is refused, and the limit on the number of errors is reached at different times.",
  "packages/gurke/src/gurke/parser.py:Parser.parse","packages/gurke/src/gurke/ast_builder.py:AstBuilder","packages/gurke/src/gurke/token_formatter_builder.py:TokenFormatterBuilder","packages/gurke/src/gurke/token_matcher.py:TokenMatcher")
p("Feature files can be moved, and converted to Markdown",
  "A feature file gives the same suite, except for positions, under any file name of the same kind (`.md` or not) and at any path, if the resource files beside it are the same. And take any classic text that is read, and whose feature has nothing that Markdown cannot say (descriptions, names and cells that look like tags in back quotes, rows of dashes, steps with the keyword `* `): written as Markdown, with headings of any level, any list marker and any indentation, it is read with the same feature, the same cases and the same pickles, and an English file gives the same suite except for positions; from the Markdown text the classic text can be written again.",
  "all accepted classic texts within the conditions, all Markdown styles, all valid matchers, both error modes, any history of the builder, all file names, paths and directories, all languages for the documents",
  "Ranges over all accepted texts and styles; the two readers of classic and Markdown texts share little code.",
  "src/GherkinParser/gherkin_builder.py:build_gherkin_model","packages/gurke/src/gurke/token_matcher_markdown.py:GherkinInMarkdownTokenMatcher","packages/gurke/src/gurke/token_matcher.py:TokenMatcher","packages/gurke/src/gurke/pickles/compiler.py:Compiler.compile")
p("Formatting a feature file changes nothing",
  "Two accepted classic feature files that are formatted in different ways - other indentation, other blank lines and comments, other white space at line ends, around names and between step keywords and step texts, other padding and escaping of table cells, tags put on other lines or with comments behind them, doc strings indented as a whole - give the same document, positions and ids apart, the same pickles or the same failure to make them, and, for an English file, one builds to a suite exactly if the other does, to the same suite, positions apart. (A step line that is nothing but a keyword is an exception: white space at its end counts; and so does white space after a keyword if another keyword also begins the line.) Two Markdown files that say line by line what two such classic files say build to the same suite, too.",
  "all pairs of accepted files that differ in formatting only, all valid matchers, both error modes, any history of the builder, all engines, paths and directories",
  "Ranges over all pairs of layouts of all documents, with no bound on their size.",
  "packages/gurke/src/gurke/token_matcher.py:TokenMatcher","packages/gurke/src/gurke/gherkin_line.py:GherkinLine","packages/gurke/src/gurke/ast_builder.py:AstBuilder","packages/gurke/src/gurke/pickles/compiler.py:Compiler.compile","src/GherkinParser/gherkin_builder.py:build_gherkin_model")
p("The steps of a test are independent of each other",
  "A test has one keyword call for each step of its case, in order. The call of a step depends on the step alone - its keyword, text and argument -, on the example row, and on whether it counts as a step with `*` (`And` and `But` take this over from the step they follow, and their keyword is then left out of the call, too); so equal steps give equal calls in whatever test, scenario and file they stand. In particular, changing, adding or removing steps in a scenario only changes, adds or removes their calls; those of the steps before stay as they are, and so do those of the steps after, if these do not begin with `And` or `But`.",
  "every two feature files that build to suites, every pair of cases in them, every pair of steps, and every way to divide the steps into beginning, middle and end",
  "Ranges over all pairs of files and all positions of steps.",
  "src/GherkinParser/gherkin_builder.py:build_gherkin_model","packages/gurke/src/gurke/pickles/compiler.py:Compiler._pickle_step")
p("The names and the order of the columns of an examples table do not matter",
  "Rename columns of an examples table, in its header and in every placeholder of the outline, and put the columns into another order: the tests of its rows make the same keyword calls with the same arguments, and their names differ at most in the list of the row's values that is appended below Examples. Placeholders that are not of a column stay as written. (The names are all different and contain no character special in regular expressions and no `<` or `>`; the values contain no `<`.)",
  "every two feature files that build to suites and every pair of example rows in them that differ in this way: every renaming, every order of the columns, every outline",
  "Ranges over all tables, all permutations, all renamings and all texts; the code substitutes column by column, so that order could matter - and does, if a value is itself a placeholder.",
  "packages/gurke/src/gurke/pickles/compiler.py:Compiler._interpolate","src/GherkinParser/gherkin_builder.py:build_gherkin_model")
p("An example row is short for the scenario written out with its values",
  "Take a row of an outline's examples, and a plain scenario that is what the outline says with the row's values in place of the placeholders - in name, step texts, tables and doc strings -, below a background that says the same. Both tests make the same keyword calls with the same arguments, and the outline's has the same name, followed (below Examples) by the list of the row's values. (Headers contain no character special in regular expressions. The first step is not one with `And` or `But`: an outline keeps such a keyword in the name of the call, a scenario leaves it out.)",
  "every two feature files that build to suites, every example row of the first and every scenario of the second that is the outline written out",
  "Ranges over all outlines, rows and files; outlines and scenarios are compiled by different code, in which the types of steps start differently.",
  "packages/gurke/src/gurke/pickles/compiler.py:Compiler._compile_scenario_outline","packages/gurke/src/gurke/pickles/compiler.py:Compiler._compile_scenario","src/GherkinParser/gherkin_builder.py:build_gherkin_model")
p("Documents and pickles are Cucumber messages, and nothing is lost in them",
  "The dictionary that `parse` returns for a text is a `GherkinDocument` message of Cucumber: features, rules, backgrounds, scenarios, examples, steps, tables, doc strings, tags and comments are dictionaries whose keys are the fields of these messages, each holding what the parse found, and no others; keys are missing only where the parse found nothing. Likewise the dictionaries that the event stream yields are envelopes with exactly one `source` (with the media type of Gherkin), `gherkinDocument` (with the uri), `pickle` or `parseError`. A reader that knows only the names of the fields, in any order, gets back the document, the pickle, the source or the error; so different ones have different dictionaries.",
  "every document, every pickle and every event",
  "Ranges over documents of every shape and size, with every combination of present and missing parts.",
  "packages/gurke/src/gurke/ast_builder.py:AstBuilder.transform_node","packages/gurke/src/gurke/pickles/compiler.py:Compiler","packages/gurke/src/gurke/stream/gherkin_events.py:GherkinEvents.enum")
p("What every part of a document has to say is there",
  "In the document that the parser returns for a text, every feature, rule, background, scenario and examples block has its keyword and its title, every step its keyword, type and text, the feature its language, and every comment its text: the keys that Cucumber's messages require for these are never missing and never null. In the document of a Markdown text the same holds, except that the feature may be without keyword, and comments (the separator lines of tables) without text.",
  "every text and every Markdown text that is accepted, every start dialect, both error modes",
  "Ranges over all accepted texts; keys are dropped silently by the builder when a matcher leaves a value out.",
  "packages/gurke/src/gurke/ast_builder.py:AstBuilder.reject_nones","packages/gurke/src/gurke/token_matcher.py:TokenMatcher._set_token_matched","packages/gurke/src/gurke/token_matcher_markdown.py:GherkinInMarkdownTokenMatcher")
p("Names, descriptions, tags and steps of a scenario do not get in each other's way",
  "A test is its name, its documentation, its tags and its keyword calls, in this order, and nothing else; and each of these comes from one part of the feature file alone: the name from the scenario's name and the example row, the documentation from the scenario's description, the tags from the tags below the feature's, and the calls from the steps, the background and the row. So adding or changing tags or descriptions never changes what a test is called or does, and changing steps never changes its name, tags or documentation.",
  "every two feature files that build to suites and every pair of cases in them that agree in one of these parts",
  "Ranges over all pairs of files: tags are inherited through four levels, and steps from two.",
  "src/GherkinParser/gherkin_builder.py:build_gherkin_model","packages/gurke/src/gurke/pickles/compiler.py:Compiler")
p("A tag above is short for the tag at every place below",
  "Take an accepted feature file and write it without tags on the feature, on rules and on outlines: their tag lines stand above every scenario and every examples block below them instead, the outer ones first. The result is accepted; its cases have the same descriptions, rows, step keywords and tags, in the same order, and its pickles are the same, ids apart. It builds to a suite just if the original does; the suite has the same name and the same settings but for those about tags, which are gone, and its tests have the same names, documentation and keyword calls (positions apart), and altogether the same tags in the same order.",
  "every accepted classic text, however many tags, rules and outlines it has, every regular expression engine, directory and place",
  "Ranges over all texts: tags are inherited through four levels, and the tags of the feature take another way to the Robot test than all others.",
  "packages/gurke/src/gurke/pickles/compiler.py:Compiler._pickle_tags","packages/gurke/src/gurke/pickles/compiler.py:Compiler.compile","packages/gurke/src/gurke/ast_builder.py:AstBuilder.get_tags","src/GherkinParser/gherkin_builder.py:build_gherkin_model")
open("/verif/properties.jsonl","w").write("".join(json.dumps(x,ensure_ascii=False)+"\n" for x in P))
print(len(P))
