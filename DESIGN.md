# Design

Subject: `d-biehl/robotframework-gherkin-parser` (v0.3.2), read as text from `/repo`; nothing of it is run.
The model is in `lean/Verif/`, plain Lean 4 (core only unless a file says otherwise). Layers:

| where | what | trusted for the meaning of a theorem? |
|---|---|---|
| `Verif/*.lean` | the model, function by function, each definition citing the lines of `/repo` | yes (faithfulness is by reading) |
| `Verif/Gen/*.lean` | transition table and dialect table, generated from `/repo` by `tools/extract_*.py` | yes |
| `Verif/Spec/*.lean` | specifications; they use data types of the model and line splitting, never parser, matcher or builder | yes |
| `Verif/Props/*.lean` | the property theorems, counterexamples and the examples that meet their hypotheses | their statements |
| `Verif/Proofs/*.lean` | lemmas and invariants | no, checked by the kernel |

## 1. How the code is modelled

* A Python `str` is `List Char` (`Str`). Lean's `Char` has no surrogates, so texts with lone surrogates are
  outside the model. `str.strip`, `re`'s `\s` and `str.isspace` agree on the 29 code points in `isSpace`.
* A method that mutates its object becomes a function that returns the new object. A method that can raise
  returns an `Except` *and* the new state, because the code catches exceptions and goes on with the mutated
  objects (`handle_external_error`).
* Exceptions are values: `ParserException`s carry message and location, every other Python exception is a
  `Crash` with the exception class.
* `while True` loops get fuel; that the fuel always suffices is a theorem (C01), not an assumption.
* Object ids: the code hands out `str(counter)`; the model hands out the counter (`Nat`), of which the decimal
  string is an injective image.
* The parser driver is polymorphic in the matcher (classic / Markdown) and in the builder (AST / token
  formatter) exactly as the Python code is by duck typing. Theorems about the driver (C01, C05–C07) hold for every
  *lawful* matcher: one that leaves a token's source line alone and recognises the end of file and nothing else there;
  both matchers are proved lawful.
* The transition table (`Verif/Gen/Table.lean`) and the dialect table (`Verif/Gen/Dialects.lean`) are generated
  by `tools/extract_table.py` / `tools/extract_dialects.py` from the text of `parser.py` and
  `gherkin-languages.json`. The first script checks that its reading of `parser.py` reproduces every source line.
* One ghost field: the parser context carries the list of builder events issued so far (`log`). It is never read
  by the model, only by theorems (history variable).
* Aliasing: an exception's location is the same Python object as its token's location. The only place where this can be
  seen is the error of an unknown language header, whose column is set to 1 by the comment match that follows. The model
  keeps a link (`aliasOf`) from the error to the line and applies the change; other aliasing cannot be observed.
* Python dictionaries of the AST (`get_ast_location`, `find_ast_node_id`) are modelled by typed records plus a view as
  ordered key–value lists (`Json.lean`), on which the tree search runs.

## 2. Per property plan

`Spec` names the file with the specification the theorem is stated against.

| id | modelled | spec | proof |
|---|---|---|---|
| C01 | `Parser.parse`, `lookahead_*`, scanner with fuel | – | fuel never runs out: measure = non-EOF tokens in queue + unread lines |
| C02 | same, classic matcher | Source | invariant "queue ++ unread lines = suffix of the text" over all iterations; look-ahead stops at the same token |
| C03 | same, Markdown matcher | Source, Markdown | false in the code: concrete counterexamples; partial: in order if no title has a back-quoted tag and only one kind of fence occurs; every line exactly once in every accepted text |
| C04 | everything under `parse` | Errors | stack typing invariant per state; the two crash inputs (tag with white space, row ending in `\`) are exact exceptions (both directions) |
| C05 | table + grammar from `gherkin.berp` as regular expressions | Grammar | finite check of all transitions against derivatives, lifted by induction to all runs |
| C06, C07 | `add_error`, `handle_external_error` | – | invariant on the error list |
| C08, C09 | id counter through builder, compiler, event stream | Doc, Stream | every id is in `[counter before, counter after)`, ranges disjoint |
| C10 | parser and matcher objects with state between calls | Shift | `reset` makes the start states equal; equivariance under id shift |
| C11, C12, C19, C49 | AST builder over log | Cst, Doc, Quotes, Blocks | AST = evaluation of the derivation tree; leaves are the source lines |
| C13, C14, C15 | `GherkinLine.tags`, `table_cells`, `split_table_cells` | Tags, Cells | induction over items |
| C16 | `ensure_cell_count` | Doc | invariant on AST |
| C17, C18 | matcher in doc string states | Blocks | induction over content lines |
| C20–C23 | `Dialect`, `TokenMatcher` | Language, LineKind, Steps | finite check of the whole dialect table, lifted to all lines by prefix lemmas |
| C24–C29 | `Compiler` | Pickles, PickleText, Interpolate | structural induction on the document; declarative list of test cases |
| C30–C34 | `gherkin_builder` with Robot model classes as plain data | Robot, Within | list equations; tree search on the dictionary view of the AST |
| C35 | `escape`, Python `repr` | Unescape (Robot Framework's) | induction over the string |
| C36–C38 | `glob_path`, its patterns run as regular expressions (`Regex.lean`); directory trees | Glob, Files | induction |
| C39–C41 | `Library` over an abstract keyword store | Hooks | list equations; counterexamples where the code is wrong |
| C42 | `GherkinEvents.enum` | Stream | cases |
| C43 | `TokenFormatterBuilder` as second builder | Listing | from C02/C05 and a match lemma per kind of line |
| C44 | printer as specification (no code of /repo) | Print | layout of the printed text (C56), then the tree's evaluation |
| C45–C47 | two runs related | LineEnds, Noise, Bare | simulation |
| C48 | errors carry their token | Errors | invariant; every kind of error has its own exact form |
| C50 | `collect_gherkin_suites` | Files, Glob | from C36/C37 |
| C51 | `callArgs` | Unescape, PyLit | from C35 and a reader relation for Python literals |
| C52 | `testDoc`, `headerPos`, `settings` | Robot | list equations |
| C53–C55, C57 | Markdown matcher | Markdown, Blocks | per line form lemmas lifted to all runs; counterexamples where the code is wrong |
| C56 | whole classic parser | Layout, Outline | both directions: a layout drives the automaton to acceptance; an accepted run's tree is read back as a layout |
| C58 | `__main__`, the dictionaries of events, `json.dumps` | JsonText, Shown | induction on the value; a JSON text has one value (prefix-free grammar) |
| C59 | Markdown matcher, parser, AST builder | LineKind, Errors | invariant over the parser loop: the stack of nodes is well formed, tokens are lines of the text; every answer of the matcher by cases |
| C60 | the same, error constructors | MdErrors, Markdown | the same loop; refused transitions give refused forms; invariant: after the feature line the matcher remembers it |
| C61 | everything from text to tests | Runs, Print, Bare | composes C24, C27, C28, C30 and, for printed features, C44; the tests do not depend on locations and ids |
| C62 | compiler, Robot builder | Independent | the exact test of a case (`exactTest`) is a function of the content of the case: interpolation, argument and type relations are functional |
| C63 | both matchers, parser, Robot builder | Mirror | a simulation: where the classic matcher takes a step the Markdown matcher takes the same transition on the mirrored line with the same token up to columns; then the concrete syntax trees agree, then the documents |
| C64 | every pattern of the code, through a reader and backtracking matcher for `re` (`Regex.lean`) | Language, Cells, Markdown | induction over the text; each pattern is read by evaluation, the generated ones (keyword lists) by induction over the list |
| C65–C68 | the three readers of files as functions on bytes (`FileText.lean`): `source_event`, `TokenScanner(path)`, Robot's `FileReader`; Lean's UTF-8 decoder | FileText, LineEnds | what each reader makes of a saved text (induction over it), then the simulation of C45; for a byte order mark: no transition of the first state takes the line |
| C69, C70 | `collect_gherkin_suites`, `GherkinRunner.start_suite`, `GherkinParser.parse` over a directory tree with contents (`Collect.lean`) | Collect, Files | the search (C37, C50), then induction over the list of files; failures by C33 |
| C71 | the whole parse in both error modes | FirstError | every state of the automaton that is reached before the error has a way to the end (a closing line per state, checked over the 42 states, including the look-ahead states), and the lines before do not depend on what follows the refused line; induction over the lines |
| C72 | the whole parse, the compiler, the Robot suite builder | Indent | simulation: two runs over lines with the same stripped text stay in the same states with tokens that differ in columns only; the indentation of the last opening line is the invariant for doc strings |
| C73 | `escape`, `escape_whitespace` | RobotVar | induction over the string |
| C74 | the Robot suite builder with arguments | RobotVar (Robot Framework's variable search) | induction over the string: braces are never escaped by `escape`, so the search counts all of them |
| C75 | `__main__.py` with `optparse` | Args | induction over the arguments; the abbreviations of four words by evaluation |
| C76 | the event stream | Switches | induction over the sources |
| C77 | the Markdown matcher, parser, AST builder, compiler | MdNoise, Bare | every accepted Markdown parse is a run of a deterministic automaton with look-ahead (`md_accepted_run`); runs are cut at the line, renumbered and put together again; the tokens that make the document's content are the same |
| C78 | the whole path from text to suite | Quiet, Noise, MdNoise | C46 and C77 give documents equal up to places and descriptions; such documents compile to the same pickles, and the exact test of each case (`exactTest`) depends on its description only in the documentation item |
| C79 | parser, matcher, builder and compiler in every shipped language | Translate, TransDoc, TransLine, TransRun, TransParse, TransPickles | a run over the text and a run over its translation make the same moves: paired lines fit the same kinds in their dialects and give tokens equal up to keyword, column and language; documents equal up to these compile to pickles equal up to the language |
| C80 | `_interpolate` with headers that are regular expressions, the model of `re` | Pattern, PatternRun, PatternRead | reading a pattern in the notation of the specification, by induction on the notation, gives an expression whose matches are the texts the notation stands for; scanning from left to right replaces them |
| C81 | parser, builder, compiler and `build_gherkin_model` on a text and on the texts with one of its scenarios each | Parts, PartsCst, PartsCompile, PartsGather | the tree of a layout, line numbers and ids erased, is put together from those of its parts; compiling from any id on gives the same pickles, ids apart, so the pickles are a concatenation; tests by C62 |
| C82 | as C81, down to the rows of examples | Rows, PartsRows, Parts | an outline is compiled as its rows are, one after the other; the layouts of the rows say what the parts of the tree say; then as C81 |
| C83 | compiler and `build_gherkin_model` on a text and on the one without rules and backgrounds | Flat, PartsFlat, Rows | the loops over background steps and own steps are one loop over both; a row that leaves a text as it is compiles a step as the background loop does; a test is a function of the pickle and of description, row, tags and keywords of its case |
| C84 | classic matcher, AST builder, compiler and `build_gherkin_model` on two texts with the same feature | Header, PartsCst, Flat | at the feature line the matcher is the same whether the language came from a header or from its default; nothing but the dialect is used after that |
| C85 | token formatter with the Markdown matcher | MdListing, MdQuote, MdAuto | a token that is built is the result of a successful match, and this depends only on its line and the matcher; then one lemma per kind of line |
| C86 | Markdown matcher, scanner, parser | MdEol, MdEolParse, MdEolBuild | simulation as for C45; the token relation is weaker, since a failed match attempt leaves the indentation of a blank line in the token: it is equal lines and equal fields, except for the column of blank lines |
| C87 | Markdown matcher, parser, AST builder, Robot builder | MdPrint, MdPrintMir, ChangeTwice | the Markdown lines mirror (C63) the classic lines of the same feature, which are read back as for C44; a reader-independent proof that no printed row has a dash cell and no printed line a tag |
| C88 | classic matcher, parser, AST builder, compiler, Robot builder | Rewrite, Print, Layout | the layout of an accepted text (C56) is evaluated part by part; every value taken out of a line that has no newline but at its end meets the printer's condition; then C44 |
| C89 | both matchers, parser, AST builder, token formatter | Swap, Errors | lockstep simulation of two parses with the same matcher and different builders: the contexts agree on scanner, matcher and queue, and the errors of the second are those of the first that do not come from its builder |
| C90 | both matchers, parser, AST builder, compiler, Robot builder | Convert, MdPrint, Rewrite | what is read is printable (C88); printed in Markdown it is read back (C87); pickles carry the path only as a label |
| C91 | classic matcher, parser, AST builder, compiler, Robot builder | Reformat | both texts are read as what their layouts say (C75, C79); the layouts say the same |
| C92 | compiler, Robot builder | Calls, Independent, Pickles | the test is exactly the calls of its pickle's steps (C62), which are made one by one |
| C93 | compiler, Robot builder | Columns, Calls, Pickles | filling all placeholders at once (C28) is invariant under renaming and reordering; lifted to the calls of a test (C62) |
| C94 | compiler, Robot builder | WrittenOut, Columns | same call-by-call comparison as for C93, with `ReplacedAll` (C28) as the relation between the texts |
| C95 | AST builder, compiler, event stream (their dictionaries) | Messages | a strict reader of Cucumber's field names, written apart from the model, inverts the dictionaries; by recursion over their shape |
| C96 | matchers, parser, AST builder | Complete, Filled | everything in the document is what a token built by the matcher says (C12); each `match_*` function sets these fields |
| C97 | compiler, Robot builder | Labels, Calls, Independent | the test of a case is known exactly (C62); each part is read off |
| C98 | matcher, parser, AST builder, compiler, Robot builder | TagsDown, Layout, Robot | the rewritten layout is well-formed; compiling a scenario below tags and compiling it with the tags written at it are the same function; the tests follow from what they take from the case (C83) |

## 3. Trusted base

* Lean 4.33 kernel and the standard axioms `propext` (P), `Classical.choice` (C), `Quot.sound` (Q); section 6 lists them per
  theorem. No axiom is added. `decide +kernel` is used for closed finite facts (tables, samples): the kernel evaluates them.
  No `native_decide`, `bv_decide`, `implemented_by`, `unsafe`.
* That the model says what the code says: by reading, with the cited lines. The code is not run here.
* The two extraction scripts in `tools/` (their output is committed and can be read).
* Python's `re`: `Regex.lean` models the part of it that occurs (reading a pattern to an expression, backtracking with greedy quantifiers and groups,
  `match`, `search`, `fullmatch`, `finditer`, `sub`, `split`), after Python's documentation. Every pattern of /repo is run through it: glob patterns
  (`Glob.matches`) and outline headers (`Pickles.reSub`) in the model itself; the fixed ones are modelled as functions on strings, and C64 (with the
  `*_regex` theorems in `Proofs/Rx*.lean`) proves that each function is what its pattern computes. `Engine` stands for `re.sub` on headers that
  `Regex.read` refuses (wrong patterns, look-around, back references, ...); it is a parameter and every theorem holds for all engines. C80 checks reader and matcher against a definition of the
  notation and the texts it stands for (`Spec/Pattern.lean`), which leaves the order of the alternatives (greedy first) and the captured groups to trust.
* Reading files (`FileText.lean`): Python's strict UTF-8 codec is Lean's `ByteArray.utf8Decode?` (proved in Lean's library to accept exactly the encodings
  of texts); universal newlines of `io.open` and Robot's `FileReader` (decode, drop a byte order mark, CRLF to LF) follow their documentation and
  source. Surrogates cannot occur in a `Str`.
* `str.isprintable` (used by `repr`) is a parameter `printable : Char → Bool`; C35/C51 hold for every such function.
* Robot Framework: `escape` comes from /repo; `unescape` in `Spec/Unescape.lean` is Robot's published algorithm and is not in
  /repo. `from_params` constructors are modelled as keeping their arguments as data, `KeywordCall.from_params` as the token
  list documented for Robot 4–7. `closeVar`/`DictVariable` in `Spec/RobotVar.lean` is Robot's search for the brace that closes a variable
  (robot/variables/search.py), also not in /repo.

## 4. What is not modelled

* A known difference between `Regex.read` and Python's `re`: in a character class, `-` between a class escape and another character (`[\s-z]`) is read as a
  literal minus; Python rejects the pattern ("bad character range"). It concerns only examples headers (and no pattern of the code itself) written in this way.
* Errors of the operating system while reading files, and its directory order beyond a given directory tree (`Files.lean` takes the
  tree as data; symbolic links and permission errors are not modelled).
* The help text of `python -m gurke` and the encoding of the terminal; `optparse` is modelled in `Args.lean` for options without values, after CPython's
  source; `json.dumps` (default arguments) is modelled in `Main.lean` after CPython's
  `json.encoder`, for the types that occur.
* Of the message of an exception that is not a parse error only the class name.
* Robot Framework's evaluation of `&{{…}}`, variable replacement and the execution of tests. In particular the claim C51 ends
  at "the text after unescaping is a Python literal of the dictionary".
* VS Code extension, scripts, packaging.
* Performance, memory, recursion limits (`find_ast_node_id` recurses over the depth of the AST, which is bounded).

## 5. Findings: where the code does not do what its user relies on

Each has a kernel-checked counterexample (theorem name) unless it says "noted".

1. Markdown lines can be processed out of order, even in an accepted text: a tag line followed by a scenario heading with a
   back-quoted tag in its title (`C03_counterexample_title`, `C03_counterexample_accepted`), or two kinds of fences (`C03_counterexample_fences`). Every line is still processed exactly once.
2. Markdown: a scenario heading with a back-quoted tag in its title is read as a tag line and the scenario is lost
   (`C57_counterexample_tag`); a second `# Feature:` heading is silently dropped (`C57_counterexample_feature`).
3. Markdown: a code fence as first line of a description toggles the matcher's "open fence" while the parser only probes for a
   blank line; the next doc string then loses its media type and its indentation is not removed (C54). Content of a doc string with four
   back quotes is not unescaped.
4. A tag with white space inside (`@a b`) makes the parser build a `ParserException` with a dictionary as location:
   `AttributeError` leaves `parse` (C04). `@ a` is read as the tag `@a`.
5. A table row that ends in an odd number of backslashes: `StopIteration` inside a generator, `RuntimeError` leaves `parse` (C04; for Markdown
   rows C59).
   4 and 5 are the only ones for classic texts (proved).
6. The error "unexpected end of file" has no column; `build_gherkin_model` then raises `TypeError` (`C33_counterexample`); proved to happen exactly
   in this case (`C33_type_error_iff_eof`).
7. A text without a feature parses but its suite is one error entry `KeyError` (`C33_no_feature`).
8. The longest step keyword does not always win: en-old, ht, sk (`C22`).
9. Outline headers are used as regular expressions, and values are substituted one after the other, so a value that looks like a
   placeholder is replaced again (C28): the header `price (EUR)` leaves `<price (EUR)>` as it is (`C28_counterexample_header`).
10. The names of outline tests tell rows apart only if the keyword is literally `Examples` (`C34_counterexample`); other English keywords and
    all other languages give tests of equal names.
11. Hooks: with an existing teardown the code configures `data.setup` instead of `data.teardown`: the setup is overwritten (C40). Without
    a teardown the *before* hooks become the teardown as well (C39).
12. `call_hooks` swallows a hook's exception (`finally: break`) (C41); its re-entrancy flag is never set; `start_test` passes
    `"before-test"` twice; a keyword with two matching tags is run twice (C39).
13. A comment between a title and its description turns the description lines into errors (`C46_comment_in_description`).
14. The error for an unknown language header changes its column to 1 after it has been recorded, its message keeps the old one (C48 states both).
15. Outline steps before the first non-conjunction have type `None`, scenario steps `Unknown` (C27 states both). Scenarios whose examples blocks
    have no table give no test at all (C24). Background steps are left out if the scenario has no steps (C25).
16. Markdown: text that is no Gherkin line is dropped, descriptions mostly are; comments have text `None`; the first line that is no tag line is the feature,
    even a blank one; a step bullet directly under the feature is description text; `* ` has type Context.
17. Trailing description lines of spaces are kept (only empty lines are cut). White space before a written newline at the end of a cell is cut.
18. Glob `?` also matches `/` (C36 says what it matches). `[!a]` and `[^a]` do not negate: the sign is escaped and so is one more member of the class
    (`C36_no_negation`); `[?]` matches only `.`, and `[*]` is no valid regular expression.
19. The token formatter accepts ragged tables, for which there is no document (C43).
20. C58 is false: `python -m gurke` calls `json.dumps` on events that contain `Location` objects, which raises `TypeError` (for every file with a
    feature unless `--no-ast` is given, and for every file that does not parse). Noted: `collect_gherkin_suites` returns pairs
    although it is annotated as a list of suites; `iter_files` rebinds `path` to the base path only if it is not a `Path`.
21. Some contents cannot be written as a doc string: those that contain the escaped delimiter (C44 has this as hypothesis).
22. A file with a byte order mark (as Windows editors save it) is read by Robot but refused by `python -m gurke` and by `TokenScanner(path)`, whatever
    it contains (`C67_bom_refused`, `C67_scanner_refuses`).
23. A carriage return alone ends a line if the parser reads from a path, not if it is given the text (`C68_lone_cr`).
24. One feature file that ends after a tag (or elsewhere too early) makes `collect_gherkin_suites` raise `TypeError`, so that no file of the directory
    is collected (`C69_one_spoils`, a consequence of 6).
25. A step argument is written as `&{{…}}` without escaping braces. If the braces in a cell or doc string are not balanced (a doc string with the single
    line `}`), Robot Framework does not see one variable, and the keyword gets a text or an error instead of the table or doc string
    (`C74_counterexample`).
26. Placeholders in steps of a background are not filled for the rows of a scenario outline: `<a>` stays as it is in the pickle and in the Robot test,
    although the scenario's own steps are filled (`C83_background_not_filled`).
27. A Markdown text that begins with a blank line: that line makes the feature, and the feature's column counts the characters of the line end, so that
    the column is 2 with Unix and 3 with Windows line ends (`C86_blank_feature`).
28. In five languages (cs, en-old, fr, ht, sk) a step keyword begins another one, and the white space after a keyword is not part of the document: a step
    `Étant donné  que x` (two blanks) has another keyword than the one written from it (`C88_counterexample`). Tools that write documents back must know.
29. `And` or `But` as the first step, below no background: in a scenario the step counts as Unknown and its keyword is left out of the call, in an outline it
    has no type and the keyword is kept: `And I buy figs` calls `I buy figs` there and `And I buy figs` here (`C94_first_and`).
30. In Markdown, the separator line of a table is a comment whose text is `None`, and a feature made from a line without keyword has no `keyword`
    (`C96_markdown_missing`): neither is allowed in Cucumber messages.

## 6. Axioms per theorem

P = `propext`, C = `Classical.choice`, Q = `Quot.sound`. Written by `tools/mkdesign.py`.

<!-- axioms -->
| claim | status | theorem | axioms |
|---|---|---|---|
| C01 | proved | `Gherkin.C01_classic_parse_terminates` | P Q |
| C01 | proved | `Gherkin.C01_markdown_parse_terminates` | P Q |
| C02 | proved | `Gherkin.C02_classic_lines_in_order` | P C Q |
| C03 | partial | `Gherkin.C03_lines_in_order_partial` | P C Q |
| C03 | partial | `Gherkin.C03_counterexample_title` | P |
| C03 | partial | `Gherkin.C03_markdown_all_lines` | P C Q |
| C03 | partial | `Gherkin.C03_counterexample_fences` | P |
| C03 | partial | `Gherkin.C03_counterexample_accepted` | P |
| C04 | partial | `Gherkin.C04_parse_outcome_partial` | P C Q |
| C04 | partial | `Gherkin.C04_no_other_exception` | P C Q |
| C04 | partial | `Gherkin.C04_counterexample_tag` | P |
| C04 | partial | `Gherkin.C04_counterexample_row` | P |
| C05 | proved | `Gherkin.C05_accepted_text_is_derivation_tree` | P C Q |
| C05 | proved | `Gherkin.C05_markdown_accepted_text_is_derivation_tree` | P C Q |
| C06 | proved | `Gherkin.C06_error_list_bounded` | P C Q |
| C06 | proved | `Gherkin.C06_stops_at_eleventh` | P Q |
| C07 | proved | `Gherkin.C07_document_iff_no_error` | P C Q |
| C08 | proved | `Gherkin.C08_ids_distinct` | P C Q |
| C08 | proved | `Gherkin.C08_document_returned` | P C Q |
| C09 | proved | `Gherkin.C09_stream_ids_distinct` | P C Q |
| C10 | proved | `Gherkin.C10_reuse` | P Q |
| C10 | proved | `Gherkin.C10_markdown_reuse` | P Q |
| C11 | proved | `Gherkin.C11_document_quotes_source` | P C Q |
| C12 | proved | `Gherkin.C12_document_reads_source` | P C Q |
| C12 | proved | `Gherkin.C12_markdown_document_reads_source` | P C Q |
| C13 | proved | `Gherkin.C13_tags_read` | P C Q |
| C13 | proved | `Gherkin.C13_tags_roundtrip` | P C Q |
| C13 | proved | `Gherkin.C13_tags_recognised` | P C Q |
| C14 | proved | `Gherkin.C14_row_roundtrip` | P C Q |
| C14 | proved | `Gherkin.C14_row_recognised` | P C Q |
| C15 | proved | `Gherkin.C15_cell_columns` | P C Q |
| C16 | proved | `Gherkin.C16_tables_rectangular` | P C Q |
| C17 | proved | `Gherkin.C17_doc_strings_quoted` | P C Q |
| C17 | proved | `Gherkin.C17_doc_string_read_back` | P C Q |
| C18 | proved | `Gherkin.C18_doc_strings_opaque` | P C Q |
| C18 | proved | `Gherkin.C17_doc_strings_quoted` | P C Q |
| C19 | proved | `Gherkin.C19_comments` | P C Q |
| C19 | proved | `Gherkin.C19_comments_nowhere_else` | P C Q |
| C20 | proved | `Gherkin.C20_language_of_feature` | P C Q |
| C20 | proved | `Gherkin.C20_unknown_language` | P C Q |
| C21 | proved | `Gherkin.C21_lines_unambiguous` | P C Q |
| C22 | partial | `Gherkin.C22_longest_step_keyword_partial` | P Q |
| C22 | partial | `Gherkin.C22_counterexample` | P |
| C23 | proved | `Gherkin.C23_step_type_exact` | P Q |
| C24 | proved | `Gherkin.C24_pickle_count` | P C Q |
| C24 | proved | `Gherkin.C24_parsed_documents_compile` | P C Q |
| C25 | proved | `Gherkin.C25_pickle_steps` | P C Q |
| C26 | proved | `Gherkin.C26_pickle_tags` | P C Q |
| C27 | proved | `Gherkin.C27_pickle_types` | P C Q |
| C28 | partial | `Gherkin.C28_pickle_replaced_partial` | P C Q |
| C28 | partial | `Gherkin.C28_replaces_partial` | P C Q |
| C28 | partial | `Gherkin.C28_filled_at_once` | P Q |
| C28 | partial | `Gherkin.C28_pickle_texts_partial` | P C Q |
| C28 | partial | `Gherkin.C28_interpolate_partial` | P C Q |
| C28 | partial | `Gherkin.C28_counterexample_value` | P Q |
| C28 | partial | `Gherkin.C28_counterexample_header` | P Q |
| C28 | partial | `Gherkin.C28_by_pattern` | P Q |
| C29 | proved | `Gherkin.C29_pickles_in_order` | P C Q |
| C29 | proved | `Gherkin.C29_ids_exist` | P C Q |
| C29 | proved | `Gherkin.C29_pickle_ids_fresh` | P C Q |
| C30 | proved | `Gherkin.C30_one_test_per_pickle` | P C Q |
| C30 | proved | `Gherkin.C30_compiles` | P C Q |
| C31 | proved | `Gherkin.C31_tags` | P C Q |
| C32 | proved | `Gherkin.C32_find_node` | P C Q |
| C32 | proved | `Gherkin.C32_find_typed` | P C Q |
| C33 | partial | `Gherkin.C33_errors_partial` | P Q |
| C33 | partial | `Gherkin.C33_no_tests` | P |
| C33 | partial | `Gherkin.C33_other_failures` | P C Q |
| C33 | partial | `Gherkin.C33_type_error_iff_eof` | P C Q |
| C33 | partial | `Gherkin.C33_no_feature` | P |
| C33 | partial | `Gherkin.C33_counterexample` | P Q |
| C34 | partial | `Gherkin.C34_test_names_partial` | P C Q |
| C34 | partial | `Gherkin.C34_counterexample` | P |
| C35 | proved | `Gherkin.C35_unescape_escape` | P Q |
| C35 | proved | `Gherkin.C51_step_arguments` | P C Q |
| C36 | proved | `Gherkin.C36_glob` | P C Q |
| C36 | proved | `Gherkin.C36_plain` | P C Q |
| C36 | proved | `Gherkin.C36_star` | P C Q |
| C36 | proved | `Gherkin.C36_extension` | P C Q |
| C36 | proved | `Gherkin.C36_extensions` | P C Q |
| C36 | proved | `Gherkin.C36_no_negation` | P C Q |
| C37 | proved | `Gherkin.C37_iter_files` | P Q |
| C38 | proved | `Gherkin.C38_resource_imports` | P C Q |
| C38 | proved | `Gherkin.C38_settings` | P Q |
| C39 | partial | `Gherkin.C39_setup_partial` | P Q |
| C39 | partial | `Gherkin.C39_events` | P Q |
| C39 | partial | `Gherkin.C39_test_partial` | P Q |
| C40 | partial | `Gherkin.C40_teardown_kept_partial` | P |
| C40 | partial | `Gherkin.C40_counterexample` | P Q |
| C40 | partial | `Gherkin.C40_new_teardown` | P Q |
| C41 | partial | `Gherkin.C41_hooks_run_partial` | P Q |
| C41 | partial | `Gherkin.C41_counterexample` | P Q |
| C42 | proved | `Gherkin.C42_stream_blocks` | P C Q |
| C42 | proved | `Gherkin.C42_stream_ended` | P C Q |
| C43 | proved | `Gherkin.C43_listing` | P C Q |
| C43 | proved | `Gherkin.C43_listing_of_document` | P C Q |
| C44 | proved | `Gherkin.C44_round_trip` | P C Q |
| C45 | proved | `Gherkin.C45_document` | P C Q |
| C45 | proved | `Gherkin.C45_listing` | P C Q |
| C45 | proved | `Gherkin.C45_crlf` | P C Q |
| C45 | proved | `Gherkin.C45_final` | P C Q |
| C46 | proved | `Gherkin.C46_insert` | P C Q |
| C46 | proved | `Gherkin.C46_remove` | P C Q |
| C46 | proved | `Gherkin.C46_comment_in_description` | P |
| C46 | proved | `Gherkin.C46_blank_in_docstring` | P |
| C47 | proved | `Gherkin.C47_stop_at_first_error` | P C Q |
| C47 | proved | `Gherkin.C47_first_error` | P C Q |
| C47 | proved | `Gherkin.C47_markdown` | P C Q |
| C48 | proved | `Gherkin.C48_error_positions` | P C Q |
| C49 | proved | `Gherkin.C49_descriptions` | P C Q |
| C50 | proved | `Gherkin.C50_feature_files` | P C Q |
| C50 | proved | `Gherkin.C50_reader` | P |
| C51 | proved | `Gherkin.C51_step_arguments` | P C Q |
| C51 | proved | `Gherkin.C51_arguments_tell` | P C Q |
| C51 | proved | `Gherkin.C30_one_test_per_pickle` | P C Q |
| C52 | proved | `Gherkin.C52_documentation` | P C Q |
| C53 | proved | `Gherkin.C53_markdown_quotes_source` | P C Q |
| C53 | proved | `Gherkin.C53_tag_lines` | P C Q |
| C54 | partial | `Gherkin.C54_doc_strings_partial` | P C Q |
| C54 | partial | `Gherkin.C54_counterexample` | P |
| C55 | proved | `Gherkin.C55_no_line_dropped` | P C Q |
| C56 | proved | `Gherkin.C56_accepted_iff` | P C Q |
| C56 | proved | `Gherkin.C56_layout_accepted` | P C Q |
| C56 | proved | `Gherkin.C56_accepted_layout` | P C Q |
| C56 | proved | `Gherkin.C56_nothing_accepted` | P C Q |
| C57 | partial | `Gherkin.C57_plain_heading_partial` | P C Q |
| C57 | partial | `Gherkin.C57_counterexample_tag` | P |
| C57 | partial | `Gherkin.C57_counterexample_feature` | P |
| C58 | partial | `Gherkin.C58_printed_lines_partial` | P Q |
| C58 | partial | `Gherkin.C58_one_value` | P Q |
| C58 | partial | `Gherkin.C58_without_ast` | P Q |
| C58 | partial | `Gherkin.C58_feature_ends` | P Q |
| C58 | partial | `Gherkin.C58_false_by_default` | P |
| C59 | partial | `Gherkin.C59_markdown_outcome_partial` | P C Q |
| C59 | partial | `Gherkin.C59_no_other_exception` | P C Q |
| C59 | partial | `Gherkin.C59_counterexample_row` | P |
| C60 | proved | `Gherkin.C60_markdown_error_positions` | P C Q |
| C61 | proved | `Gherkin.C61_what_runs` | P C Q |
| C61 | proved | `Gherkin.C61_what_you_write_is_what_runs` | P C Q |
| C62 | proved | `Gherkin.C62_tests_are_independent` | P C Q |
| C63 | proved | `Gherkin.C63_markdown_mirrors_classic` | P C Q |
| C63 | proved | `Gherkin.C63_same_suite` | P C Q |
| C63 | proved | `Gherkin.C63_same_suite_back` | P C Q |
| C64 | proved | `Gherkin.C64_language` | P C Q |
| C64 | proved | `Gherkin.C64_cell` | P C Q |
| C64 | proved | `Gherkin.C64_tag_comment` | P C Q |
| C64 | proved | `Gherkin.C64_tag_space` | P C Q |
| C64 | proved | `Gherkin.C64_md_row` | P C Q |
| C64 | proved | `Gherkin.C64_md_dashes` | P C Q |
| C64 | proved | `Gherkin.C64_md_heading` | P C Q |
| C64 | proved | `Gherkin.C64_md_step` | P C Q |
| C64 | proved | `Gherkin.C64_md_tags` | P C Q |
| C64 | proved | `Gherkin.C64_escape_whitespace` | P C Q |
| C65 | proved | `Gherkin.C65_saved` | P C Q |
| C65 | proved | `Gherkin.C65_same_suite` | P C Q |
| C65 | proved | `Gherkin.C65_undecodable` | P C Q |
| C66 | proved | `Gherkin.C66_lossless` | P C Q |
| C66 | proved | `Gherkin.C66_line_ends` | P C Q |
| C66 | proved | `Gherkin.C66_undecodable` | P C Q |
| C67 | partial | `Gherkin.C67_robot_partial` | P C Q |
| C67 | partial | `Gherkin.C67_bom_refused` | P C Q |
| C67 | partial | `Gherkin.C67_scanner_refuses` | P C Q |
| C68 | partial | `Gherkin.C68_path_partial` | P C Q |
| C68 | partial | `Gherkin.C68_lone_cr` | P C Q |
| C69 | partial | `Gherkin.C69_each_file` | P C Q |
| C69 | partial | `Gherkin.C69_collected_partial` | P C Q |
| C69 | partial | `Gherkin.C69_runner` | P C Q |
| C69 | partial | `Gherkin.C69_one_spoils` | P C Q |
| C70 | proved | `Gherkin.C70_suite_name` | P C Q |
| C71 | proved | `Gherkin.C71_lines_before` | P C Q |
| C71 | proved | `Gherkin.C71_error_line` | P C Q |
| C71 | proved | `Gherkin.C71_first_in_list` | P C Q |
| C72 | proved | `Gherkin.C72_indentation` | P C Q |
| C72 | proved | `Gherkin.C72_same_pickles` | P C Q |
| C72 | proved | `Gherkin.C72_same_suite` | P C Q |
| C72 | proved | `Gherkin.C72_white_space` | P C Q |
| C73 | proved | `Gherkin.C73_plain_argument` | P C Q |
| C74 | partial | `Gherkin.C74_one_variable_partial` | P C Q |
| C74 | partial | `Gherkin.C74_balanced_texts` | P Q |
| C74 | partial | `Gherkin.C74_unequal_braces` | P C Q |
| C74 | partial | `Gherkin.C74_counterexample` | P Q |
| C75 | proved | `Gherkin.C75_run` | P C Q |
| C75 | proved | `Gherkin.C75_help` | P C Q |
| C75 | proved | `Gherkin.C75_usage` | P C Q |
| C75 | proved | `Gherkin.C75_output` | P C Q |
| C75 | proved | `Gherkin.C75_unreadable` | P C Q |
| C76 | proved | `Gherkin.C76_filter` | P Q |
| C76 | proved | `Gherkin.C76_pickles` | P C Q |
| C77 | proved | `Gherkin.C77_insert` | P C Q |
| C77 | proved | `Gherkin.C77_remove` | P C Q |
| C77 | proved | `Gherkin.C77_before_feature` | P |
| C77 | proved | `Gherkin.C77_in_docstring` | P |
| C77 | proved | `Gherkin.C77_separator` | P |
| C77 | proved | `Gherkin.C77_bad_row` | P |
| C78 | proved | `Gherkin.C78_insert` | P C Q |
| C78 | proved | `Gherkin.C78_remove` | P C Q |
| C78 | proved | `Gherkin.C78_insert_prose` | P C Q |
| C78 | proved | `Gherkin.C78_remove_prose` | P C Q |
| C79 | proved | `Gherkin.C79_same_document` | P C Q |
| C79 | proved | `Gherkin.C79_same_pickles` | P C Q |
| C79 | proved | `Gherkin.C79_other_type` | P |
| C79 | proved | `Gherkin.C79_unsorted` | P |
| C80 | proved | `Gherkin.C80_text` | P C Q |
| C80 | proved | `Gherkin.C80_pickles` | P C Q |
| C80 | proved | `Gherkin.C80_one_meaning` | P Q |
| C81 | proved | `Gherkin.C81_pickles` | P C Q |
| C81 | proved | `Gherkin.C81_suite` | P C Q |
| C81 | proved | `Gherkin.C81_reorder` | P C Q |
| C81 | proved | `Gherkin.C81_remove` | P C Q |
| C82 | proved | `Gherkin.C82_pickles` | P C Q |
| C82 | proved | `Gherkin.C82_suite` | P C Q |
| C82 | proved | `Gherkin.C82_unrolled_pickles` | P C Q |
| C82 | proved | `Gherkin.C82_unrolled_suite` | P C Q |
| C82 | proved | `Gherkin.C82_reorder` | P C Q |
| C82 | proved | `Gherkin.C82_remove` | P C Q |
| C83 | proved | `Gherkin.C83_pickles` | P C Q |
| C83 | proved | `Gherkin.C83_suite` | P C Q |
| C83 | proved | `Gherkin.C83_plain` | P C Q |
| C83 | proved | `Gherkin.C83_background_not_filled` | P C Q |
| C84 | proved | `Gherkin.C84_pickles` | P C Q |
| C84 | proved | `Gherkin.C84_suite` | P C Q |
| C85 | proved | `Gherkin.C85_markdown_listing` | P C Q |
| C86 | proved | `Gherkin.C86_document` | P C Q |
| C86 | proved | `Gherkin.C86_listing` | P C Q |
| C86 | proved | `Gherkin.C86_crlf` | P C Q |
| C86 | proved | `Gherkin.C86_final` | P C Q |
| C86 | proved | `Gherkin.C86_suite` | P C Q |
| C86 | proved | `Gherkin.C86_blank_feature` | P Q |
| C87 | proved | `Gherkin.C87_round_trip` | P C Q |
| C87 | proved | `Gherkin.C87_what_runs` | P C Q |
| C88 | proved | `Gherkin.C88_printable` | P C Q |
| C88 | proved | `Gherkin.C88_apart` | P |
| C88 | proved | `Gherkin.C88_dialects` | P Q |
| C88 | proved | `Gherkin.C88_round_trip` | P C Q |
| C88 | proved | `Gherkin.C88_stable` | P C Q |
| C88 | proved | `Gherkin.C88_suite` | P C Q |
| C88 | proved | `Gherkin.C88_counterexample` | P |
| C89 | proved | `Gherkin.C89_listing_and_document` | P C Q |
| C89 | proved | `Gherkin.C89_markdown` | P C Q |
| C89 | proved | `Gherkin.C89_listed` | P C Q |
| C89 | proved | `Gherkin.C89_stopping` | P C Q |
| C89 | proved | `Gherkin.C89_markdown_stopping` | P C Q |
| C90 | proved | `Gherkin.C90_move` | P C Q |
| C90 | proved | `Gherkin.C90_convert` | P C Q |
| C90 | proved | `Gherkin.C90_suite` | P C Q |
| C91 | proved | `Gherkin.C91_same_document` | P C Q |
| C91 | proved | `Gherkin.C91_same_pickles` | P C Q |
| C91 | proved | `Gherkin.C91_same_suite` | P C Q |
| C91 | proved | `Gherkin.C91_markdown` | P C Q |
| C92 | proved | `Gherkin.C92_calls_are_independent` | P C Q |
| C92 | proved | `Gherkin.C92_editing` | P C Q |
| C93 | proved | `Gherkin.C93_columns` | P C Q |
| C94 | proved | `Gherkin.C94_written_out` | P C Q |
| C95 | proved | `Gherkin.C95_document` | P |
| C95 | proved | `Gherkin.C95_pickle` | P |
| C95 | proved | `Gherkin.C95_event` | P |
| C96 | proved | `Gherkin.C96_complete` | P C Q |
| C96 | proved | `Gherkin.C96_markdown` | P C Q |
| C97 | proved | `Gherkin.C97_parts` | P C Q |
| C98 | proved | `Gherkin.C98_pickles` | P C Q |
| C98 | proved | `Gherkin.C98_suite` | P C Q |
<!-- end axioms -->

## 7. Wrong programs

`seeded/LOG.jsonl` records the edits of the model that were tried, the theorems that failed to build for each, and which theorems were tightened after
an edit had survived.
