import Verif.MatcherClassic

/-! Model of packages/gurke/src/gurke/token_matcher_markdown.py `GherkinInMarkdownTokenMatcher`. -/

namespace Gherkin

/-- The mutable attributes of `GherkinInMarkdownTokenMatcher` (packages/gurke/src/gurke/token_matcher_markdown.py:17-27,
257-258). -/
structure MdState where
  defaultName : Str
  dialectName : Str
  dialect : Dialect
  indentToRemove : Nat
  active : Option Str
  matchedFeature : Bool
  deriving DecidableEq, Repr, Inhabited

namespace Md

/-- The result of matching one of the prefix expressions: number of characters of group 1, and the rest of the line. -/
abbrev PrefixMatch := Nat × Str

/-- packages/gurke/src/gurke/token_matcher_markdown.py:11 `^(#{1,6}\s)`: one to six `#` followed by exactly one white space
character (as `#` is not white space there is only one way to match). -/
def headerPrefix (s : Str) : List PrefixMatch :=
  let n := (s.takeWhile (· == '#')).length
  match s.drop n with
  | c :: rest => if 1 ≤ n && n ≤ 6 && isSpace c then [(n + 1, rest)] else []
  | [] => []

/-- The ways to match `\s*`, longest first: with `n` characters already consumed. -/
def spaceRuns : Nat → Str → List PrefixMatch
  | n, [] => [(n, [])]
  | n, c :: cs => if isSpace c then spaceRuns (n + 1) cs ++ [(n, c :: cs)] else [(n, c :: cs)]

/-- packages/gurke/src/gurke/token_matcher_markdown.py:10 `^(\s*[*+-]\s*)` on a line without leading white space: one
bullet character, then white space, greedily with backtracking. -/
def bulletPrefix (s : Str) : List PrefixMatch :=
  match s with
  | c :: rest => if c == '*' || c == '+' || c == '-' then spaceRuns 1 rest else []
  | [] => []

/-- packages/gurke/src/gurke/token_matcher_markdown.py:190-191: the first way to match `prefix(kw1|kw2|...)suffix(.*)`: for
each way to match the prefix in order of preference, the first keyword followed by the suffix. Result: length of group 1,
group 2 and group 3. The keyword lists are not empty (an empty alternative would match everything). -/
def searchTitle (prefixes : List PrefixMatch) (keywords : List Str) (suffix : Str) : Option (Nat × Str × Str) :=
  prefixes.findSome? fun (n, rest) =>
    (keywords.find? fun kw => startsWith rest (kw ++ suffix)).map fun kw =>
      (n, kw, (rest.drop (kw.length + suffix.length)).takeWhile (· != '\n'))

/-- packages/gurke/src/gurke/token_matcher_markdown.py:189-211 `_match_title_line`. -/
def matchTitle (k : Kind) (prefixes : Str → List PrefixMatch) (keywords : List Str) (suffix : Str) (t : Token)
    (m : MdState) : Except MExc Bool × Token × MdState :=
  match searchTitle (prefixes t.line.lineText) keywords suffix with
  | some (n, kw, rest) =>
    (.ok true, setMatched m.dialectName t (some k) (some (strip rest)) (some kw) (m.dialect.keywordTypes kw).head?
      (some (t.line.indent + n)) [], m)
  | none => (.ok false, t, m)

/-- packages/gurke/src/gurke/token_matcher_markdown.py:29-44 `match_FeatureLine`. -/
def matchFeature (t : Token) (m : MdState) : Except MExc Bool × Token × MdState :=
  if m.matchedFeature then (.ok false, setMatched m.dialectName t none none none none none [], m)
  else match matchTitle .featureLine headerPrefix m.dialect.feature [':'] t m with
    | (.ok true, t', m') => (.ok true, t', { m' with matchedFeature := true })
    | (_, _, _) =>
      (.ok true, setMatched m.dialectName t (some .featureLine) (some t.line.lineText) none none none [],
        { m with matchedFeature := true })

/-- packages/gurke/src/gurke/token_matcher_markdown.py:49-54 `match_ScenarioLine`. -/
def matchScenario (t : Token) (m : MdState) : Except MExc Bool × Token × MdState :=
  match matchTitle .scenarioLine headerPrefix m.dialect.scenario [':'] t m with
  | (.ok false, t', m') => matchTitle .scenarioLine headerPrefix m.dialect.scenarioOutline [':'] t' m'
  | r => r

/-- `re.match("^:?-+:?$", s)` of packages/gurke/src/gurke/token_matcher_markdown.py:79; `$` also matches before a final
newline. -/
def isSepText (s : Str) : Bool :=
  let s1 := match s with | ':' :: r => r | _ => s
  let s2 := s1.dropWhile (· == '-')
  let s3 := match s2 with | ':' :: r => r | _ => s2
  s1.head? = some '-' && (s3 == [] || s3 == ['\n'])

/-- packages/gurke/src/gurke/token_matcher_markdown.py:77-80 `_is_gfm_table_separator`. -/
def isGfmSeparator (cells : List MItem) : Bool := cells.any fun c => isSepText c.text

/-- packages/gurke/src/gurke/token_matcher_markdown.py:64-75 `match_TableRow`: at most five white space characters before
the `|` of the full line. -/
def matchTableRow (t : Token) (m : MdState) : Except MExc Bool × Token × MdState :=
  if t.line.indent ≤ 5 && t.line.startsWith ['|'] then
    match t.line.tableCells with
    | .ok cells =>
      if isGfmSeparator cells then (.ok false, t, m)
      else (.ok true, setMatched m.dialectName t (some .tableRow) none (some ['|']) none none cells, m)
    | .error c => (.error (.crash c), t, m)
  else (.ok false, t, m)

/-- packages/gurke/src/gurke/token_matcher_markdown.py:82-90 `match_StepLine`. -/
def matchStep (t : Token) (m : MdState) : Except MExc Bool × Token × MdState :=
  matchTitle .stepLine bulletPrefix m.dialect.stepKeywords [] t m

/-- packages/gurke/src/gurke/token_matcher_markdown.py:92-99 `match_Comment`: marks the token even when it answers False. -/
def matchComment (t : Token) (m : MdState) : Except MExc Bool × Token × MdState :=
  let t' := setMatched m.dialectName t (some .comment) none none none none []
  if t.line.startsWith ['|'] then
    match t.line.tableCells with
    | .ok cells => (.ok (isGfmSeparator cells), t', m)
    | .error c => (.error (.crash c), t, m)
  else (.ok false, t', m)

/-- packages/gurke/src/gurke/token_matcher_markdown.py:129-132 `match_Language`. -/
def matchLanguage (t : Token) (m : MdState) : Except MExc Bool × Token × MdState := (.ok false, t, m)

/-- The matches of packages/gurke/src/gurke/token_matcher_markdown.py:136 (a tag between back quotes: back quote, `@`, at
least one character that is no back quote, back quote), left to right without overlap, with the position of each match in the
line. `skip` characters of the current match are still to be passed over. -/
def findTags : Str → (pos skip : Nat) → List (Nat × Str)
  | [], _, _ => []
  | c :: cs, pos, skip =>
    match skip with
    | k + 1 => findTags cs (pos + 1) k
    | 0 =>
      match c, cs with
      | '`', '@' :: rest =>
        let name := rest.takeWhile (· != '`')
        if !name.isEmpty && (rest.drop name.length).head? == some '`' then
          (pos, '@' :: name) :: findTags cs (pos + 1) (name.length + 2)
        else findTags cs (pos + 1) 0
      | _, _ => findTags cs (pos + 1) 0

/-- packages/gurke/src/gurke/token_matcher_markdown.py:134-145 `match_TagLine`. -/
def matchTagLine (t : Token) (m : MdState) : Except MExc Bool × Token × MdState :=
  let tags := (findTags t.line.lineText 0 0).map fun (pos, name) =>
    ({ column := t.line.indent + pos + 2, text := name } : MItem)
  if tags.isEmpty then (.ok false, t, m)
  else (.ok true, setMatched m.dialectName t (some .tagLine) none none none none tags, m)

/-- packages/gurke/src/gurke/token_matcher_markdown.py:159-174 `_match_DocStringSeparator`: unlike the classic matcher a
closing separator gets the text `""`. -/
def matchSep (sep : Str) (isOpen : Bool) (t : Token) (m : MdState) : Except MExc Bool × Token × MdState :=
  if t.line.startsWith sep then
    if isOpen then
      (.ok true, setMatched m.dialectName t (some .docStringSeparator) (some (t.line.restTrimmed sep.length)) (some sep)
        none none [], { m with active := some sep, indentToRemove := t.line.indent })
    else
      (.ok true, setMatched m.dialectName t (some .docStringSeparator) (some []) (some sep) none none [],
        { m with active := none, indentToRemove := 0 })
  else (.ok false, t, m)

/-- The separator of four back quotes, packages/gurke/src/gurke/token_matcher_markdown.py:152. -/
def ticks4 : Str := py"````"

/-- packages/gurke/src/gurke/token_matcher_markdown.py:147-157 `match_DocStringSeparator`. -/
def matchDocSep (t : Token) (m : MdState) : Except MExc Bool × Token × MdState :=
  match m.active with
  | none =>
    if t.line.startsWith Classic.quotes then matchSep Classic.quotes true t m
    else if t.line.startsWith ticks4 then matchSep ticks4 true t m
    else matchSep Classic.ticks true t m
  | some sep => matchSep sep false t m

/-- packages/gurke/src/gurke/token_matcher_markdown.py:176-180 `match_Other`, with `_unescaped_docstring` (269-274), which is
the same code as in token_matcher.py. -/
def matchOther (t : Token) (m : MdState) : Except MExc Bool × Token × MdState :=
  (.ok true, setMatched m.dialectName t (some .other)
    (some (Classic.unescapeDoc m.active (t.line.lineTextFrom m.indentToRemove))) none none (some 0) [], m)

/-- packages/gurke/src/gurke/token_matcher_markdown.py:182-187 `match_EOF`. -/
def matchEof (t : Token) (m : MdState) : Except MExc Bool × Token × MdState :=
  if t.eof then (.ok true, setMatched m.dialectName t (some .eof) none none none none [], m)
  else (.ok false, t, m)

/-- `match_RuleLine`, `match_BackgroundLine`, `match_ExamplesLine`: packages/gurke/src/gurke/token_matcher_markdown.py:46-62. -/
def matchHeaded (k : Kind) (keywords : List Str) (t : Token) (m : MdState) : Except MExc Bool × Token × MdState :=
  matchTitle k headerPrefix keywords [':'] t m

/-- Python's `a(token) or b(token) or ...`: the first method that answers True or raises ends the evaluation; the token and
the matcher keep the changes made on the way. -/
def orElse (fs : List (Token → MdState → Except MExc Bool × Token × MdState)) (t : Token) (m : MdState) :
    Except MExc Bool × Token × MdState :=
  match fs with
  | [] => (.ok false, t, m)
  | f :: fs =>
    match f t m with
    | (.ok false, t', m') => orElse fs t' m'
    | r => r

/-- The methods asked by `match_Empty`, in order: packages/gurke/src/gurke/token_matcher_markdown.py:106-117. -/
def emptyProbes : List (Token → MdState → Except MExc Bool × Token × MdState) :=
  [matchTagLine, matchFeature, matchScenario,
   fun t m => matchHeaded .backgroundLine m.dialect.background t m,
   fun t m => matchHeaded .examplesLine m.dialect.examples t m,
   fun t m => matchHeaded .ruleLine m.dialect.rule t m,
   matchTableRow, matchComment, matchLanguage, matchDocSep, matchEof, matchStep]

/-- packages/gurke/src/gurke/token_matcher_markdown.py:101-125 `match_Empty`: True for blank lines and for lines that no
other method accepts; asking the other methods changes token and matcher. -/
def matchEmpty (t : Token) (m : MdState) : Except MExc Bool × Token × MdState :=
  match orElse emptyProbes t m with
  | (.error e, t', m') => (.error e, t', m')
  | (.ok found, t', m') =>
    if t.line.isBlank || !found then
      (.ok true, setMatched m'.dialectName t' (some .empty) none none none (some 0) [], m')
    else (.ok false, t', m')

/-- packages/gurke/src/gurke/token_matcher_markdown.py:29-187: `match_K` for each kind. -/
def matchKind (k : Kind) (t : Token) (m : MdState) : Except MExc Bool × Token × MdState :=
  match k with
  | .eof => matchEof t m
  | .empty => matchEmpty t m
  | .comment => matchComment t m
  | .tagLine => matchTagLine t m
  | .featureLine => matchFeature t m
  | .ruleLine => matchHeaded .ruleLine m.dialect.rule t m
  | .backgroundLine => matchHeaded .backgroundLine m.dialect.background t m
  | .scenarioLine => matchScenario t m
  | .examplesLine => matchHeaded .examplesLine m.dialect.examples t m
  | .stepLine => matchStep t m
  | .docStringSeparator => matchDocSep t m
  | .tableRow => matchTableRow t m
  | .language => matchLanguage t m
  | .other => matchOther t m

/-- packages/gurke/src/gurke/token_matcher_markdown.py:22-27 `reset`. -/
def reset (m : MdState) : MdState :=
  let m1 := if m.dialectName ≠ m.defaultName then
      match dialectFor m.defaultName with
      | some d => { m with dialectName := m.defaultName, dialect := d }
      | none => m
    else m
  { m1 with indentToRemove := 0, active := none, matchedFeature := false }

end Md

/-- packages/gurke/src/gurke/token_matcher_markdown.py:17-20 `__init__`; `none` = `NoSuchLanguageException`. -/
def MdState.new (name : Str) : Option MdState :=
  (dialectFor name).map fun d =>
    { defaultName := name, dialectName := name, dialect := d, indentToRemove := 0, active := none,
      matchedFeature := false }

/-- The Markdown matcher as the parser sees it. -/
def markdown : Matcher MdState := { match_ := Md.matchKind, reset := Md.reset }

end Gherkin
