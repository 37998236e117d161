import Verif.Token

/-! Model of packages/gurke/src/gurke/token_matcher.py `TokenMatcher`. -/

namespace Gherkin

/-- The mutable attributes of `TokenMatcher` (packages/gurke/src/gurke/token_matcher.py:21-30, 186-187). -/
structure CState where
  defaultName : Str
  dialectName : Str
  dialect : Dialect
  indentToRemove : Nat
  active : Option Str
  deriving DecidableEq, Repr, Inhabited

/-- packages/gurke/src/gurke/token_matcher.py:156-179 `_set_token_matched` (also token_matcher_markdown.py:227-250; there
`matched_type` may be `None`). `indent = none` means "use the line's indent". -/
def setMatched (dialectName : Str) (t : Token) (type : Option Kind) (text : Option Str) (keyword : Option Str)
    (keywordType : Option KType) (indent : Option Nat) (items : List MItem) : Token :=
  let ind : Nat := match indent with
    | some n => n
    | none => if t.line.isEof then 0 else t.line.indent
  { t with
    type := type, text := text.map rstripEol, keyword := keyword, keywordType := keywordType,
    indent := ind, items := items, loc := { t.loc with column := some (ind + 1) }, dialect := some dialectName }

namespace Classic

/-- packages/gurke/src/gurke/token_matcher.py:148-154 `_match_title_line`. -/
def matchTitle (k : Kind) (keywords : List Str) (t : Token) (m : CState) : Except MExc Bool × Token × CState :=
  match keywords.find? (fun kw => t.line.startsWithTitle kw) with
  | some kw =>
    (.ok true, setMatched m.dialectName t (some k) (some (t.line.restTrimmed (kw.length + 1))) (some kw) none none [], m)
  | none => (.ok false, t, m)

/-- packages/gurke/src/gurke/token_matcher.py:49-54 `match_TableRow`. -/
def matchTableRow (t : Token) (m : CState) : Except MExc Bool × Token × CState :=
  if t.line.startsWith ['|'] then
    match t.line.tableCells with
    | .ok cells => (.ok true, setMatched m.dialectName t (some .tableRow) none none none none cells, m)
    | .error c => (.error (.crash c), t, m)
  else (.ok false, t, m)

/-- packages/gurke/src/gurke/token_matcher.py:66-70: the keyword type of a step. -/
def stepType (d : Dialect) (kw : Str) : KType :=
  match d.keywordTypes kw with
  | [k] => k
  | _ => .unknown

/-- packages/gurke/src/gurke/token_matcher.py:56-74 `match_StepLine`. -/
def matchStep (t : Token) (m : CState) : Except MExc Bool × Token × CState :=
  match m.dialect.stepKeywords.find? (fun kw => t.line.startsWith kw) with
  | some kw =>
    (.ok true, setMatched m.dialectName t (some .stepLine) (some (t.line.restTrimmed kw.length)) (some kw)
      (some (stepType m.dialect kw)) none [], m)
  | none => (.ok false, t, m)

/-- packages/gurke/src/gurke/token_matcher.py:76-82 `match_Comment`. -/
def matchComment (t : Token) (m : CState) : Except MExc Bool × Token × CState :=
  if t.line.startsWith ['#'] then
    (.ok true, setMatched m.dialectName t (some .comment) (some t.line.text) none none (some 0) [], m)
  else (.ok false, t, m)

/-- packages/gurke/src/gurke/token_matcher.py:84-89 `match_Empty`. -/
def matchEmpty (t : Token) (m : CState) : Except MExc Bool × Token × CState :=
  if t.line.isBlank then
    (.ok true, setMatched m.dialectName t (some .empty) none none none (some 0) [], m)
  else (.ok false, t, m)

/-- The class `[a-zA-Z\-_]` of packages/gurke/src/gurke/token_matcher.py:17. -/
def isLangChar (c : Char) : Bool :=
  ('a' ≤ c && c ≤ 'z') || ('A' ≤ c && c ≤ 'Z') || c == '-' || c == '_'

/-- Drops `p` from the front of `s`, if it is there. -/
def dropPre (p s : Str) : Option Str := if p.isPrefixOf s then some (s.drop p.length) else none

/-- packages/gurke/src/gurke/token_matcher.py:17,92-96: group 1 of
`^\s*#\s*language\s*:\s*([a-zA-Z\-_]+)\s*$`. The pieces' character classes are pairwise disjoint where they meet, so the
greedy left-to-right reading is the only one. -/
def languageName (s : Str) : Option Str :=
  match dropPre ['#'] (lstrip s) with
  | none => none
  | some s1 =>
    match dropPre py"language" (lstrip s1) with
    | none => none
    | some s2 =>
      match dropPre [':'] (lstrip s2) with
      | none => none
      | some s3 =>
        let s4 := lstrip s3
        let name := s4.takeWhile isLangChar
        let rest := s4.dropWhile isLangChar
        if name.isEmpty then none
        else if rest.all isSpace then some name else none

/-- packages/gurke/src/gurke/token_matcher.py:91-99 `match_Language` with `_change_dialect` (181-196). The token is marked
before the dialect is looked up; an unknown name raises with the token's own `Location`. -/
def matchLanguage (t : Token) (m : CState) : Except MExc Bool × Token × CState :=
  match languageName t.line.lineText with
  | none => (.ok false, t, m)
  | some name =>
    let t' := setMatched m.dialectName t (some .language) (some name) none none none []
    match dialectFor name with
    | some d => (.ok true, t', { m with dialectName := name, dialect := d })
    | none => (.error (.parser (Err.mkNoSuchLanguage name t'.loc (some t'.line.number))), t', m)

/-- packages/gurke/src/gurke/token_matcher.py:101-106 `match_TagLine`. -/
def matchTagLine (t : Token) (m : CState) : Except MExc Bool × Token × CState :=
  if t.line.startsWith ['@'] then
    match t.line.tags with
    | .ok tags => (.ok true, setMatched m.dialectName t (some .tagLine) none none none none tags, m)
    | .error c => (.error (.crash c), t, m)
  else (.ok false, t, m)

/-- packages/gurke/src/gurke/token_matcher.py:118-133 `_match_DocStringSeparator`. -/
def matchSep (sep : Str) (isOpen : Bool) (t : Token) (m : CState) : Except MExc Bool × Token × CState :=
  if t.line.startsWith sep then
    if isOpen then
      (.ok true, setMatched m.dialectName t (some .docStringSeparator) (some (t.line.restTrimmed sep.length)) (some sep)
        none none [], { m with active := some sep, indentToRemove := t.line.indent })
    else
      (.ok true, setMatched m.dialectName t (some .docStringSeparator) none (some sep) none none [],
        { m with active := none, indentToRemove := 0 })
  else (.ok false, t, m)

/-- The two doc string delimiters. -/
def quotes : Str := py"\"\"\""
/-- The two doc string delimiters. -/
def ticks : Str := py"```"

/-- packages/gurke/src/gurke/token_matcher.py:108-116 `match_DocStringSeparator`. -/
def matchDocSep (t : Token) (m : CState) : Except MExc Bool × Token × CState :=
  match m.active with
  | none =>
    if t.line.startsWith quotes then matchSep quotes true t m else matchSep ticks true t m
  | some sep => matchSep sep false t m

/-- packages/gurke/src/gurke/token_matcher.py:198-205 `_unescaped_docstring`. -/
def unescapeDoc (active : Option Str) (text : Str) : Str :=
  if active = some quotes then replaceAll py"\\\"\\\"\\\"" quotes text
  else if active = some ticks then replaceAll py"\\`\\`\\`" ticks text
  else text

/-- packages/gurke/src/gurke/token_matcher.py:135-139 `match_Other`. -/
def matchOther (t : Token) (m : CState) : Except MExc Bool × Token × CState :=
  (.ok true, setMatched m.dialectName t (some .other)
    (some (unescapeDoc m.active (t.line.lineTextFrom m.indentToRemove))) none none (some 0) [], m)

/-- packages/gurke/src/gurke/token_matcher.py:141-146 `match_EOF`. -/
def matchEof (t : Token) (m : CState) : Except MExc Bool × Token × CState :=
  if t.eof then (.ok true, setMatched m.dialectName t (some .eof) none none none none [], m)
  else (.ok false, t, m)

/-- packages/gurke/src/gurke/token_matcher.py:32-146: `match_K` for each kind. `match_ScenarioLine` (38-41) tries
`scenario_keywords`, then `scenario_outline_keywords`. -/
def matchKind (k : Kind) (t : Token) (m : CState) : Except MExc Bool × Token × CState :=
  match k with
  | .eof => matchEof t m
  | .empty => matchEmpty t m
  | .comment => matchComment t m
  | .tagLine => matchTagLine t m
  | .featureLine => matchTitle .featureLine m.dialect.feature t m
  | .ruleLine => matchTitle .ruleLine m.dialect.rule t m
  | .backgroundLine => matchTitle .backgroundLine m.dialect.background t m
  | .scenarioLine => matchTitle .scenarioLine (m.dialect.scenario ++ m.dialect.scenarioOutline) t m
  | .examplesLine => matchTitle .examplesLine m.dialect.examples t m
  | .stepLine => matchStep t m
  | .docStringSeparator => matchDocSep t m
  | .tableRow => matchTableRow t m
  | .language => matchLanguage t m
  | .other => matchOther t m

/-- packages/gurke/src/gurke/token_matcher.py:26-30 `reset`. The default dialect was accepted by the constructor, so
`_change_dialect` cannot fail here; `dialectFor` is `some` for it (see `CState.Valid`). -/
def reset (m : CState) : CState :=
  let m1 := if m.dialectName ≠ m.defaultName then
      match dialectFor m.defaultName with
      | some d => { m with dialectName := m.defaultName, dialect := d }
      | none => m
    else m
  { m1 with indentToRemove := 0, active := none }

end Classic

/-- packages/gurke/src/gurke/token_matcher.py:21-24 `TokenMatcher.__init__`; `none` = `NoSuchLanguageException`. -/
def CState.new (name : Str) : Option CState :=
  (dialectFor name).map fun d =>
    { defaultName := name, dialectName := name, dialect := d, indentToRemove := 0, active := none }

/-- The classic matcher as the parser sees it. -/
def classic : Matcher CState := { match_ := Classic.matchKind, reset := Classic.reset }

end Gherkin
