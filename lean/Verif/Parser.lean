import Verif.Gen.Table
import Verif.AstBuilder
import Verif.MatcherMd

/-! Model of the driver in packages/gurke/src/gurke/parser.py (`Parser`, `ParserContext`). -/

namespace Gherkin

/-- What can end `Parser.parse` other than a result. `outOfFuel` is no Python behaviour: it marks the end of the model's fuel
and is proved never to occur. -/
inductive Exc
  /-- `CompositeParserException` with its `errors`. -/
  | composite (errors : List Err)
  /-- a single `ParserException` (only with `stop_at_first_error`). -/
  | single (e : Err)
  | crash (c : Crash)
  | outOfFuel
  deriving DecidableEq, Repr, Inhabited

/-- Ghost events: what the parser did, in order. Never read by the model. -/
inductive Ev
  /-- the main loop took this line as the next token -/
  | take (l : Line)
  | start (r : Rule)
  | stop (r : Rule)
  | build (t : Token)
  deriving DecidableEq, Repr, Inhabited

/-- packages/gurke/src/gurke/parser.py:48-60 `ParserContext`, together with the builder object and the ghost log. -/
structure Ctx (μ σ : Type) where
  scanner : Scanner
  matcher : μ
  queue : List Token
  errors : List Err
  builder : σ
  log : List Ev

/-- The parts of a `Parser` that do not change during a parse: matcher and builder methods, `stop_at_first_error`. -/
structure Config (μ σ ρ : Type) where
  matcher : Matcher μ
  builder : Builder σ ρ
  stop : Bool

section
variable {μ σ ρ : Type}

/-- packages/gurke/src/gurke/parser.py:98-102 `add_error`: errors with a known message are dropped; the eleventh error ends
the parse. -/
def addError (e : Err) (c : Ctx μ σ) : Except Exc Unit × Ctx μ σ :=
  if e.msg ∈ c.errors.map (·.msg) then (.ok (), c)
  else
    let es := c.errors ++ [e]
    if es.length > 10 then (.error (.composite es), { c with errors := es })
    else (.ok (), { c with errors := es })

/-- packages/gurke/src/gurke/parser.py:3831-3844 `handle_external_error`, after the action has answered `r`. Matchers and
builders never raise `CompositeParserException`, so that branch (3839-3841) is not modelled. -/
def handle {α : Type} (cfg : Config μ σ ρ) (default : α) (r : Except MExc α) (c : Ctx μ σ) : Except Exc α × Ctx μ σ :=
  match r with
  | .ok a => (.ok a, c)
  | .error (.crash k) => (.error (.crash k), c)
  | .error (.parser e) =>
    if cfg.stop then (.error (.single e), c)
    else match addError e c with
      | (.ok (), c') => (.ok default, c')
      | (.error x, c') => (.error x, c')

/-- An error that holds a token's own `Location` object sees later changes of its column. -/
def syncErrors (t : Token) (es : List Err) : List Err :=
  es.map fun e => if e.aliasOf = some t.line.number then { e with loc := t.loc } else e

/-- packages/gurke/src/gurke/parser.py:119-185: `match_K(context, token)`; all kinds but `EOF` are refused at end of file. -/
def matchTok (cfg : Config μ σ ρ) (k : Kind) (t : Token) (c : Ctx μ σ) : Except Exc Bool × Token × Ctx μ σ :=
  if k ≠ .eof ∧ t.eof = true then (.ok false, t, c)
  else
    match cfg.matcher.match_ k t c.matcher with
    | (r, t', m') =>
      match handle cfg false r { c with matcher := m', errors := syncErrors t' c.errors } with
      | (r', c') => (r', t', c')

/-- `self.match_A(context, token) or self.match_B(context, token) or ...` -/
def matchAny (cfg : Config μ σ ρ) : List Kind → Token → Ctx μ σ → Except Exc Bool × Token × Ctx μ σ
  | [], t, c => (.ok false, t, c)
  | k :: ks, t, c =>
    match matchTok cfg k t c with
    | (.ok false, t', c') => matchAny cfg ks t' c'
    | r => r

/-- packages/gurke/src/gurke/parser.py:113-117 `read_token`. -/
def readToken (c : Ctx μ σ) : Token × Ctx μ σ :=
  match c.queue with
  | t :: q => (t, { c with queue := q })
  | [] =>
    match c.scanner.read with
    | (l, s) => (Token.fresh l, { c with scanner := s })

/-- The token kind a look-ahead waits for (packages/gurke/src/gurke/parser.py:3784, 3810). -/
def LA.expected : LA → Kind
  | .la0 => .scenarioLine
  | .la1 => .examplesLine

/-- The token kinds a look-ahead skips, in the order they are tried (packages/gurke/src/gurke/parser.py:3788-3793). -/
def skipKinds : List Kind := [.empty, .comment, .tagLine]

/-- The loop of `lookahead_0`, `lookahead_1` (packages/gurke/src/gurke/parser.py:3779-3794, 3805-3820). `acc` is the local
`queue`; the answer is `match`. -/
def laLoop (cfg : Config μ σ ρ) (la : LA) : Nat → List Token → Ctx μ σ → Except Exc (Bool × List Token) × Ctx μ σ
  | 0, _, c => (.error .outOfFuel, c)
  | fuel + 1, acc, c =>
    match readToken c with
    | (t, c1) =>
      match matchTok cfg la.expected t c1 with
      | (.error x, _, c2) => (.error x, c2)
      | (.ok true, t2, c2) => (.ok (true, acc ++ [t2]), c2)
      | (.ok false, t2, c2) =>
        match matchAny cfg skipKinds t2 c2 with
        | (.error x, _, c3) => (.error x, c3)
        | (.ok true, t3, c3) => laLoop cfg la fuel (acc ++ [t3]) c3
        | (.ok false, t3, c3) => (.ok (false, acc ++ [t3]), c3)

/-- packages/gurke/src/gurke/parser.py:3774-3824 `lookahead_0`, `lookahead_1`: the tokens read are appended to the queue. -/
def lookahead (cfg : Config μ σ ρ) (la : LA) (c : Ctx μ σ) : Except Exc Bool × Ctx μ σ :=
  match laLoop cfg la (c.queue.length + c.scanner.lines.length + 1) [] c with
  | (.error x, c') => (.error x, c')
  | (.ok (b, ts), c') => (.ok b, { c' with queue := c'.queue ++ ts })

/-- One production: packages/gurke/src/gurke/parser.py:95-96 `build`, 104-108 `start_rule`, `end_rule`, through
`handle_ast_error` (3828-3829). -/
def runProd (cfg : Config μ σ ρ) (p : Prod) (t : Token) (c : Ctx μ σ) : Except Exc Unit × Ctx μ σ :=
  match p with
  | .start r =>
    match cfg.builder.start r c.builder with
    | (x, b) => handle cfg () x { c with builder := b, log := c.log ++ [.start r] }
  | .stop r =>
    match cfg.builder.stop r c.builder with
    | (x, b) => handle cfg () x { c with builder := b, log := c.log ++ [.stop r] }
  | .build =>
    match cfg.builder.build t c.builder with
    | (x, b) => handle cfg () x { c with builder := b, log := c.log ++ [.build t] }

/-- The statements of one transition. -/
def runProds (cfg : Config μ σ ρ) : List Prod → Token → Ctx μ σ → Except Exc Unit × Ctx μ σ
  | [], _, c => (.ok (), c)
  | p :: ps, t, c =>
    match runProd cfg p t c with
    | (.ok (), c') => runProds cfg ps t c'
    | r => r

/-- `if self.match_K(context, token) [and self.lookahead_N(context, token)]`. -/
def testTrans (cfg : Config μ σ ρ) (tr : Trans) (t : Token) (c : Ctx μ σ) : Except Exc Bool × Token × Ctx μ σ :=
  match matchTok cfg tr.kind t c with
  | (.ok true, t', c') =>
    match tr.la with
    | none => (.ok true, t', c')
    | some la =>
      match lookahead cfg la c' with
      | (r, c'') => (r, t', c'')
  | r => r

/-- The chain of `if` blocks of a `match_token_at_N`; `none` = none of them applied. -/
def tryTrans (cfg : Config μ σ ρ) : List Trans → Token → Ctx μ σ → Except Exc (Option Nat) × Token × Ctx μ σ
  | [], t, c => (.ok none, t, c)
  | tr :: trs, t, c =>
    match testTrans cfg tr t c with
    | (.error x, t', c') => (.error x, t', c')
    | (.ok false, t', c') => tryTrans cfg trs t' c'
    | (.ok true, t', c') =>
      match runProds cfg tr.prods t' c' with
      | (.ok (), c'') => (.ok (some tr.target), t', c'')
      | (.error x, c'') => (.error x, t', c'')

/-- The error of a token that no `if` block accepts. -/
def unexpected (expected : List Kind) (t : Token) : Err :=
  if t.eof then Err.mkUnexpectedEof t expected else Err.mkUnexpectedToken t expected

/-- packages/gurke/src/gurke/parser.py:187-243 `match_token` and 245-3772 `match_token_at_N`. -/
def matchToken (cfg : Config μ σ ρ) (state : Nat) (t : Token) (c : Ctx μ σ) : Except Exc Nat × Ctx μ σ :=
  match table state with
  | none => (.error (.crash .runtimeError), c)
  | some row =>
    match tryTrans cfg row.trans t c with
    | (.error x, _, c') => (.error x, c')
    | (.ok (some target), _, c') => (.ok target, c')
    | (.ok none, t', c') =>
      if cfg.stop then (.error (.single (unexpected row.expected t')), c')
      else match addError (unexpected row.expected t') c' with
        | (.ok (), c'') => (.ok row.stay, c'')
        | (.error x, c'') => (.error x, c'')

/-- packages/gurke/src/gurke/parser.py:82-86: the main loop. -/
def parseLoop (cfg : Config μ σ ρ) : Nat → Nat → Ctx μ σ → Except Exc Unit × Ctx μ σ
  | 0, _, c => (.error .outOfFuel, c)
  | fuel + 1, state, c =>
    match readToken c with
    | (t, c1) =>
      match matchToken cfg state t { c1 with log := c1.log ++ [.take t.line] } with
      | (.error x, c2) => (.error x, c2)
      | (.ok state', c2) => if t.eof then (.ok (), c2) else parseLoop cfg fuel state' c2

/-- packages/gurke/src/gurke/parser.py:71-77: the context at the start of a parse, after `reset` of builder and matcher. -/
def Ctx.init (cfg : Config μ σ ρ) (text : Str) (m : μ) (b : σ) : Ctx μ σ :=
  { scanner := Scanner.ofStr text, matcher := cfg.matcher.reset m, queue := [], errors := [],
    builder := cfg.builder.reset b, log := [] }

/-- packages/gurke/src/gurke/parser.py:68-93 `Parser.parse` for a `str` argument and a given matcher object `m`, on a parser
whose builder object is `b`; returns the outcome and the final context (matcher and builder objects live on). -/
def parse (cfg : Config μ σ ρ) (text : Str) (m : μ) (b : σ) : Except Exc ρ × Ctx μ σ :=
  match runProd cfg (.start .gherkinDocument) (Token.fresh ⟨[], 0⟩) (Ctx.init cfg text m b) with
  | (.error x, c) => (.error x, c)
  | (.ok (), c) =>
    match parseLoop cfg (c.scanner.lines.length + 1) 0 c with
    | (.error x, c) => (.error x, c)
    | (.ok (), c) =>
      match runProd cfg (.stop .gherkinDocument) (Token.fresh ⟨[], 0⟩) c with
      | (.error x, c) => (.error x, c)
      | (.ok (), c) =>
        if c.errors ≠ [] then (.error (.composite c.errors), c)
        else match cfg.builder.result c.builder with
          | .ok r => (.ok r, c)
          | .error (.crash k) => (.error (.crash k), c)
          | .error (.parser e) => (.error (.single e), c)

end

end Gherkin
