import Verif.Proofs.ClassicMatch
import Verif.Proofs.Takes

/-! The classic parser without token queue: it walks over the list of lines and peeks at the lines to come.
`Proofs/Refine.lean` proves that the real driver does exactly this. -/

namespace Gherkin

/-- `Parser(ast_builder, stop_at_first_error)` used with a `TokenMatcher`. -/
abbrev classicCfg {σ ρ : Type} (B : Builder σ ρ) (stop : Bool) : Config CState σ ρ := ⟨classic, B, stop⟩

/-- A context without its queue and scanner. -/
def Ctx.norm {μ σ : Type} (c : Ctx μ σ) : Ctx μ σ := { c with scanner := ⟨[], 0⟩, queue := [] }

/-- The lines a look-ahead skips: blank lines, comments, tag lines. -/
def Line.isSkip (l : Line) : Bool := l.isBlank || l.startsWith ['#'] || l.startsWith ['@']

namespace Pure

/-- The answer of a look-ahead, given the lines to come. -/
def peek (la : LA) (m : CState) : List Line → Except Crash Bool
  | [] => .ok false
  | l :: rest =>
    if l.isEof then .ok false
    else match (Classic.matchKind la.expected (Token.fresh l) m).1 with
      | .ok true => .ok true
      | _ =>
        if l.isBlank || l.startsWith ['#'] then peek la m rest
        else if l.startsWith ['@'] then
          match l.tags with
          | .ok _ => peek la m rest
          | .error x => .error x
        else .ok false

section
variable {σ ρ : Type}

def test (cfg : Config CState σ ρ) (tr : Trans) (t : Token) (rest : List Line) (c : Ctx CState σ) :
    Except Exc Bool × Token × Ctx CState σ :=
  match matchTok cfg tr.kind t c with
  | (.ok true, t', c') =>
    match tr.la with
    | none => (.ok true, t', c')
    | some la =>
      match peek la c'.matcher rest with
      | .ok b => (.ok b, t', c')
      | .error x => (.error (.crash x), t', c')
  | r => r

def try_ (cfg : Config CState σ ρ) : List Trans → Token → List Line → Ctx CState σ →
    Except Exc (Option Nat) × Token × Ctx CState σ
  | [], t, _, c => (.ok none, t, c)
  | tr :: trs, t, rest, c =>
    match test cfg tr t rest c with
    | (.error x, t', c') => (.error x, t', c')
    | (.ok false, t', c') => try_ cfg trs t' rest c'
    | (.ok true, t', c') =>
      match runProds cfg tr.prods t' c' with
      | (.ok (), c'') => (.ok (some tr.target), t', c'')
      | (.error x, c'') => (.error x, t', c'')

/-- One step: the line `l` in state `q`, with the lines `rest` to come. -/
def step (cfg : Config CState σ ρ) (q : Nat) (l : Line) (rest : List Line) (c : Ctx CState σ) :
    Except Exc Nat × Ctx CState σ :=
  match table q with
  | none => (.error (.crash .runtimeError), c)
  | some row =>
    match try_ cfg row.trans (Token.fresh l) rest c with
    | (.error x, _, c') => (.error x, c')
    | (.ok (some target), _, c') => (.ok target, c')
    | (.ok none, t', c') =>
      if cfg.stop then (.error (.single (unexpected row.expected t')), c')
      else match addError (unexpected row.expected t') c' with
        | (.ok (), c'') => (.ok row.stay, c'')
        | (.error x, c'') => (.error x, c'')

/-- The main loop over the lines. The second component is the state in which it ended. -/
def loop (cfg : Config CState σ ρ) : List Line → Nat → Ctx CState σ → Except Exc Nat × Ctx CState σ
  | [], q, c => (.ok q, c)
  | l :: rest, q, c =>
    match step cfg q l rest { c with log := c.log ++ [.take l] } with
    | (.error x, c2) => (.error x, c2)
    | (.ok q', c2) => if l.isEof then (.ok q', c2) else loop cfg rest q' c2

/-- The whole parse, given the lines (with the end-of-file line). -/
def parse (cfg : Config CState σ ρ) (lines : List Line) (m : CState) (b : σ) : Except Exc ρ × Ctx CState σ :=
  match runProd cfg (.start .gherkinDocument) (Token.fresh ⟨[], 0⟩)
    { scanner := ⟨[], 0⟩, matcher := cfg.matcher.reset m, queue := [], errors := [], builder := cfg.builder.reset b,
      log := [] } with
  | (.error x, c) => (.error x, c)
  | (.ok (), c) =>
    match loop cfg lines 0 c with
    | (.error x, c) => (.error x, c)
    | (.ok _, c) =>
      match runProd cfg (.stop .gherkinDocument) (Token.fresh ⟨[], 0⟩) c with
      | (.error x, c) => (.error x, c)
      | (.ok (), c) =>
        if c.errors ≠ [] then (.error (.composite c.errors), c)
        else match cfg.builder.result c.builder with
          | .ok r => (.ok r, c)
          | .error (.crash k) => (.error (.crash k), c)
          | .error (.parser e) => (.error (.single e), c)

end

end Pure

end Gherkin
