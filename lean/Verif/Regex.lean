import Verif.Py

/-! Model of the part of Python's `re` that /repo uses: reading a pattern, matching, `match`, `search`, `fullmatch`, `finditer`, `sub`, `split`. It is written
after Python's documentation of `re` (Python 3.7 and later) and is trusted; nothing of it is in /repo. -/

namespace Gherkin.Regex

/-- What can stand in a character class. -/
inductive Item
  | one (c : Char) | range (a b : Char) | space | nonSpace
  deriving DecidableEq, Repr

/-- `\s` is `str.isspace` for text patterns. -/
def Item.has : Item → Char → Bool
  | .one a, c => c == a
  | .range a b, c => a ≤ c && c ≤ b
  | .space, c => isSpace c
  | .nonSpace, c => !isSpace c

/-- A character class, perhaps negated. -/
structure Set where
  neg : Bool
  items : List Item
  deriving DecidableEq, Repr

def Set.has (s : Set) (c : Char) : Bool := xor s.neg (s.items.any fun i => i.has c)

/-- Regular expressions: greedy loops, anchors with or without the flag `m`, capturing groups with their number. -/
inductive Rx
  | eps | set (s : Set) | seq (a b : Rx) | alt (a b : Rx) | star (a : Rx) | bol (multi : Bool) | eol (multi : Bool) | group (n : Nat) (a : Rx)
  deriving DecidableEq, Repr

/-! ### Reading a pattern -/

/-- An open group (or the whole pattern): its number if it captures, its earlier alternatives, and of the current one the beginning and the last
item, which a quantifier would apply to (`false`: it has a quantifier already). -/
structure Frame where
  num : Option Nat
  alts : Option Rx
  pre : Rx
  last : Option (Rx × Bool)
  deriving DecidableEq, Repr

def Frame.new (num : Option Nat) : Frame := { num := num, alts := none, pre := .eps, last := none }
def Frame.cur (f : Frame) : Rx := match f.last with | none => f.pre | some (r, _) => .seq f.pre r
def Frame.push (f : Frame) (r : Rx) : Frame := { f with pre := f.cur, last := some (r, true) }
def Frame.body (f : Frame) : Rx := match f.alts with | none => f.cur | some a => .alt a f.cur
def Frame.close (f : Frame) : Rx := match f.num with | none => f.body | some n => .group n f.body

/-- Where the reader is: between items, after a backslash, after `(`, after `(?`, after `[`, inside a class (with the class so far, the last single character
if it may begin a range, and whether a `-` follows it), after a backslash in a class, inside `{m,n}`. -/
inductive Mode
  | norm | esc | opened | ext | cls0
  | cls (neg first : Bool) (items : List Item) (lo : Option Char) (dash : Bool)
  | clsEsc (neg : Bool) (items : List Item) (lo : Option Char) (dash : Bool)
  | braceMin (m : Option Nat) | braceMax (m : Nat) (n : Option Nat)
  deriving DecidableEq, Repr

structure State where
  outer : List Frame
  cur : Frame
  groups : Nat
  mode : Mode
  deriving DecidableEq, Repr

/-- The flags `m` (MULTILINE) and `s` (DOTALL). -/
structure Flags where
  multi : Bool
  dotall : Bool

/-- A character. -/
def lit (c : Char) : Rx := .set ⟨false, [.one c]⟩

/-- The expression repeated: `{m,n}` for a known upper bound. -/
def times (r : Rx) : Nat → Rx
  | 0 => .eps
  | n + 1 => .seq r (times r n)
def upTo (r : Rx) : Nat → Rx
  | 0 => .eps
  | n + 1 => .alt (.seq r (upTo r n)) .eps

/-- Apply a quantifier to the last item; none: there is none, or it has a quantifier (an error, or a lazy or possessive quantifier, which are not
modelled). -/
def State.repeat (st : State) (f : Rx → Rx) : Option State :=
  match st.cur.last with
  | some (r, true) => some { st with cur := { st.cur with last := some (f r, false) }, mode := .norm }
  | _ => none

def State.push (st : State) (r : Rx) : State := { st with cur := st.cur.push r, mode := .norm }

def State.open (st : State) : State :=
  { outer := st.cur :: st.outer, cur := Frame.new (some (st.groups + 1)), groups := st.groups + 1, mode := .norm }

def isAlnum (c : Char) : Bool := ('a' ≤ c && c ≤ 'z') || ('A' ≤ c && c ≤ 'Z') || ('0' ≤ c && c ≤ '9')

/-- An escape sequence outside of classes: `\s`, `\S`, `\n`, and characters that are no ASCII letters or digits; the others are not modelled. -/
def escape (c : Char) : Option Set :=
  if c = 's' then some ⟨false, [.space]⟩ else if c = 'S' then some ⟨false, [.nonSpace]⟩ else if c = 'n' then some ⟨false, [.one '\n']⟩
  else if isAlnum c then none else some ⟨false, [.one c]⟩

/-- One character between items. -/
def stepNorm (fl : Flags) (st : State) (c : Char) : Option State :=
  if c = '\\' then some { st with mode := .esc }
  else if c = '(' then some { st with mode := .opened }
  else if c = ')' then match st.outer with
    | [] => none
    | f :: fs => some { st with outer := fs, cur := f.push st.cur.close, mode := .norm }
  else if c = '|' then some { st with cur := { st.cur with alts := some st.cur.body, pre := .eps, last := none }, mode := .norm }
  else if c = '*' then st.repeat .star
  else if c = '+' then st.repeat fun r => .seq r (.star r)
  else if c = '?' then st.repeat fun r => .alt r .eps
  else if c = '{' then some { st with mode := .braceMin none }
  else if c = '[' then some { st with mode := .cls0 }
  else if c = '.' then some (st.push (.set ⟨true, if fl.dotall then [] else [.one '\n']⟩))
  else if c = '^' then some (st.push (.bol fl.multi))
  else if c = '$' then some (st.push (.eol fl.multi))
  else some (st.push (lit c))

/-- The single character that is no beginning of a range joins the class. -/
def flush (items : List Item) : Option Char → List Item
  | none => items
  | some c => items ++ [.one c]

/-- One character inside a class. -/
def stepCls (st : State) (neg first : Bool) (items : List Item) (lo : Option Char) (dash : Bool) (c : Char) : Option State :=
  if c = ']' ∧ first = false then
    some (st.push (.set ⟨neg, if dash then flush items lo ++ [.one '-'] else flush items lo⟩))
  else if c = '\\' then some { st with mode := .clsEsc neg items lo dash }
  else match lo, dash with
    | some a, true => if a ≤ c then some { st with mode := .cls neg false (items ++ [.range a c]) none false } else none
    | some _, false => if c = '-' then some { st with mode := .cls neg false items lo true } else some { st with mode := .cls neg false (flush items lo) (some c) false }
    | none, _ => some { st with mode := .cls neg false items (some c) false }

/-- One character after a backslash in a class. -/
def stepClsEsc (st : State) (neg : Bool) (items : List Item) (lo : Option Char) (dash : Bool) (c : Char) : Option State :=
  match escape c with
  | none => none
  | some ⟨_, [.one d]⟩ => match lo, dash with
    | some a, true => if a ≤ d then some { st with mode := .cls neg false (items ++ [.range a d]) none false } else none
    | _, _ => some { st with mode := .cls neg false (flush items lo) (some d) false }
  | some s => if dash then none else some { st with mode := .cls neg false (flush items lo ++ s.items) none false }

def digit (n : Option Nat) (c : Char) : Nat := n.getD 0 * 10 + (c.toNat - '0'.toNat)

/-- One character of a pattern. none: an error, or something that is not modelled. -/
def step (fl : Flags) (st : State) (c : Char) : Option State :=
  match st.mode with
  | .norm => stepNorm fl st c
  | .esc => match escape c with
    | none => none
    | some s => some (st.push (.set s))
  | .opened => if c = '?' then some { st with mode := .ext } else stepNorm fl st.open c
  | .ext => if c = ':' then some { st with outer := st.cur :: st.outer, cur := Frame.new none, mode := .norm } else none
  | .cls0 => if c = '^' then some { st with mode := .cls true true [] none false } else stepCls st false true [] none false c
  | .cls neg first items lo dash => stepCls st neg first items lo dash c
  | .clsEsc neg items lo dash => stepClsEsc st neg items lo dash c
  | .braceMin m => if '0' ≤ c ∧ c ≤ '9' then some { st with mode := .braceMin (some (digit m c)) }
    else match m with
      | some m => if c = ',' then some { st with mode := .braceMax m none } else none
      | none => none
  | .braceMax m n => if '0' ≤ c ∧ c ≤ '9' then some { st with mode := .braceMax m (some (digit n c)) }
    else match n with
      | some n => if c = '}' ∧ m ≤ n then st.repeat fun r => .seq (times r m) (upTo r (n - m)) else none
      | none => none

def steps (fl : Flags) : State → Str → Option State
  | st, [] => some st
  | st, c :: cs => match step fl st c with
    | none => none
    | some st' => steps fl st' cs

/-- The beginning of a pattern. -/
def State.init : State := { outer := [], cur := Frame.new none, groups := 0, mode := .norm }

/-- The end of a pattern. -/
def State.finish (st : State) : Option Rx :=
  match st.outer, st.mode with
  | [], .norm => some st.cur.close
  | _, _ => none

/-- `re.compile(pattern)`; `(?ms)` at the beginning sets the flags `m` and `s`. none: the pattern is wrong, or not modelled. -/
def read (pattern : Str) : Option Rx :=
  let run := fun fl s => (steps fl State.init s).bind State.finish
  if startsWith pattern py"(?ms)" then run ⟨true, true⟩ (pattern.drop 5) else run ⟨false, false⟩ pattern

/-! ### Matching -/

/-- A position in the subject, with the groups captured so far: the characters before it (the last one first) and those after it. -/
structure Pos where
  back : Str
  rest : Str
  caps : List (Nat × Str)
  deriving DecidableEq, Repr

/-- A greedy loop; every round must make progress. (A round without progress does not change where a match can end.) -/
def loop (f : Pos → List Pos) : Nat → Pos → List Pos
  | 0, p => [p]
  | n + 1, p => ((f p).filter fun q => q.rest.length < p.rest.length).flatMap (loop f n) ++ [p]

/-- The ends of the matches that begin at a position, in the order in which backtracking finds them. -/
def Rx.run : Rx → Pos → List Pos
  | .eps, p => [p]
  | .set s, p => match p.rest with
    | [] => []
    | c :: cs => if s.has c then [⟨c :: p.back, cs, p.caps⟩] else []
  | .seq a b, p => (a.run p).flatMap b.run
  | .alt a b, p => a.run p ++ b.run p
  | .star a, p => loop a.run p.rest.length p
  | .bol multi, p => if p.back = [] ∨ (multi = true ∧ p.back.head? = some '\n') then [p] else []
  | .eol multi, p => if p.rest = [] ∨ p.rest = ['\n'] ∨ (multi = true ∧ p.rest.head? = some '\n') then [p] else []
  | .group n a, p => (a.run p).map fun q => { q with caps := (n, p.rest.take (p.rest.length - q.rest.length)) :: q.caps }

/-- The beginning of a subject. -/
def start (s : Str) : Pos := ⟨[], s, []⟩

/-- `match.group(n)`. -/
def Pos.group (p : Pos) (n : Nat) : Option Str := p.caps.lookup n

/-- `re.match`: the end of the match at the beginning. -/
def Rx.match? (r : Rx) (s : Str) : Option Pos := (r.run (start s)).head?

/-- `re.fullmatch`. -/
def Rx.fullmatch (r : Rx) (s : Str) : Bool := (r.run (start s)).any fun q => q.rest == []

/-- A match: where it begins and where it ends. -/
structure Found where
  first : Pos
  last : Pos
  deriving DecidableEq, Repr

/-- `match.group(0)`. -/
def Found.text (f : Found) : Str := f.first.rest.take (f.first.rest.length - f.last.rest.length)

/-- `re.finditer`: the matches from left to right, without overlap. A match may be empty unless the previous one was empty and ended here
(`must`: must advance). -/
def Rx.scan (r : Rx) : Nat → (must : Bool) → Pos → List Found
  | 0, _, _ => []
  | fuel + 1, must, p =>
    match (r.run p).find? fun q => !must || q.rest.length < p.rest.length with
    | some q => ⟨p, q⟩ :: r.scan fuel (q.rest.length == p.rest.length) { q with caps := [] }
    | none => match p.rest with
      | [] => []
      | c :: cs => r.scan fuel false ⟨c :: p.back, cs, []⟩

/-- All matches in a subject: each step of `scan` reads a character or turns `must` on. -/
def Rx.all (r : Rx) (s : Str) : List Found := r.scan (2 * s.length + 2) false (start s)

/-- `re.search`. -/
def Rx.search (r : Rx) (s : Str) : Option Found := (r.all s).head?

/-- `re.sub(pattern, f, s)`, given the matches: what stands between them is kept. -/
def splice (f : Found → Str) : Str → List Found → Str
  | rest, [] => rest
  | rest, m :: ms => rest.take (rest.length - m.first.rest.length) ++ f m ++ splice f m.last.rest ms

def Rx.sub (r : Rx) (f : Found → Str) (s : Str) : Str := splice f s (r.all s)

/-- `re.split(pattern, s, n)[0]`. -/
def Rx.splitFirst (r : Rx) (s : Str) : Str :=
  match r.search s with
  | none => s
  | some m => s.take (s.length - m.first.rest.length)

/-- `re.escape` (Python 3.7 and later). -/
def reEscape (s : Str) : Str := s.flatMap fun c => if c ∈ py"()[]{}?*+-|^$\\.&~# \t\n\r\x0b\x0c" then ['\\', c] else [c]

end Gherkin.Regex
