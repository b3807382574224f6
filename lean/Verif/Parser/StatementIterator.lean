import Verif.Lexer.Token

/-! # `src/parser/statement_iterator.rs` -/

namespace Lol

/-- `Range::start_line` of a token (`src/lexer/range.rs:33-35`). -/
def Token.line (t : Token) : Int := t.range.startLine

/-- `StatementIterator`, `src/parser/statement_iterator.rs:6-10`. The `Peekable<vec::IntoIter<Token>>`
is represented by the list of tokens not yet taken from it. -/
structure StatementIterator where
  rest : List Token
  line : Int
  peeked : Option (Option Token)
  deriving DecidableEq, Repr

namespace StatementIterator

/-- `new`, `src/parser/statement_iterator.rs:13-19` -/
def new (tokens : List Token) : StatementIterator :=
  { line := match tokens with
      | [] => 0
      | t :: _ => t.line
    rest := tokens
    peeked := none }

/-- `self.tokens_iter.peek().map(|t| self.current_line = t.range.start_line())`,
`src/parser/statement_iterator.rs:71-73` and `116-118`: the new value of `current_line`. -/
def lineOfNext (rest : List Token) (line : Int) : Int :=
  match rest with
  | [] => line
  | t :: _ => t.line

/-- The part of `next` that runs when nothing has been peeked,
`src/parser/statement_iterator.rs:112-128`. Returns the token and the new `tokens_iter` and
`current_line`. -/
def nextRaw : List Token → Int → Option Token × List Token × Int
  | [], line => (none, [], line)
  | t :: rest, line =>
    if t.tokenType = .comma then (none, t :: rest, line)
    else if t.tokenType = .ellipsis ∧ t.line = line then nextRaw rest (lineOfNext rest line)
    else if t.line = line then (some t, rest, line)
    else (none, t :: rest, line)

/-- `next`, `src/parser/statement_iterator.rs:106-129` -/
def next (s : StatementIterator) : Option Token × StatementIterator :=
  match s.peeked with
  | some token => (token, { s with peeked := none })
  | none =>
    match nextRaw s.rest s.line with
    | (token, rest, line) => (token, { rest := rest, line := line, peeked := none })

/-- `peek`, `src/parser/statement_iterator.rs:21-29` -/
def peek (s : StatementIterator) : Option Token × StatementIterator :=
  match s.peeked with
  | some token => (token, s)
  | none =>
    match s.next with
    | (token, s') => (token, { s' with peeked := some token })

/-- `self.collect()`, `src/parser/statement_iterator.rs:62`: call `next` until it returns `None`. The loop is
bounded by `fuel`; `collect` below gives one round more than there are tokens. -/
def collectLoop : Nat → StatementIterator → List Token × StatementIterator
  | 0, s => ([], s)
  | fuel + 1, s =>
    match s.next with
    | (none, s') => ([], s')
    | (some t, s') =>
      match collectLoop fuel s' with
      | (ts, s'') => (t :: ts, s'')

/-- `self.collect()`, `src/parser/statement_iterator.rs:62` -/
def collect (s : StatementIterator) : List Token × StatementIterator :=
  collectLoop (s.rest.length + 2) s

/-- `while self.tokens_iter.next_if(|t| t.token_type == Comma).is_some() {}`,
`src/parser/statement_iterator.rs:65-69` -/
def skipCommas : List Token → List Token
  | [] => []
  | t :: rest => if t.tokenType = .comma then skipCommas rest else t :: rest

/-- `next_statement`, `src/parser/statement_iterator.rs:61-76` -/
def nextStatement (s : StatementIterator) : List Token × StatementIterator :=
  match s.collect with
  | (remaining, s') =>
    let rest := skipCommas s'.rest
    (remaining, { rest := rest, line := lineOfNext rest s'.line, peeked := none })

end StatementIterator

end Lol
