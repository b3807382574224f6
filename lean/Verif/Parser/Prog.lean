import Verif.Parser.Ast

/-!
# Programs over a statement iterator

Every parsing function of the crate takes a `&mut StatementIterator`, whose fields are private: it can only
call `next`, `peek`, `next_statement` and methods built from these. A parsing function is modelled by a `Prog`:
the tree of its calls to these three methods, with its return value, error or panic at the leaves. `run` executes
a program on an iterator.
-/

namespace Lol

/-- A computation that calls the methods of a statement iterator (`src/parser/statement_iterator.rs:21-129`). -/
inductive Prog (α : Type) where
  | ret (a : α)
  | err (e : ASTError)
  | panic (s : PanicSite)
  | outOfFuel
  | next (k : Option Token → Prog α)
  | peek (k : Option Token → Prog α)
  | nextStatement (k : List Token → Prog α)

namespace Prog

/-- Sequencing; an error leaves the function, as Rust's `?` (`src/parser/statements/*.rs`). -/
def bind {α β : Type} : Prog α → (α → Prog β) → Prog β
  | ret a, f => f a
  | err e, _ => err e
  | panic s, _ => panic s
  | outOfFuel, _ => outOfFuel
  | next k, f => next fun t => (k t).bind f
  | peek k, f => peek fun t => (k t).bind f
  | nextStatement k, f => nextStatement fun ts => (k ts).bind f

instance : Monad Prog where
  pure := ret
  bind := bind

/-- The `Result` of a computation as a value, as `parse_block` uses it (`src/parser/blocks.rs:140-148`). -/
def toResult {α : Type} : Prog α → Prog (Except ASTError α)
  | ret a => ret (.ok a)
  | err e => ret (.error e)
  | panic s => panic s
  | outOfFuel => outOfFuel
  | next k => next fun t => (k t).toResult
  | peek k => peek fun t => (k t).toResult
  | nextStatement k => nextStatement fun ts => (k ts).toResult

end Prog

/-- The operations of a statement iterator with states `σ` (`next`, `peek`, `next_statement` of
`src/parser/statement_iterator.rs:21-129`). -/
structure IterOps (σ : Type) where
  next : σ → Option Token × σ
  peek : σ → Option Token × σ
  nextStatement : σ → List Token × σ

/-- Outcome of running a parsing function (a Rust `Result<_, ASTErrorType>`, `src/parser/error.rs`): a value or an error, with the state of the iterator after it, or a
panic. -/
inductive Res (σ α : Type) where
  | ok (a : α) (s : σ)
  | err (e : ASTError) (s : σ)
  | panic (p : PanicSite)
  | outOfFuel

namespace Prog

/-- Run a program on an iterator: the `&mut StatementIterator` argument of the parsing functions
(`src/parser/statements/mod.rs:202-205`) made explicit. -/
def run {σ α : Type} (I : IterOps σ) : Prog α → σ → Res σ α
  | ret a, s => .ok a s
  | err e, s => .err e s
  | panic p, _ => .panic p
  | outOfFuel, _ => .outOfFuel
  | next k, s => (k (I.next s).1).run I (I.next s).2
  | peek k, s => (k (I.peek s).1).run I (I.peek s).2
  | nextStatement k, s => (k (I.nextStatement s).1).run I (I.nextStatement s).2

end Prog

/-- The operations of the model of `StatementIterator`, `src/parser/statement_iterator.rs:21-129`. -/
def StatementIterator.ops : IterOps StatementIterator :=
  { next := StatementIterator.next, peek := StatementIterator.peek
    nextStatement := StatementIterator.nextStatement }

/-- `StatementIterator::next`, `src/parser/statement_iterator.rs:106-129` -/
def next : Prog (Option Token) := .next .ret

/-- `StatementIterator::peek`, `src/parser/statement_iterator.rs:21-29` -/
def peek : Prog (Option Token) := .peek .ret

/-- `StatementIterator::next_statement`, `src/parser/statement_iterator.rs:61-76` -/
def nextStatement : Prog (List Token) := .nextStatement .ret

/-- `return Err(e)`, e.g. `src/parser/statement_iterator.rs:55`. -/
def fail {α : Type} (e : ASTError) : Prog α := .err e

/-- `next_if`, `src/parser/statement_iterator.rs:31-36` -/
def nextIf (f : Token → Bool) : Prog (Option Token) := do
  match ← peek with
  | some token => if f token then next else pure none
  | none => pure none

/-- `next_if_token_type_eq`, `src/parser/statement_iterator.rs:38-43` -/
def nextIfTokenTypeEq (expected : TokenType) : Prog (Option Token) := do
  match ← peek with
  | some token => if token.tokenType = expected then next else pure none
  | none => pure none

/-- `next_if_token_type_ne`, `src/parser/statement_iterator.rs:45-50` -/
def nextIfTokenTypeNe (expected : TokenType) : Prog (Option Token) := do
  match ← peek with
  | some token => if token.tokenType ≠ expected then next else pure none
  | none => pure none

/-- `next_statement_should_be_empty`, `src/parser/statement_iterator.rs:52-59` -/
def nextStatementShouldBeEmpty : Prog Unit := do
  let remaining ← nextStatement
  if remaining.isEmpty then pure () else fail (.tooManyTokens remaining)

/-- `matches!(token.token_type, TokenType::Keyword(k))`, e.g. `src/parser/statements/i_is.rs:54`. -/
def Token.isKeyword (k : Keyword) (t : Token) : Bool := decide (t.tokenType = .keyword k)

end Lol
