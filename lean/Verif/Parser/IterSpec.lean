import Verif.Parser.StatementIterator
import Verif.Parser.Prog

/-! # What can be observed of a statement iterator (specification) -/

namespace Lol

/-- The states of an iterator over `tokens` that some sequence of calls leads to. -/
inductive StatementIterator.Reachable (tokens : List Token) : StatementIterator → Prop
  | new : Reachable tokens (StatementIterator.new tokens)
  | next {s} : Reachable tokens s → Reachable tokens s.next.2
  | peek {s} : Reachable tokens s → Reachable tokens s.peek.2
  | nextStatement {s} : Reachable tokens s → Reachable tokens s.nextStatement.2

/-- What the `k + 1`-th of a sequence of calls of `next_statement` returns: statement 0 is what is left of the
current statement. -/
def StatementIterator.statement (s : StatementIterator) : Nat → List Token
  | 0 => s.nextStatement.1
  | k + 1 => s.nextStatement.2.statement k

/-- What a parsing function returns, without the state in which it leaves the iterator. -/
def Res.out {σ α : Type} : Res σ α → Out (Except ASTError α)
  | .ok a _ => .ok (.ok a)
  | .err e _ => .ok (.error e)
  | .panic p => .panic p
  | .outOfFuel => .outOfFuel

/-- Commas and ellipses. -/
def Token.isSeparator (t : Token) : Bool := decide (t.tokenType = .comma ∨ t.tokenType = .ellipsis)

/-- The tokens other than commas and ellipses. -/
def content (tokens : List Token) : List Token := tokens.filter (fun t => !t.isSeparator)

/-- A token `x`, the separators `gap` and a token `y` are in one statement: there is no comma, and either `y`
follows `x` immediately on the same line, or the first ellipsis after `x` is on the same line as `x`. -/
def Joined (x : Token) (gap : List Token) (y : Token) : Prop :=
  (∀ t ∈ gap, t.tokenType ≠ .comma) ∧ ((gap ++ [y]).head?.map (·.range.start.line) = some x.range.start.line)

end Lol
