import Verif.Parser.Stmt

/-!
# How many calls of the statement iterator a program makes

The parsing functions touch the tokens only through the statement iterator, so the number of calls of its methods
measures the work they do.
-/

namespace Lol

/-- The number of calls of `next`, `peek` and `next_statement` (`src/parser/statement_iterator.rs:21-129`) that a
program makes when it is run. A call of `next_statement` counts as itself and the calls of `next` its loop makes:
one for every token it returns and the last one, that returns `None` (`src/parser/statement_iterator.rs:62-66`). -/
def Prog.calls {σ α : Type} (I : IterOps σ) : Prog α → σ → Nat
  | .ret _, _ => 0
  | .err _, _ => 0
  | .panic _, _ => 0
  | .outOfFuel, _ => 0
  | .next k, s => 1 + (k (I.next s).1).calls I (I.next s).2
  | .peek k, s => 1 + (k (I.peek s).1).calls I (I.peek s).2
  | .nextStatement k, s =>
    2 + (I.nextStatement s).1.length + (k (I.nextStatement s).1).calls I (I.nextStatement s).2

/-- The number of calls `parse` (`src/parser/mod.rs:18-21`) makes, with the recursion bound `fuel`. -/
def parseCalls (fuel : Nat) (tokens : List Token) : Nat :=
  (parseBlock fuel stopRoot).calls StatementIterator.ops (StatementIterator.new tokens)

end Lol
