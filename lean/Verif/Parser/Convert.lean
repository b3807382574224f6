import Verif.Parser.Expr

/-! # Conversions between tokens, statements and nodes that the parser itself does not use -/

namespace Lol

/-- `ASTType::token` and `into_token`, `src/parser/expression/identifier.rs:76-96` -/
def ASTType.intoToken : ASTType → Token
  | .bukkit token => token
  | .numbr token => token
  | .numbar token => token
  | .yarn token => token
  | .troof token => token
  | .noob token => token

/-- `impl TryFrom<Token> for ASTExpressionValue`, `src/parser/expression/mod.rs:113-121` (`none` for `Err(())`) -/
def ExprValue.tryFrom (value : Token) : Option ExprValue :=
  match value.tokenType with
  | .value _ => some (.literal value)
  | _ => none

/-- `impl From<VecDeque<VecDeque<Token>>> for StatementIterator`, `src/parser/statement_iterator.rs:79-83` -/
def StatementIterator.ofStatements (value : List (List Token)) : StatementIterator := .new value.flatten

end Lol
