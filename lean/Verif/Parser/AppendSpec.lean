import Verif.Parser.Ast

/-! # Errors of constructs that are not closed (specification for C79) -/

namespace Lol

/-- The construct is not closed: there is no `IM OUTTA YR` for a loop, or no `IF U SAY SO` or `OIC` for another
construct. -/
inductive ASTError.Unclosed : ASTError → Prop
  | loop (t : Token) : ASTError.Unclosed (.imInYr (.missingImOuttaYr t))
  | other (t : Token) : ASTError.Unclosed (.missingBlockClosingToken t)

end Lol
