import Verif.Lexer.Spec

/-!
# Windows line ends (specification)
-/

namespace Lol

/-- The text with a carriage return before every newline. -/
def crlf : Str → Str
  | [] => []
  | c :: s => if c = '\n' then '\r' :: '\n' :: crlf s else c :: crlf s

/-- The token type with this done in the text of a string and of a comment over several lines. -/
def crlfType : TokenType → TokenType
  | .value (.string s) => .value (.string (crlf s))
  | .commentMultiLine s => .commentMultiLine (crlf s)
  | ty => ty

/-- The types of the tokens that start on line `l`. -/
def lineTypes (ts : List Token) (l : Int) : List TokenType :=
  (ts.filter fun t => t.range.start.line = l).map (·.tokenType)

/-- A line of token types with a carriage return at its end: in the comment that ends the line, and otherwise as one
more token. -/
def endLine : List TokenType → List TokenType
  | [] => [.symbol ['\r']]
  | [.commentSingleLine s] => [.commentSingleLine (s ++ ['\r'])]
  | ty :: tys => ty :: endLine tys

end Lol
