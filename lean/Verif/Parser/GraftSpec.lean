import Verif.Lexer.LayoutSpec
import Verif.Parser.SubstSpec
import Verif.Parser.Blocks

/-!
# An expression in place of a literal in a source text (specification)
-/

namespace Lol

/-- The white space in front of the first piece, or at the end of the text if there is no piece. -/
def firstGap : List Piece → (tail : Str) → Str
  | [], tail => tail
  | p :: _, _ => p.gap

/-- The pieces with the white space `g` in front of the first. -/
def setGap (g : Str) : List Piece → List Piece
  | [] => []
  | p :: ps => ⟨g, p.lex, p.type⟩ :: ps

/-- The white space `g` keeps the last of the pieces apart from anything that follows: it is more than a single space, or
no keyword has a space after this lexeme. -/
def Apart (ps : List Piece) (g : Str) : Prop :=
  ∀ q, ps.getLast? = some q → WideGap g ∨ g = [' '] ∧ ¬ Joins q.lex

/-- The pieces `ps` stay apart from the pieces `B` behind them: by white space, or because these start with `,` or `!`. -/
def ApartFrom (ps B : List Piece) (tail : Str) : Prop :=
  Apart ps (firstGap B tail) ∨ ∃ q r, B = q :: r ∧ q.gap = [] ∧ (q.lex = [','] ∨ q.lex = ['!'])

/-- The pieces are one line without `,` and `...`, which alone is the expression `e`. -/
def OneExpression (ps : List Piece) (e : Expr) : Prop :=
  tokenizeAndParse (layout ps ['\n']) = .ok (.ok [.expression e]) ∧
    (∃ ts, tokenize (layout ps ['\n']) = .ok (.ok ts) ∧ TokensAt 0 1 ps ts) ∧
    ∀ q ∈ ps, q.Movable ∧ '\n' ∉ q.gap ∧ q.type ≠ .comma ∧ q.type ≠ .ellipsis

/-- The expression `e` for the token `t`. -/
def only (t : Token) (e : Expr) (u : Token) : Option Expr := if u = t then some e else none

end Lol
