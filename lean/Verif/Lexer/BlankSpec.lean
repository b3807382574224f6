import Verif.Lexer.LayoutSpec

/-!
# Lexemes left out of a source text (specification)
-/

namespace Lol

/-- The pieces `bs` with the white space `g` before them, that stood before a lexeme that is left out. -/
def closeUp (g : Str) : List Piece → List Piece
  | [] => []
  | q :: bs => { q with gap := g ++ q.gap } :: bs

end Lol
