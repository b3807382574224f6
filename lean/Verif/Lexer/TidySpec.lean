import Verif.Lexer.LayoutSpec

/-!
# The shortest white space (specification)

Every stretch of white space between lexemes as one character.
-/

namespace Lol

/-- The words after which a single space is not safe: each stands before a space in a keyword. -/
def joiners : List Str :=
  [chars!"HAS", chars!"I", chars!"I HAS", chars!"SUM", chars!"DIFF", chars!"PRODUKT", chars!"QUOSHUNT", chars!"MOD",
    chars!"BIGGR", chars!"SMALLR", chars!"BOTH", chars!"EITHER", chars!"WON", chars!"ALL", chars!"LL", chars!"ANY",
    chars!"NY", chars!"Y", chars!"IS", chars!"O", chars!"YA", chars!"NO", chars!"IM", chars!"IM IN", chars!"IN",
    chars!"IM OUTTA", chars!"OUTTA", chars!"HOW", chars!"HOW IZ", chars!"IZ", chars!"IF", chars!"IF U", chars!"U",
    chars!"IF U SAY", chars!"U SAY", chars!"SAY", chars!"FOUND"]

/-- White space `g` after the lexeme `prev`, in one character: a newline if there is one in `g`, otherwise a space, or
a tab where a space would join words to a keyword. Nothing is left of white space before the first lexeme (`none`). -/
def squeeze (prev : Option Str) (g : Str) : Str :=
  match prev with
  | none => []
  | some lex => if g = [] then [] else if '\n' ∈ g then ['\n'] else if lex ∈ joiners then ['\t'] else [' ']

/-- All white space in the pieces squeezed, where `prev` is the lexeme before them. -/
def tidy : (prev : Option Str) → List Piece → List Piece
  | _, [] => []
  | prev, p :: ps => { p with gap := squeeze prev p.gap } :: tidy (some p.lex) ps

/-- The source text of the pieces with all white space squeezed and a newline at the end. -/
def tidyText (ps : List Piece) : Str := layout (tidy none ps) ['\n']

/-- The same lexemes, with white space between the same of them and newlines between the same of them. -/
def SameShape : List Piece → List Piece → Prop
  | [], [] => True
  | p :: ps, q :: qs => (p.lex = q.lex ∧ p.type = q.type) ∧ SameShape' ps qs
  | _, _ => False
where
  SameShape' : List Piece → List Piece → Prop
  | [], [] => True
  | p :: ps, q :: qs =>
    (p.lex = q.lex ∧ p.type = q.type ∧ (p.gap = [] ↔ q.gap = []) ∧ ('\n' ∈ p.gap ↔ '\n' ∈ q.gap)) ∧ SameShape' ps qs
  | _, _ => False

end Lol
