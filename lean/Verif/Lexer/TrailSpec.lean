import Verif.Lexer.Spec

/-!
# The end of a source, and the text in tokens (specification)
-/

namespace Lol

/-- The text does not end in a digit or dot. -/
def EndsNoNumber (s : Str) : Prop := ∀ u c, s = u ++ [c] → ¬ IsDigit c ∧ c ≠ '.'

/-- All strings are closed: with both quotes the range is two bytes longer than the text. -/
def StringsClosed (ts : List Token) : Prop := ∀ t ∈ ts, ∀ s, t.tokenType = .value (.string s) →
  t.range.stop.bytes - t.range.start.bytes = utf8Len s + 2

/-- The text that a token holds. -/
def TokenType.text : TokenType → Str
  | .identifier s => s
  | .symbol s => s
  | .value (.string s) => s
  | .commentSingleLine s => s
  | .commentMultiLine s => s
  | _ => []

/-- The text that tokens hold, in order. -/
def textOf (ts : List Token) : Str := ts.flatMap fun t => t.tokenType.text

end Lol
