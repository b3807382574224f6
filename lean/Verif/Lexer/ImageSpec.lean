import Verif.Lexer.RenderSpec

/-!
# The lists of token types that come from source texts (specification)
-/

namespace Lol

/-- One symbol for every character. -/
def symbols (s : Str) : List TokenType := s.map fun c => .symbol [c]

/-- The lists of token types of source texts, as far as strings are ASCII. Digits are symbols only in an integer that is
too large, of which the end is read as an integer, and in a number at the end of the text. A string that is not closed
can only be at the end. -/
inductive Emits : List TokenType → Prop
  | nil : Emits []
  | cons {ty : TokenType} {tys : List TokenType} : Writable ty → Emits tys → Emits (ty :: tys)
  | comment {s : Str} {tys : List TokenType} : '\n' ∉ s → Emits tys → Emits (.commentSingleLine s :: tys)
  | large {ds : Str} {d : Char} {n : Int} {tys : List TokenType} : (∀ c ∈ ds, IsDigit c) → IsDigit d → d ≠ '0' → 0 ≤ n →
      InI32 n → Emits tys → Emits (symbols (ds ++ [d]) ++ .value (.number (.int n)) :: tys)
  | openString {s : Str} : QuotesEscaped s → (∀ c ∈ s, IsAscii c) → Emits [.value (.string s)]
  | int {ds : Str} : (∀ c ∈ ds, IsDigit c) → Emits (symbols ds)
  | float {ds es : Str} : (∀ c ∈ ds, IsDigit c) → (∀ c ∈ es, IsDigit c) → Emits (symbols (ds ++ '.' :: es))

end Lol
