import Verif.Lexer.Float

/-! # Equality of tokens and display of positions: `src/lexer/position.rs`, `src/lexer/range.rs`, `src/lexer/token.rs` -/

namespace Lol

/-- `impl PartialEq for Range`, `src/lexer/range.rs:26-30`. -/
def Range.eq (a b : Range) : Bool := Position.eq a.start b.start && Position.eq a.stop b.stop

/-- Derived `PartialEq` of `NumberToken`, `src/lexer/token.rs:7-13`. -/
def NumberToken.eq : NumberToken → NumberToken → Bool
  | .int a, .int b => a == b
  | .float a, .float b => F32.eq a b
  | _, _ => false

/-- Derived `PartialEq` of `TokenValue`, `src/lexer/token.rs:16-26`. -/
def TokenValue.eq : TokenValue → TokenValue → Bool
  | .number a, .number b => NumberToken.eq a b
  | .string a, .string b => a == b
  | .boolean a, .boolean b => a == b
  | .noob, .noob => true
  | _, _ => false

/-- Derived `PartialEq` of `TokenType`, `src/lexer/token.rs:29-55`. -/
def TokenType.eq : TokenType → TokenType → Bool
  | .identifier a, .identifier b => a == b
  | .keyword a, .keyword b => a == b
  | .symbol a, .symbol b => a == b
  | .value a, .value b => TokenValue.eq a b
  | .commentSingleLine a, .commentSingleLine b => a == b
  | .commentMultiLine a, .commentMultiLine b => a == b
  | .bukkitSlotAccess, .bukkitSlotAccess => true
  | .ellipsis, .ellipsis => true
  | .comma, .comma => true
  | .exclamationMark, .exclamationMark => true
  | .questionMark, .questionMark => true
  | _, _ => false

/-- Derived `PartialEq` of `TokenError`, `src/lexer/token.rs:58-62`. -/
def TokenError.eq : TokenError → TokenError → Bool
  | .unclosedMultilineComment a, .unclosedMultilineComment b => Range.eq a b

/-- Derived `PartialEq` of `Token`, `src/lexer/token.rs:65-71`. -/
def Token.eq (a b : Token) : Bool :=
  TokenType.eq a.tokenType b.tokenType && Range.eq a.range b.range

/-- `Display` of an `i32`, used in `src/lexer/position.rs:23` and `src/lexer/position.rs:74`: decimal digits, after a
minus sign for a negative number. -/
def displayInt (n : Int) : Str := if n < 0 then '-' :: Nat.toDigits 10 n.natAbs else Nat.toDigits 10 n.natAbs

/-- `impl Display for Position`, `src/lexer/position.rs:21-25`. -/
def Position.display (p : Position) : Str :=
  chars!"(L" ++ displayInt p.line ++ chars!", C" ++ displayInt p.column ++ chars!")"

/-- `impl Debug for Position`, `src/lexer/position.rs:72-76`. -/
def Position.debug (p : Position) : Str :=
  chars!"(" ++ displayInt p.line ++ chars!", " ++ displayInt p.column ++ chars!")"

/-- `impl Debug for Range`, `src/lexer/range.rs:20-24` (`writeln!` adds a newline). -/
def Range.debug (r : Range) : Str := r.start.debug ++ chars!" -> " ++ r.stop.debug ++ chars!"\n"

/-- `impl Debug for Token`, `src/lexer/token.rs:73-77` (`writeln!` adds a newline). Simplified: the derived `Debug` of
`TokenType` (`src/lexer/token.rs:29`) is a parameter. -/
def Token.debug (type : TokenType → Str) (t : Token) : Str := t.range.debug ++ type t.tokenType ++ chars!"\n"

end Lol
