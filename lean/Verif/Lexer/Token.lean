import Verif.Lexer.Keywords

/-! # `src/lexer/position.rs`, `src/lexer/range.rs`, `src/lexer/token.rs` -/

namespace Lol

/-- `src/lexer/position.rs:10-19`. The fields are `i32` in Rust; here they are unbounded integers
(`Props/LexerPositions.lean` proves that they fit in an `i32` for sources below 2^31 - 1 bytes). -/
structure Position where
  line : Int
  column : Int
  bytes : Int
  chars : Int
  deriving DecidableEq, Repr

/-- `impl PartialEq for Position`, `src/lexer/position.rs:27-31`: only line and column count. -/
def Position.eq (a b : Position) : Bool := a.line == b.line && a.column == b.column

/-- `impl PartialOrd for Position`, `src/lexer/position.rs:35-39`: only bytes count. -/
def Position.cmp (a b : Position) : Ordering := compare a.bytes b.bytes

/-- `impl Add<&str> for Position`, `src/lexer/position.rs:41-51`. The line is kept, the column
advances by *bytes*. -/
def Position.add (p : Position) (s : Str) : Position :=
  { line := p.line
    column := p.column + utf8Len s
    chars := p.chars + s.length
    bytes := p.bytes + utf8Len s }

/-- `impl AddAssign<&str> for Position`, `src/lexer/position.rs:53-59`. -/
def Position.addAssign (p : Position) (s : Str) : Position :=
  { p with
    column := p.column + utf8Len s
    chars := p.chars + s.length
    bytes := p.bytes + utf8Len s }

/-- `impl Default for Position`, `src/lexer/position.rs:61-70`. -/
def Position.default : Position := { line := 1, column := 1, chars := 0, bytes := 0 }

/-- `src/lexer/range.rs:5-6`: `Range(start, end)`. -/
structure Range where
  start : Position
  stop : Position
  deriving DecidableEq, Repr

/-- `src/lexer/range.rs:33-35`. -/
def Range.startLine (r : Range) : Int := r.start.line

/-- An `f32` (`src/lexer/token.rs:12`): the sign bit and the other 31 bits as a number. -/
structure F32 where
  neg : Bool
  bits : Nat
  deriving DecidableEq, Repr

/-- `src/lexer/token.rs:8-13` -/
inductive NumberToken where
  | int (n : Int)
  | float (x : F32)
  deriving DecidableEq, Repr

/-- `src/lexer/token.rs:17-26` -/
inductive TokenValue where
  | number (n : NumberToken)
  | string (s : Str)
  | boolean (b : Bool)
  | noob
  deriving DecidableEq, Repr

/-- `src/lexer/token.rs:30-55` -/
inductive TokenType where
  | identifier (name : Str)
  | keyword (k : Keyword)
  | symbol (s : Str)
  | value (v : TokenValue)
  | commentSingleLine (s : Str)
  | commentMultiLine (s : Str)
  | bukkitSlotAccess
  | ellipsis
  | comma
  | exclamationMark
  | questionMark
  deriving DecidableEq, Repr

/-- `src/lexer/token.rs:59-62` -/
inductive TokenError where
  | unclosedMultilineComment (r : Range)
  deriving DecidableEq, Repr

/-- `src/lexer/token.rs:66-71` -/
structure Token where
  tokenType : TokenType
  range : Range
  deriving DecidableEq, Repr

end Lol
