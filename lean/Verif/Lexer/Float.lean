import Verif.Lexer.Token

/-! # `f32`: the part of the standard library that is used by `src/lexer/mod.rs:33` and `src/lexer/token.rs:7` -/

namespace Lol

/-- `n / d` rounded to an integer, halves to the even one (the rounding of `str::parse::<f32>()`, `src/lexer/mod.rs:33`). -/
def roundHalfEven (n d : Nat) : Nat :=
  let q := n / d
  let r := n % d
  if 2 * r < d then q else if d < 2 * r then q + 1 else if q % 2 = 0 then q else q + 1

/-- The bits without sign of the `f32` that `str::parse::<f32>()` (`src/lexer/mod.rs:33`) gives for the number `n / d`.
The multiples of 2^-149 below 2^-125 are `f32` numbers, with their factor as bits. From there on the numbers from
2^(e-126) to 2^(e-125) that are `f32` numbers are multiples of 2^(e-149). A result too large is replaced by infinity.
(The function of the standard library is documented to give the nearest `f32`; this is not its algorithm.) -/
def nearestBits (n d : Nat) : Nat :=
  let e := Nat.log2 (n * 2 ^ 149 / d) - 23
  min (255 * 2 ^ 23) (e * 2 ^ 23 + roundHalfEven (n * 2 ^ 149) (d * 2 ^ e))

/-- NaN has all bits of the exponent set and some other bit (`f32`, `src/lexer/token.rs:12`). -/
def F32.isNaN (x : F32) : Bool := decide (255 * 2 ^ 23 < x.bits)

/-- `PartialEq` of `f32`, used by the derived `PartialEq` at `src/lexer/token.rs:7`: NaN is not equal to anything, the two
zeros are equal. -/
def F32.eq (a b : F32) : Bool := !a.isNaN && !b.isNaN && (a == b || a.bits == 0 && b.bits == 0)

end Lol
