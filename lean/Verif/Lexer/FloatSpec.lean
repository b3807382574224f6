import Verif.Lexer.Token

/-!
# Numbers of type `f32` (specification)

The numbers without sign, by their bits, and the nearest of them to a fraction.
-/

namespace Lol

/-- The bits of infinity. Larger bits stand for NaN. -/
def infBits : Nat := 255 * 2 ^ 23

/-- The finite `f32` with these bits, as a multiple of 2^-149: 23 bits of significand and the exponent above them. With
exponent 0 the significand is taken as it is, otherwise it has another leading bit. -/
def f32Units (bits : Nat) : Nat :=
  if bits / 2 ^ 23 = 0 then bits else (2 ^ 23 + bits % 2 ^ 23) * 2 ^ (bits / 2 ^ 23 - 1)

/-- The distance between `n / d` and the finite `f32` with these bits, as a multiple of `2^-149 / d`. -/
def f32Distance (n d bits : Nat) : Nat := ((n * 2 ^ 149 : Nat) - (f32Units bits * d : Nat) : Int).natAbs

/-- `bits` is the `f32` for the fraction `n / d`: infinity from the middle between the largest finite `f32` and 2^128 on,
otherwise the nearest `f32`, and the one with an even significand if two are equally near. -/
def Nearest (n d bits : Nat) : Prop :=
  if (2 ^ 128 - 2 ^ 103) * d ≤ n then bits = infBits
  else bits < infBits ∧ ∀ y < infBits, f32Distance n d bits ≤ f32Distance n d y ∧
    (f32Distance n d bits = f32Distance n d y → y = bits ∨ bits % 2 = 0)

/-- The number of a finite `f32` as a multiple of 2^-149, with 2^128 for infinity. -/
def F32.number (x : F32) : Int := if x.neg then -(f32Units x.bits : Int) else f32Units x.bits

end Lol
