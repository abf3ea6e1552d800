import Mathlib.Data.Rat.Floor
import Mathlib.Algebra.Order.Field.Power
/-!
# Binary floating point formats and rounding (IEEE 754)

This file does not refer to the model. It says what a bit pattern of a binary
interchange format means, and when it is the correctly rounded result for an exact
number: round to nearest, ties to even.
-/
namespace Musli.Spec.Float

/-- A binary interchange format (IEEE 754, section 3.4): the number of explicit bits
of the significand and the number of bits of the exponent. -/
structure Format where
  mant : Nat
  expBits : Nat

/-- `binary32`. -/
def f32 : Format := ⟨23, 8⟩
/-- `binary64`. -/
def f64 : Format := ⟨52, 11⟩

namespace Format
variable (F : Format)

/-- The bias of the exponent. -/
def bias : Int := 2 ^ (F.expBits - 1) - 1
/-- The exponent of the smallest positive number: subnormal numbers are the
multiples of `2 ^ tiny`. -/
def tiny : Int := 1 - F.bias - F.mant
/-- The bit pattern of infinity. -/
def inf : Nat := (2 ^ F.expBits - 1) * 2 ^ F.mant
/-- The sign bit. -/
def sign : Nat := 2 ^ (F.expBits + F.mant)
/-- A quiet NaN: `f32::NAN` and `f64::NAN`. -/
def nan : Nat := F.inf + 2 ^ (F.mant - 1)

/-- The number that a bit pattern without sign stands for: `biased` exponent
`b / 2 ^ mant`, trailing significand `b % 2 ^ mant`. For infinity the formula gives
the power of two after the largest finite number, which is its place in the rounding
rule: a number rounds to infinity exactly if it would round to that power of two were
the exponent unbounded (IEEE 754, section 4.3.1). -/
def value (b : Nat) : ℚ :=
  if b / 2 ^ F.mant = 0 then
    (b % 2 ^ F.mant : Nat) * (2 : ℚ) ^ (1 - F.bias - F.mant)
  else
    (2 ^ F.mant + b % 2 ^ F.mant : Nat) * (2 : ℚ) ^ (((b / 2 ^ F.mant : Nat) : Int) - F.bias - F.mant)

/-- `b` is the correctly rounded result for `x`, to nearest with ties to even: no
other pattern is nearer, and if another one is as near, `b` is the even one. -/
def Nearest (x : ℚ) (b : Nat) : Prop :=
  b ≤ F.inf ∧ ∀ c ≤ F.inf, c ≠ b →
    |x - F.value b| < |x - F.value c| ∨ (|x - F.value b| = |x - F.value c| ∧ b % 2 = 0)

end Format
end Musli.Spec.Float
