import Verif.Spec.Float
/-!
# The arithmetic of the machine and the constants of `RawFloat`

Floats are their bit patterns. The operations of the hardware which the fast path uses
(`crates/musli/src/dec2flt/number.rs:53-87`) are modelled by what IEEE 754 demands of
them: the exact result, rounded to nearest with ties to even. `set_precision`
(`fpu.rs`) changes the control word of the x87 unit and does nothing elsewhere; it is
left out.
-/
namespace Musli.Dec2Flt
open Musli.Spec.Float (Format)

/-- Division of integers, rounded to nearest with ties to even. -/
def divRound (a b : Nat) : Nat :=
  let q := a / b
  let r := a % b
  if 2 * r < b then q else if b < 2 * r then q + 1 else q + q % 2

/-- The bit pattern of a non-negative number, rounded. -/
def roundRat (F : Format) (n d : Nat) : Nat :=
  let N := n * 2 ^ (-F.tiny).toNat
  let j := Nat.log2 (N / d) - F.mant
  min (j * 2 ^ F.mant + divRound N (d * 2 ^ j)) F.inf

/-- The result of an operation of the hardware whose exact result is `x`. -/
def ieee (F : Format) (x : ℚ) : Nat := roundRat F x.num.toNat x.den

/-- `RawFloat`, `crates/musli/src/dec2flt/float.rs:14-101`: the constants. -/
structure RawFloat where
  fmt : Format
  /-- `MANTISSA_EXPLICIT_BITS` -/
  mantBits : Nat
  /-- `MIN_EXPONENT_ROUND_TO_EVEN` -/
  minRoundEven : Int
  /-- `MAX_EXPONENT_ROUND_TO_EVEN` -/
  maxRoundEven : Int
  /-- `MIN_EXPONENT_FAST_PATH` -/
  minFast : Int
  /-- `MAX_EXPONENT_FAST_PATH` -/
  maxFast : Int
  /-- `MAX_EXPONENT_DISGUISED_FAST_PATH` -/
  maxDisguised : Int
  /-- `MINIMUM_EXPONENT` -/
  minExp : Int
  /-- `INFINITE_POWER` -/
  infPower : Int
  /-- `SMALLEST_POWER_OF_TEN` -/
  smallest10 : Int
  /-- `LARGEST_POWER_OF_TEN` -/
  largest10 : Int
  /-- the length of the table in `pow10_fast_path`, and how many of its entries are
  powers of ten: the others are zero -/
  tableLen : Nat
  tablePows : Nat

/-- `impl RawFloat for f32`, `float.rs:103-157`. -/
def rawF32 : RawFloat where
  fmt := Musli.Spec.Float.f32
  mantBits := 23
  minRoundEven := -17
  maxRoundEven := 10
  minFast := -10
  maxFast := 10
  maxDisguised := 17
  minExp := -127
  infPower := 0xFF
  smallest10 := -65
  largest10 := 38
  tableLen := 16
  tablePows := 11

/-- `impl RawFloat for f64`, `float.rs:159-213`. -/
def rawF64 : RawFloat where
  fmt := Musli.Spec.Float.f64
  mantBits := 52
  minRoundEven := -4
  maxRoundEven := 23
  minFast := -22
  maxFast := 22
  maxDisguised := 37
  minExp := -1023
  infPower := 0x7FF
  smallest10 := -342
  largest10 := 308
  tableLen := 32
  tablePows := 23

namespace RawFloat
variable (R : RawFloat)

/-- `MAX_MANTISSA_FAST_PATH`, `float.rs:78`. -/
def maxMantissaFast : Nat := 2 <<< R.mantBits

/-- `RawFloat::from_u64`, `float.rs:119-122, 175-178`: `v as _`. -/
def fromU64 (v : Nat) : Nat := ieee R.fmt v

/-- `RawFloat::pow10_fast_path`, `float.rs:129-135, 185-191`. The literals `1e0`, `1e1`,
... are rounded by the compiler. -/
def pow10FastPath (e : Nat) : Nat :=
  let i := e % R.tableLen
  if i < R.tablePows then ieee R.fmt ((10 ^ i : Nat) : ℚ) else 0

/-- `Mul for f32`, `f64`. -/
def mul (a b : Nat) : Nat := ieee R.fmt (R.fmt.value a * R.fmt.value b)

/-- `Div for f32`, `f64`. -/
def div (a b : Nat) : Nat := ieee R.fmt (R.fmt.value a / R.fmt.value b)

/-- `Neg for f32`, `f64`: flips the sign bit. -/
def neg (a : Nat) : Nat := a ^^^ R.fmt.sign

end RawFloat
end Musli.Dec2Flt
