import Verif.Model.Dec2Flt.Common
import Verif.Model.Dec2Flt.Float
import Verif.Model.Dec2Flt.Table
/-!
# The algorithm of Eisel and Lemire

`crates/musli/src/dec2flt/lemire.rs`.
-/
namespace Musli.Dec2Flt

/-- `power`, `lemire.rs:125-128`; the product does not wrap for the exponents in
question. -/
def power (q : Int) : Int := q * (152170 + 65536) / 65536 + 63

/-- `full_multiplication`, `lemire.rs:130-134`: the low and the high half. -/
def fullMultiplication (a b : Nat) : Nat × Nat := (a * b % 2 ^ 64, a * b / 2 ^ 64)

/-- `compute_product_approx`, `lemire.rs:139-172`: `(lo, hi)`. `none` is a panic: an
index out of bounds, or an overflow of `first_hi`. -/
def computeProductApprox (q : Int) (w : Nat) (precision : Nat) : Option (Nat × Nat) := do
  let mask := if precision < 64 then 0xFFFFFFFFFFFFFFFF >>> precision else 0xFFFFFFFFFFFFFFFF
  let index := (q - smallestPowerOfFive).toNat
  let (lo5, hi5) ← powerOfFive128[index]?
  let (firstLo, firstHi) := fullMultiplication w lo5
  if firstHi &&& mask = mask then do
    let (_, secondHi) := fullMultiplication w hi5
    let firstLo := (firstLo + secondHi) % 2 ^ 64
    if secondHi > firstLo then do
      let firstHi ← u64 (firstHi + 1)
      some (firstLo, firstHi)
    else some (firstLo, firstHi)
  else some (firstLo, firstHi)

/-- `compute_float`, `lemire.rs:25-119`. A negative exponent in the result says that the
algorithm could not decide. -/
def computeFloat (R : RawFloat) (q : Int) (w : Nat) : Option BiasedFp :=
  let fpZero := zeroPow2 0
  let fpInf := zeroPow2 R.infPower
  let fpError := zeroPow2 (-1)
  if w = 0 ∨ q < R.smallest10 then some fpZero
  else if q > R.largest10 then some fpInf
  else do
    let lz := 63 - Nat.log2 w
    let w := (w <<< lz) % 2 ^ 64
    let (lo, hi) ← computeProductApprox q w (R.mantBits + 3)
    if lo = 0xFFFFFFFFFFFFFFFF ∧ ¬ (q ≥ -27 ∧ q ≤ 55) then some fpError else
    let upperbit := hi >>> 63
    let shift := upperbit + 64 - R.mantBits - 3
    let mantissa := hi >>> shift
    let power2 := power q + upperbit - lz - R.minExp
    if power2 ≤ 0 then
      if -power2 + 1 ≥ 64 then some fpZero else
      let mantissa := mantissa >>> (-power2 + 1).toNat
      let mantissa := mantissa + (mantissa &&& 1)
      let mantissa := mantissa >>> 1
      some ⟨mantissa, if mantissa ≥ 1 <<< R.mantBits then 1 else 0⟩
    else
      let mantissa :=
        if lo ≤ 1 ∧ q ≥ R.minRoundEven ∧ q ≤ R.maxRoundEven ∧ mantissa &&& 3 = 1 ∧
            (mantissa <<< shift) % 2 ^ 64 = hi then
          mantissa - (mantissa &&& 1)
        else mantissa
      let mantissa := mantissa + (mantissa &&& 1)
      let mantissa := mantissa >>> 1
      let (mantissa, power2) :=
        if mantissa ≥ 2 <<< R.mantBits then (1 <<< R.mantBits, power2 + 1) else (mantissa, power2)
      let mantissa := mantissa &&& (0xFFFFFFFFFFFFFFFF - 1 <<< R.mantBits)
      if power2 ≥ R.infPower then some fpInf else
      some ⟨mantissa, power2⟩

end Musli.Dec2Flt
