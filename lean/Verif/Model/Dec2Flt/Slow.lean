import Verif.Model.Dec2Flt.Decimal
import Verif.Model.Dec2Flt.Float
/-!
# The slow path

`crates/musli/src/dec2flt/slow.rs`. The loops have fuel; running out of it is `none`,
like a panic, and is proved not to happen.
-/
namespace Musli.Dec2Flt

/-- `POWERS`, `slow.rs:29-31`. -/
def shiftPowers : List Nat := [0, 3, 6, 9, 13, 16, 19, 23, 26, 29, 33, 36, 39, 43, 46, 49, 53, 56, 59]

/-- `get_shift`, `slow.rs:33-39`. -/
def getShift (n : Nat) : Nat := if n < 19 then shiftPowers[n]! else 60

/-- The loop that shifts right, `slow.rs:54-62`: `some none` is the early return of
zero. -/
def shiftRightLoop : Nat → Decimal → Int → Option (Option (Decimal × Int))
  | fuel, d, exp2 =>
    if d.dp > 0 then
      match fuel with
      | 0 => none
      | fuel + 1 => do
        let shift := getShift d.dp.toNat
        let d ← d.rightShift shift
        if d.dp < -decimalPointRange then some none
        else shiftRightLoop fuel d (exp2 + shift)
    else some (some (d, exp2))

/-- The loop that shifts left, `slow.rs:64-79`: `some none` is the early return of
infinity. -/
def shiftLeftLoop : Nat → Decimal → Int → Option (Option (Decimal × Int))
  | fuel, d, exp2 =>
    if d.dp ≤ 0 then
      if d.dp = 0 ∧ d.digits.headD 0 ≥ 5 then some (some (d, exp2)) else
      match fuel with
      | 0 => none
      | fuel + 1 => do
        let shift :=
          if d.dp = 0 then (if d.digits.headD 0 ≤ 1 then 2 else 1)
          else getShift (-d.dp).toNat
        let d ← d.leftShift shift
        if d.dp > decimalPointRange then some none
        else shiftLeftLoop fuel d (exp2 - shift)
    else some (some (d, exp2))

/-- The loop for subnormal numbers, `slow.rs:82-89`. -/
def subnormalLoop (minExp : Int) : Nat → Decimal → Int → Option (Decimal × Int)
  | fuel, d, exp2 =>
    if minExp + 1 > exp2 then
      match fuel with
      | 0 => none
      | fuel + 1 => do
        let n := (minExp + 1 - exp2).toNat
        let n := if n > 60 then 60 else n
        let d ← d.rightShift n
        subnormalLoop minExp fuel d (exp2 + n)
    else some (d, exp2)

/-- The rounding at the end of `parse_long_mantissa`, `slow.rs:90-117`. -/
def slowRound (R : RawFloat) (d : Decimal) (exp2 : Int) : Option BiasedFp := do
  let finish (mantissa : Nat) (exp2 : Int) : BiasedFp :=
    let power2 := exp2 - R.minExp
    let power2 := if mantissa < 1 <<< R.mantBits then power2 - 1 else power2
    ⟨mantissa &&& (1 <<< R.mantBits - 1), power2⟩
  if exp2 - R.minExp ≥ R.infPower then some (zeroPow2 R.infPower) else
  let d ← d.leftShift (R.mantBits + 1)
  let mantissa ← d.round
  if mantissa ≥ 1 <<< (R.mantBits + 1) then
    let d ← d.rightShift 1
    let exp2 := exp2 + 1
    let mantissa ← d.round
    if exp2 - R.minExp ≥ R.infPower then some (zeroPow2 R.infPower)
    else some (finish mantissa exp2)
  else some (finish mantissa exp2)

/-- `parse_long_mantissa` after the digits have been read, `slow.rs:46-117`. -/
def slowDecimal (R : RawFloat) (d : Decimal) : Option BiasedFp := do
  if d.num = 0 ∨ d.dp < -324 then some (zeroPow2 0)
  else if d.dp ≥ 310 then some (zeroPow2 R.infPower)
  else
    match ← shiftRightLoop 2000 d 0 with
    | none => some (zeroPow2 0)
    | some (d, exp2) =>
      match ← shiftLeftLoop 2000 d exp2 with
      | none => some (zeroPow2 R.infPower)
      | some (d, exp2) => do
        let (d, exp2) ← subnormalLoop R.minExp 2000 d (exp2 - 1)
        slowRound R d exp2

/-- `parse_long_mantissa`, `slow.rs:26-117`. -/
def parseLongMantissa (R : RawFloat) (s : Bytes) : Option BiasedFp := do
  let d ← parseDecimal s
  slowDecimal R d

end Musli.Dec2Flt
