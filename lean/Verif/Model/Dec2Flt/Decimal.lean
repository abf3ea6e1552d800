import Verif.Model.Dec2Flt.Common
import Verif.Model.Dec2Flt.ShiftTable
/-!
# Decimals of arbitrary precision

`crates/musli/src/dec2flt/decimal.rs`. The buffer of 768 bytes is a list: the digits
which have been written, of which the first `num` are in use. What is left in the
buffer behind `num` is never read before it has been overwritten, so the model drops it
where the code forgets it (`trim`, `right_shift`, the end of `parse_decimal`).
`none` is a panic, or a loop that does not end.
-/
namespace Musli.Dec2Flt

/-- `Decimal::MAX_DIGITS`, `decimal.rs:63`. -/
def maxDigits : Nat := 768
/-- `Decimal::DECIMAL_POINT_RANGE`, `decimal.rs:66`. -/
def decimalPointRange : Int := 2047

/-- `Decimal`, `decimal.rs:15-24`. -/
structure Decimal where
  num : Nat
  dp : Int
  truncated : Bool
  digits : List Nat
  deriving DecidableEq, Repr

namespace Decimal

/-- `Decimal::default`, `decimal.rs:25-34`. -/
def default : Decimal := ⟨0, 0, false, []⟩

/-- `Decimal::try_add_digit`, `decimal.rs:69-74`. -/
def tryAddDigit (d : Decimal) (digit : Nat) : Decimal :=
  { d with
    num := d.num + 1
    digits := if d.num < maxDigits then d.digits ++ [digit] else d.digits }

/-- Remove zeros from the end of a list of digits given in reverse. -/
def dropZeros : List Nat → List Nat
  | 0 :: ds => dropZeros ds
  | ds => ds

/-- `Decimal::trim`, `decimal.rs:77-89`. -/
def trim (d : Decimal) : Decimal :=
  let ds := (dropZeros (d.digits.take d.num).reverse).reverse
  { d with num := ds.length, digits := ds }

/-- The loop of `Decimal::round` over the digits before the point, `decimal.rs:98-104`. -/
def intPart (digits : List Nat) : Nat → Nat → Option Nat
  | 0, n => some n
  | k + 1, n => do
    let n ← u64 (n * 10)
    match digits with
    | d :: ds => do
      let n ← u64 (n + d)
      intPart ds k n
    | [] => intPart [] k n

/-- `Decimal::round`, `decimal.rs:91-116`. -/
def round (d : Decimal) : Option Nat := do
  if d.num = 0 ∨ d.dp < 0 then some 0
  else if d.dp > 18 then some 0xFFFFFFFFFFFFFFFF
  else do
    let dp := d.dp.toNat
    let n ← intPart (d.digits.take d.num) dp 0
    let roundUp : Bool :=
      if dp < d.num then
        if d.digits[dp]! = 5 ∧ dp + 1 = d.num then
          d.truncated || (dp != 0 && (d.digits[dp - 1]! &&& 1) != 0)
        else d.digits[dp]! ≥ 5
      else false
    if roundUp then u64 (n + 1) else some n

/-- The comparison with a power of five in `number_of_digits_decimal_left_shift`,
`decimal.rs:351-363`. The arguments are the digits in use and those of the power. -/
def compareDigits (numNew : Nat) : List Nat → List Nat → Nat
  | _, [] => numNew
  | [], _ :: _ => numNew - 1
  | d :: ds, p :: ps =>
    if d = p then compareDigits numNew ds ps
    else if d < p then numNew - 1
    else numNew

/-- `number_of_digits_decimal_left_shift`, `decimal.rs:286-363`. -/
def numNewDigits (digits : List Nat) (shift : Nat) : Nat :=
  let shift := shift % 64
  let xa := shiftTable[shift]!
  let xb := shiftTable[shift + 1]!
  let numNew := xa >>> 11
  let a := 0x7FF &&& xa
  let b := 0x7FF &&& xb
  compareDigits numNew digits ((pow5Table.drop a).take (b - a))

/-- One digit of the loops of `Decimal::left_shift`, `decimal.rs:126-150`: the index
that is written to, the digits behind it, and whether something was cut off. -/
def put (write : Nat) (n : Nat) (out : List Nat) (truncated : Bool) :
    Option (Nat × List Nat × Bool) :=
  match write with
  | 0 => none
  | write + 1 =>
    let remainder := n - 10 * (n / 10)
    if write < maxDigits then some (write, remainder :: out, truncated)
    else some (write, out, truncated || decide (remainder > 0))

/-- The first loop of `Decimal::left_shift`, `decimal.rs:126-139`, over the digits in
reverse. -/
def leftLoop (shift : Nat) : List Nat → Nat → Nat → List Nat → Bool →
    Option (Nat × Nat × List Nat × Bool)
  | [], n, write, out, t => some (n, write, out, t)
  | d :: ds, n, write, out, t => do
    let n ← u64 (n + (d <<< shift) % 2 ^ 64)
    let (write, out, t) ← put write n out t
    leftLoop shift ds (n / 10) write out t

/-- The second loop of `Decimal::left_shift`, `decimal.rs:140-150`. A `u64` has at most
20 digits. -/
def carryLoop : Nat → Nat → Nat → List Nat → Bool → Option (Nat × List Nat × Bool)
  | fuel, n, write, out, t =>
    if n > 0 then
      match fuel with
      | 0 => none
      | fuel + 1 => do
        let (write, out, t) ← put write n out t
        carryLoop fuel (n / 10) write out t
    else some (write, out, t)

/-- `Decimal::left_shift`, `decimal.rs:119-157`. The digits in front of the last one
written keep their values. -/
def leftShift (d : Decimal) (shift : Nat) : Option Decimal :=
  if d.num = 0 then some d
  else do
    let digits := d.digits.take d.num
    let numNew := numNewDigits digits shift
    let (n, write, out, t) ← leftLoop shift digits.reverse 0 (d.num + numNew) [] d.truncated
    let (write, out, t) ← carryLoop 20 n write out t
    let num := min (d.num + numNew) maxDigits
    some (trim ⟨num, d.dp + numNew, t, digits.take write ++ out⟩)

/-- The first loop of `Decimal::right_shift`, `decimal.rs:164-177`: `n`, the digits
which have not been read, how many have been read (beyond the end, too). `some none`
is the early return. -/
def rightStart (shift : Nat) : List Nat → Nat → Nat → Option (Option (Nat × List Nat × Nat))
  | d :: ds, n, read =>
    if n >>> shift = 0 then do
      let n ← u64 (10 * n)
      let n ← u64 (n + d)
      rightStart shift ds n (read + 1)
    else some (some (n, d :: ds, read))
  | [], n, read =>
    if n >>> shift = 0 then
      if n = 0 then some none else pad shift 64 n read
    else some (some (n, [], read))
where
  /-- The loop which appends zeros, `decimal.rs:171-174`. -/
  pad (shift : Nat) : Nat → Nat → Nat → Option (Option (Nat × List Nat × Nat))
  | fuel, n, read =>
    if n >>> shift = 0 then
      match fuel with
      | 0 => none
      | fuel + 1 => do
        let n ← u64 (n * 10)
        pad shift fuel n (read + 1)
    else some (some (n, [], read))

/-- The second loop of `Decimal::right_shift`, `decimal.rs:187-193`: `n` and the digits
written. -/
def rightLoop (shift : Nat) : List Nat → Nat → List Nat → Option (Nat × List Nat)
  | [], n, out => some (n, out)
  | d :: ds, n, out => do
    let newDigit := (n >>> shift) % 256
    let n ← u64 (10 * (n &&& (1 <<< shift - 1)) + d)
    rightLoop shift ds n (out ++ [newDigit])

/-- The third loop of `Decimal::right_shift`, `decimal.rs:193-202`. -/
def rightEnd (shift : Nat) : Nat → Nat → List Nat → Bool → Option (List Nat × Bool)
  | fuel, n, out, t =>
    if n > 0 then
      match fuel with
      | 0 => none
      | fuel + 1 => do
        let newDigit := (n >>> shift) % 256
        let n ← u64 (10 * (n &&& (1 <<< shift - 1)))
        if out.length < maxDigits then rightEnd shift fuel n (out ++ [newDigit]) t
        else rightEnd shift fuel n out (t || decide (newDigit > 0))
    else some (out, t)

/-- `Decimal::right_shift`, `decimal.rs:160-206`. -/
def rightShift (d : Decimal) (shift : Nat) : Option Decimal := do
  match ← rightStart shift (d.digits.take d.num) 0 0 with
  | none => some d
  | some (n, rest, read) =>
    let dp := d.dp - ((read : Int) - 1)
    if dp < -decimalPointRange then some ⟨0, 0, false, []⟩
    else do
      let (n, out) ← rightLoop shift rest n []
      let (out, t) ← rightEnd shift 64 n out d.truncated
      some (trim ⟨out.length, dp, t, out⟩)

end Decimal

/-- Skip zeros: `while let Some((&b'0', s_next)) = s.split_first()`. -/
def skipZeros : Bytes → Bytes
  | c :: s => if c = 0x30#8 then skipZeros s else c :: s
  | [] => []

/-- The loop over blocks of eight digits in `parse_decimal`, `decimal.rs:229-239`:
`d.digits[d.num_digits..].write_u64(v - 0x3030_3030_3030_3030)` writes eight digits. -/
def decimalBlocks : Bytes → Decimal → Option (Bytes × Decimal)
  | c0 :: c1 :: c2 :: c3 :: c4 :: c5 :: c6 :: c7 :: s, d =>
    if d.num + 8 < maxDigits then
      let v := le [c0, c1, c2, c3, c4, c5, c6, c7]
      if is8digits v then
        if v < 0x3030303030303030 then none else
        let x := v - 0x3030303030303030
        decimalBlocks s { d with
          num := d.num + 8
          digits := d.digits ++ [x % 256, x >>> 8 % 256, x >>> 16 % 256, x >>> 24 % 256,
            x >>> 32 % 256, x >>> 40 % 256, x >>> 48 % 256, x >>> 56 % 256] }
      else some (c0 :: c1 :: c2 :: c3 :: c4 :: c5 :: c6 :: c7 :: s, d)
    else some (c0 :: c1 :: c2 :: c3 :: c4 :: c5 :: c6 :: c7 :: s, d)
  | s, d => some (s, d)

/-- The number of zeros at the end of a text given in reverse, the dot not counted:
`decimal.rs:243-250`. -/
def trailingZeros : Bytes → Nat
  | c :: s => if c = 0x30#8 then trailingZeros s + 1 else if c ≠ 0x2E#8 then 0 else trailingZeros s
  | [] => 0

/-- The dot and the digits after it in `parse_decimal`, `decimal.rs:220-240`. The
lengths are converted to `i32` in the code, and their difference is exact as long as
the fraction has less than `2 ^ 31` digits. -/
def decimalFraction (s : Bytes) (d : Decimal) : Option (Bytes × Decimal) :=
  match s with
  | c :: first =>
    if c = 0x2E#8 then do
      let s := if d.num = 0 then skipZeros first else first
      let (s, d) ← decimalBlocks s d
      let (s, d) := parseDigits Decimal.tryAddDigit s d
      some (s, { d with dp := (s.length : Int) - first.length })
    else some (c :: first, d)
  | [] => some ([], d)

/-- The trailing zeros in `parse_decimal`, `decimal.rs:241-258`. -/
def decimalTrim (start s : Bytes) (d : Decimal) : Option Decimal :=
  if d.num ≠ 0 then
    let z := trailingZeros (start.take (start.length - s.length)).reverse
    if d.num < z then none else
    let num := d.num - z
    let dp := d.dp + z + num
    if num > maxDigits then some { d with num := maxDigits, dp := dp, truncated := true }
    else some { d with num := num, dp := dp, digits := d.digits.take num }
  else some d

/-- The exponent in `parse_decimal`, `decimal.rs:259-279`. -/
def decimalExponent (s : Bytes) : Int :=
  match s with
  | c :: s =>
    if c == 0x65#8 || c == 0x45#8 then
      let negative : Bool := match s with
        | c :: _ => c == 0x2D#8
        | [] => false
      let s := match s with
        | c :: t => if c == 0x2D#8 || c == 0x2B#8 then t else c :: t
        | [] => []
      let r := parseDigits (fun (e : Int) d => if e < 0x10000 then 10 * e + d else e) s 0
      if negative then -r.2 else r.2
    else 0
  | [] => 0

/-- `parse_decimal`, `decimal.rs:210-284`. The loop at the end, which clears digits
that are not in use, is left out. -/
def parseDecimal (start : Bytes) : Option Decimal := do
  let s := skipZeros start
  let (s, d) := parseDigits Decimal.tryAddDigit s Decimal.default
  let (s, d) ← decimalFraction s d
  let d ← decimalTrim start s d
  some { d with dp := d.dp + decimalExponent s }

end Musli.Dec2Flt
