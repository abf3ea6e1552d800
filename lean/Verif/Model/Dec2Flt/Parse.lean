import Verif.Model.Dec2Flt.Common
/-!
# Parsing the digits of a float

`crates/musli/src/dec2flt/parse.rs`. The outer `Option` of the functions is a panic,
the inner one the result of the function in the code.
-/
namespace Musli.Dec2Flt

/-- `Number`, `number.rs:27-32`. -/
structure Number where
  exponent : Int
  mantissa : Nat
  negative : Bool
  manyDigits : Bool
  deriving DecidableEq, Repr

/-- `MIN_19DIGIT_INT`, `parse.rs:7`. -/
def min19DigitInt : Nat := 1000000000000000000

/-- `parse_8digits`, `parse.rs:17-26`. -/
def parse8digits (v : Nat) : Option Nat := do
  if v < 0x3030303030303030 then none
  let v := v - 0x3030303030303030
  let v10 ← u64 (v * 10)
  let v ← u64 (v10 + v >>> 8)
  let v1 := ((v &&& 0x000000FF000000FF) * 0x000F424000000064) % 2 ^ 64
  let v2 := (((v >>> 16) &&& 0x000000FF000000FF) * 0x0000271000000001) % 2 ^ 64
  some ((((v1 + v2) % 2 ^ 64) >>> 32) % 2 ^ 32)

/-- The loop over blocks of eight digits in `try_parse_digits`, `parse.rs:32-40`. -/
def blocks : Bytes → Nat → Option (Bytes × Nat)
  | c0 :: c1 :: c2 :: c3 :: c4 :: c5 :: c6 :: c7 :: s, x =>
    let num := le [c0, c1, c2, c3, c4, c5, c6, c7]
    if is8digits num then do
      let p ← parse8digits num
      blocks s ((x * 100000000 % 2 ^ 64 + p) % 2 ^ 64)
    else some (c0 :: c1 :: c2 :: c3 :: c4 :: c5 :: c6 :: c7 :: s, x)
  | s, x => some (s, x)

/-- `try_parse_digits`, `parse.rs:29-47`. -/
def tryParseDigits (s : Bytes) (x : Nat) : Option (Bytes × Nat) := do
  let (s, x) ← blocks s x
  some (parseDigits (fun x d => (x * 10 % 2 ^ 64 + d) % 2 ^ 64) s x)

/-- `try_parse_19digits`, `parse.rs:50-71`. -/
def tryParse19digits : Bytes → Nat → Option (Bytes × Nat)
  | [], x => some ([], x)
  | c :: s, x =>
    if x < min19DigitInt then
      if digitOf c < 10 then do
        let x ← u64 (x * 10 + digitOf c)
        tryParse19digits s x
      else some (c :: s, x)
    else some (c :: s, x)

/-- `parse_scientific`, `parse.rs:74-103`: the exponent and what is left. -/
def parseScientific (s : Bytes) : Option (Int × Bytes) :=
  let negative : Bool := match s with
    | c :: _ => c == 0x2D#8
    | [] => false
  let s := match s with
    | c :: t => if c == 0x2D#8 || c == 0x2B#8 then t else c :: t
    | [] => []
  match s with
  | c :: _ =>
    if digitOf c < 10 then
      let r := parseDigits (fun (e : Int) d => if e < 0x10000 then 10 * e + d else e) s 0
      some (if negative then -r.2 else r.2, r.1)
    else none
  | [] => none

/-- The loop over leading zeros and the dot, `parse.rs:168-175`. -/
def leadingZeros : Bytes → Int → Int
  | [], n => n
  | c :: s, n =>
    if c == 0x2E#8 || c == 0x30#8 then leadingZeros s (n - (c.toNat - (0x30 - 1) : Nat)) else n

/-- The dot and the digits after it, `parse.rs:121-134`: what is left, the mantissa, the
number of digits after the dot. -/
def afterDot (s : Bytes) (m : Nat) : Option (Bytes × Nat × Nat) :=
  match s with
  | c :: t =>
    if c == 0x2E#8 then do
      let (s, m) ← tryParseDigits t m
      some (s, m, t.length - s.length)
    else some (c :: t, m, 0)
  | [] => some ([], m, 0)

/-- The scientific part, `parse.rs:142-151`: `some none` if the whole is rejected. -/
def scientific (s : Bytes) : Option (Bytes × Int) :=
  match s with
  | c :: t =>
    if c == 0x65#8 || c == 0x45#8 then
      (parseScientific t).map fun r => (r.2, r.1)
    else some (c :: t, 0)
  | [] => some ([], 0)

/-- The case of many digits, `parse.rs:176-193`: the mantissa and the exponent. -/
def many (start intEnd : Bytes) (expNumber : Int) : Option (Nat × Int) := do
  let (s, m) ← tryParse19digits start 0
  let (m, e) ←
    if m ≥ min19DigitInt then some (m, (s.length : Int) - intEnd.length)
    else match s with
      | [] => none
      | _ :: before => do
        let (s, m) ← tryParse19digits before m
        some (m, -((before.length : Int) - s.length))
  some (m, e + expNumber)

/-- `parse_partial_number`, `parse.rs:109-205`: the number and its length. -/
def parsePartialNumber (start : Bytes) : Option (Option (Number × Nat)) := do
  let (intEnd, m) ← tryParseDigits start 0
  let nInt := start.length - intEnd.length
  let (s, m, nAfterDot) ← afterDot intEnd m
  let nDigits := nInt + nAfterDot
  if nDigits = 0 then some none else
  match scientific s with
  | none => some none
  | some (s, expNumber) =>
    let exponent : Int := -(nAfterDot : Int) + expNumber
    let len := start.length - s.length
    if nDigits ≤ 19 then some (some (⟨exponent, m, false, false⟩, len)) else
    if leadingZeros start (nDigits - 19 : Nat) > 0 then do
      let (m, e) ← many start intEnd expNumber
      some (some (⟨e, m, false, true⟩, len))
    else some (some (⟨exponent, m, false, false⟩, len))

/-- The three results of `parse_inf_nan`. -/
inductive Special where
  | inf
  | nan
  deriving DecidableEq, Repr

/-- `parse_inf_nan`, `parse.rs:208-255`, without the sign. -/
def parseInfNan (s : Bytes) : Option (Special × Nat) :=
  let go (register len : Nat) : Option (Special × Nat) :=
    let register := register &&& 0xDFDFDFDFDFDFDFDF
    if register = 0x464E49 ∧ len = 3 then some (.inf, len)
    else if register = 0x5954494E49464E49 ∧ len = 8 then some (.inf, len)
    else if register = 0x4E414E ∧ len = 3 then some (.nan, len)
    else none
  if s.length = 8 then go (le s) 8
  else match s with
    | [a, b, c] => go (c.toNat <<< 16 ||| b.toNat <<< 8 ||| a.toNat) 3
    | _ => none

end Musli.Dec2Flt
