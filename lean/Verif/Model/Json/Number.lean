import Verif.Model.Json.Parser
/-!
# JSON: integers

`crates/musli/src/json/parser/integer.rs`. Built in release mode, `+` wraps: the
addition in `digit` is modelled as `BitVec` addition. (With overflow checks it
panics instead.)
-/
namespace Musli.Json
open Musli

/-- `is_digit`, `integer.rs:550-552`. -/
def isDigit (b : Byte) : Bool := 0x30#8 ≤ b && b ≤ 0x39#8

/-- `is_digit_nonzero`, `integer.rs:556-558`. -/
def isDigitNonzero (b : Byte) : Bool := 0x31#8 ≤ b && b ≤ 0x39#8

/-- `T::from_byte(b - b'0')`. -/
def fromDigit (w : Nat) (b : Byte) : BitVec w := BitVec.ofNat w (b.toNat - 0x30)

/-- `checked_add`, `integer.rs:698-700`. -/
def checkedAdd {w : Nat} (a b : BitVec w) : Option (BitVec w) :=
  if a.toNat + b.toNat < 2 ^ w then some (a + b) else none

/-- `checked_mul10`, `integer.rs:693-695`. The model takes the product as a natural
number, so that `10` need not fit. -/
def checkedMul10 {w : Nat} (a : BitVec w) : Option (BitVec w) :=
  if a.toNat * 10 < 2 ^ w then some (BitVec.ofNat w (a.toNat * 10)) else none

/-- `digit`: add one digit, `integer.rs:518-529`. -/
def digit {w : Nat} (out : BitVec w) : P (BitVec w) :=
  match checkedMul10 out with
  | none => P.fail .overflow
  | some out => do
    let b ← P.readByte
    pure (out + fromDigit w b)

/-- `while let Some(true) = p.peek().map(is_digit) { base = digit(..)? }`,
`integer.rs:419-421, 500-502`. -/
def digits {w : Nat} (out : BitVec w) : P (BitVec w)
  | [] => .ok (out, [])
  | b :: s =>
    if isDigit b then
      match digit out (b :: s) with
      | .ok (out, _) => digits out s
      | .error e => .error e
    else .ok (out, b :: s)

/-- `decode_unsigned_base`, `integer.rs:405-430`. -/
def unsignedBase (w : Nat) : P (BitVec w) := do
  let b ← P.readByte
  if b == 0x30#8 then pure 0
  else if isDigitNonzero b then digits (fromDigit w b)
  else P.fail .invalid

/-- `parse_unsigned_base`, `integer.rs:267-277`. -/
def parseUnsignedBase (w : Nat) : P (BitVec w) := do
  skipWs
  unsignedBase w

/-- `Unsigned::negate`, `integer.rs:708-714`. -/
def negate {w : Nat} (u : BitVec w) : Option (BitVec w) :=
  if u.toNat > (2 ^ w - 1) / 2 + 1 then none else some (-u)

/-- `Unsigned::signed`, `integer.rs:717-723`. -/
def signed {w : Nat} (u : BitVec w) : Option (BitVec w) :=
  if u.toNat > (2 ^ w - 1) / 2 then none else some u

/-- `SignedPartsBase::compute`, `integer.rs:25-39`. -/
def computeSigned {w : Nat} (neg : Bool) (u : BitVec w) : Except Err (BitVec w) :=
  match if neg then negate u else signed u with
  | some v => .ok v
  | none => .error .overflow

/-- Skip a minus sign, `integer.rs:308-313, 348-353`. -/
def minus : P Bool := do
  let b ← P.peek
  if b == some 0x2D#8 then do
    P.skip 1
    pure true
  else pure false

/-- `parse_signed_base`, `integer.rs:300-321, 366-380`. -/
def parseSignedBase (w : Nat) : P (BitVec w) := do
  skipWs
  let neg ← minus
  let u ← unsignedBase w
  P.ofExcept (computeSigned neg u)

/-! ## Numbers with a fraction and an exponent (feature `parse-full`) -/

/-- The parts of a number, `integer.rs:94-101, 141-152`: `base`, `mantissa * 10 ^ -mexp`, and
the exponent. `i32` counters are unbounded integers here. -/
structure Parts (w : Nat) where
  base : BitVec w
  mantissa : BitVec w
  mexp : Nat
  e : Int

/-- `decode_zeros`, `integer.rs:533-546`. -/
def zeros : Bytes → Nat × Bytes
  | [] => (0, [])
  | b :: s => if b == 0x30#8 then ((zeros s).1 + 1, (zeros s).2) else (0, b :: s)

/-- `checked_pow10`: `self * 10 ** e`, `integer.rs:663-677`. -/
def checkedPow10 {w : Nat} (a : BitVec w) (e : Nat) : Option (BitVec w) :=
  if 10 ^ e < 2 ^ w then
    if a.toNat * 10 ^ e < 2 ^ w then some (BitVec.ofNat w (a.toNat * 10 ^ e)) else none
  else none

/-- `checked_neg_pow10`: `self / 10 ** e`, `integer.rs:681-690`. -/
def checkedNegPow10 {w : Nat} (a : BitVec w) (e : Nat) : Option (BitVec w) :=
  if 10 ^ e < 2 ^ w then
    if a.toNat % 10 ^ e != 0 then none else some (BitVec.ofNat w (a.toNat / 10 ^ e))
  else none

/-- The loop over the digits after a decimal point, `integer.rs:457-472`. `z` is the
number of zeros seen since the last other digit. -/
def fracLoop {w : Nat} : (fuel : Nat) → (value : BitVec w) → (exp z : Nat) → P (BitVec w × Nat)
  | 0, _, _, _ => P.fail .fuel
  | fuel + 1, value, exp, z => fun s =>
    match s with
    | [] => .ok ((value, exp), [])
    | b :: s' =>
      if isDigit b then
        match (if z > 0 then checkedPow10 value z else some value) with
        | none => .error (.overflow, b :: s')
        | some value => (do
          let value ← digit value
          let z' ← (fun s => .ok (zeros s) : P Nat)
          fracLoop fuel value ((if z > 0 then exp + z else exp) + 1) z') (b :: s')
      else .ok ((value, exp), b :: s')

/-- `decode_exponent`, `integer.rs:487-514`. -/
def exponent : P Int := do
  let b ← P.peek
  let neg ← (if b == some 0x2D#8 then do P.skip 1; pure true
    else if b == some 0x2B#8 then do P.skip 1; pure false
    else pure false : P Bool)
  let e ← digits (0 : BitVec 32)
  let v ← P.ofExcept (computeSigned neg e)
  pure v.toInt

/-- `decode_unsigned_full`, `integer.rs:432-483`. -/
def unsignedFull (w : Nat) : P (Parts w) := do
  let base ← unsignedBase w
  let dot ← P.peek
  let (m, mexp) ← (if dot == some 0x2E#8 then do
      P.skip 1
      let z ← (fun s => .ok (zeros s) : P Nat)
      fun s => fracLoop (s.length + 1) (0 : BitVec w) z 0 s
    else pure (0, 0) : P (BitVec w × Nat))
  let c ← P.peek
  let e ← (if c == some 0x65#8 || c == some 0x45#8 then do
      P.skip 1
      exponent
    else pure 0 : P Int)
  pure { base := base, mantissa := m, mexp := mexp, e := e }

/-- `Parts::compute`, `integer.rs:158-203`. -/
def Parts.compute {w : Nat} (p : Parts w) : Except Err (BitVec w) :=
  if p.e = 0 then
    if p.mantissa != 0 then .error .invalid else .ok p.base
  else if p.e ≥ 0 then
    if p.e - p.mexp < 0 then .error .invalid
    else
      match (if p.base != 0 then checkedPow10 p.base p.e.toNat else some p.base) with
      | none => .error .overflow
      | some base =>
        match checkedPow10 p.mantissa (p.e - p.mexp).toNat with
        | none => .error .overflow
        | some m => match checkedAdd base m with
          | none => .error .overflow
          | some v => .ok v
  else if p.mantissa != 0 then .error .invalid
  else match checkedNegPow10 p.base (-p.e).toNat with
    | none => .error .invalid
    | some v => .ok v

/-- `parse_unsigned_full`, `integer.rs:282-296`. -/
def parseUnsignedFull (w : Nat) : P (BitVec w) := do
  skipWs
  let p ← unsignedFull w
  P.ofExcept p.compute

/-- `parse_signed_full`, `integer.rs:340-361, 383-399`. -/
def parseSignedFull (w : Nat) : P (BitVec w) := do
  skipWs
  let neg ← minus
  let p ← unsignedFull w
  let u ← P.ofExcept p.compute
  P.ofExcept (computeSigned neg u)

/-- `parse_unsigned` as imported by the decoder: `full` is the feature
`parse-full`, `de/mod.rs:34-41`. -/
def parseUnsigned (full : Bool) (w : Nat) : P (BitVec w) :=
  if full then parseUnsignedFull w else parseUnsignedBase w

/-- `parse_signed` as imported by the decoder, `de/mod.rs:34-41`. -/
def parseSigned (full : Bool) (w : Nat) : P (BitVec w) :=
  if full then parseSignedFull w else parseSignedBase w

/-- What `Parser::consume_while(is_digit)` leaves, `parser.rs:105-122`. -/
def dropDigits : Bytes → Bytes
  | [] => []
  | b :: s => if isDigit b then dropDigits s else b :: s

/-- `Parser::consume_while(is_digit)`, `parser.rs:105-122`. -/
def consumeDigits : P Unit := fun s => .ok ((), dropDigits s)

/-- The integer part in `skip_number`, `integer.rs:226-238`. -/
def skipInt : P Unit := do
  let b ← P.readByte
  if b == 0x30#8 then pure ()
  else if isDigitNonzero b then consumeDigits
  else P.fail .invalid

/-- The fraction in `skip_number`, `integer.rs:240-243`. -/
def skipFrac : P Unit := do
  let dot ← P.peek
  if dot == some 0x2E#8 then do
    P.skip 1
    consumeDigits
  else pure ()

/-- The sign of the exponent in `skip_number`, `integer.rs:248-256`. -/
def skipSign : P Unit := do
  let d ← P.peek
  if d == some 0x2D#8 || d == some 0x2B#8 then P.skip 1 else pure ()

/-- The exponent in `skip_number`, `integer.rs:245-259`. -/
def skipExp : P Unit := do
  let c ← P.peek
  if c == some 0x65#8 || c == some 0x45#8 then do
    P.skip 1
    skipSign
    consumeDigits
  else pure ()

/-- `skip_number`, `integer.rs:218-262`. -/
def skipNumber : P Unit := do
  skipWs
  let _ ← minus
  skipInt
  skipFrac
  skipExp

/-! ## Formatting -/

/-- Decimal digits of a number, most significant first, without leading zeros:
what `itoa` writes. `itoa` is an external crate and is modelled by its
specification. -/
def decimal (n : Nat) : Bytes :=
  if n < 10 then [BitVec.ofNat 8 (0x30 + n)]
  else decimal (n / 10) ++ [BitVec.ofNat 8 (0x30 + n % 10)]
termination_by n

/-- `itoa` of an unsigned integer. -/
def fmtUnsigned {w : Nat} (v : BitVec w) : Bytes := decimal v.toNat

/-- `itoa` of a signed integer. -/
def fmtSigned {w : Nat} (v : BitVec w) : Bytes :=
  if v.toInt < 0 then 0x2D#8 :: decimal v.toInt.natAbs else decimal v.toInt.natAbs

end Musli.Json
