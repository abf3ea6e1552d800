import Verif.Props.Samples
import Verif.Model.Int
import Verif.Model.Json.Number
/-!
# The integers agree with the tests of the repository

`crates/musli/src/json/parser/tests.rs` and `crates/musli/src/int/tests.rs`, evaluated with the model. These are tests of
the model, not theorems.
-/
namespace Musli.Json
open Musli

/-- A number is parsed as this one, `None` is an error. -/
def isUnsigned (w : Nat) (s : Bytes) (n : Option Nat) : Bool :=
  match parseUnsignedFull w s, n with
  | .ok (v, _), some n => v.toNat == n
  | .error _, none => true
  | _, _ => false

def isSigned (w : Nat) (s : Bytes) (n : Option Int) : Bool :=
  match parseSignedFull w s, n with
  | .ok (v, _), some n => v.toInt == n
  | .error _, none => true
  | _, _ => false

/-- `test_decode_exponent`. -/
example : ([(utf8% "0.01e4", 100), (utf8% "1.01e4", 10100), (utf8% "1.0100e4", 10100),
    (utf8% "1.010000000e4", 10100), (utf8% "1.01e8", 101000000), (utf8% "1.0100001e8", 101000010),
    (utf8% "1.0100001e7", 10100001), (utf8% "1.321e3", 1321), (utf8% "0.321e3", 321), (utf8% "4000e-3", 4),
    (utf8% "40000e-3", 40)].all fun p => isUnsigned 64 p.1 (some p.2) && isUnsigned 128 p.1 (some p.2)) = true := by
  decide +kernel

/-- The texts of `test_decode_unsigned` and `test_decode_signed`: the last is refused. -/
def suffixes : List (Bytes × Bool) :=
  [([], true), (utf8% ".", true), (utf8% ".0", true), (utf8% ".00000", true), (utf8% ".1", false)]

/-- `test_decode_unsigned`: `0`, `MIN` and `MAX` of all types. -/
example : ([8, 16, 32, 64, 128].all fun w => [0, 2 ^ w - 1].all fun n => suffixes.all fun s =>
    isUnsigned w (decimal n ++ s.1) (if s.2 then some n else none)) = true := by decide +kernel

/-- `test_decode_signed`: `0`, `-1`, `MIN` and `MAX` of all types. -/
example : ([8, 16, 32, 64, 128].all fun w => [0, -1, -2 ^ (w - 1), 2 ^ (w - 1) - 1].all fun (n : Int) => suffixes.all fun s =>
    isSigned w ((if n < 0 then 0x2D#8 :: decimal n.natAbs else decimal n.natAbs) ++ s.1)
      (if s.2 then some n else none)) = true := by decide +kernel

end Musli.Json

namespace Musli.Conformance
open Musli

/-- `basic_continuation`, and the end of `test_continuation_encoding`. -/
example : Varint.encode (5000#32) = [0b10001000, 0b00100111] ∧
    Varint.encode (1000#128) = [232, 7] := by decide +kernel

/-- `rt` of `test_continuation_encoding`, with two numbers one after the other. -/
def roundTrips (w n : Nat) : Bool :=
  let bytes := Varint.encode (BitVec.ofNat w n)
  match Varint.decode w (bytes ++ bytes) with
  | .ok (a, rest) => a == BitVec.ofNat w n && match Varint.decode w rest with
    | .ok (b, []) => b == BitVec.ofNat w n
    | _ => false
  | .error _ => false

example : ([16, 32, 64, 128].all fun w => [0, 1, 42, 127, 128, 128 * 256, 2 ^ w - 1].all (roundTrips w)) = true := by
  decide +kernel

/-- `test_zigzag`. -/
example : ([16, 32, 64, 128].all fun w =>
    [((0 : Int), 0), (-1, 1), (1, 2), (-2, 3), (2, 4), (2 ^ (w - 1) - 1, 2 ^ w - 2), (-2 ^ (w - 1), 2 ^ w - 1)].all
      fun p => ZigZag.encode (BitVec.ofInt w p.1) == BitVec.ofNat w p.2 &&
        ZigZag.decode (BitVec.ofNat w p.2) == BitVec.ofInt w p.1) = true := by decide +kernel

end Musli.Conformance
