import Verif.Basic
/-!
# Helpers of `dec2flt`

`crates/musli/src/dec2flt/common.rs`. Values of type `u64` are natural numbers below
`2 ^ 64`; operations which wrap are followed by `% 2 ^ 64`, and operations which must
not overflow (they panic in debug builds) go through `u64`.
-/
namespace Musli.Dec2Flt

/-- The result of an unchecked operation on `u64`: `none` is a panic (overflow). -/
def u64 (n : Nat) : Option Nat := if n < 2 ^ 64 then some n else none

/-- `u64::from_le_bytes`. -/
def le : Bytes → Nat
  | [] => 0
  | b :: s => b.toNat + 256 * le s

/-- `c.wrapping_sub(b'0')`. -/
def digitOf (c : Byte) : Nat := (c - 0x30#8).toNat

/-- `ByteSlice::parse_digits`, `common.rs:38-55`. -/
def parseDigits {α : Type} (f : α → Nat → α) : Bytes → α → Bytes × α
  | [], a => ([], a)
  | c :: s, a => if digitOf c < 10 then parseDigits f s (f a (digitOf c)) else (c :: s, a)

/-- `is_8digits`, `common.rs:60-64`. -/
def is8digits (v : Nat) : Bool :=
  let a := (v + 0x4646464646464646) % 2 ^ 64
  let b := (v + 2 ^ 64 - 0x3030303030303030) % 2 ^ 64
  (a ||| b) &&& 0x8080808080808080 == 0

/-- `BiasedFp`, `common.rs:66-81`. -/
structure BiasedFp where
  f : Nat
  e : Int
  deriving DecidableEq, Repr

/-- `BiasedFp::zero_pow2`, `common.rs:77-80`. -/
def zeroPow2 (e : Int) : BiasedFp := ⟨0, e⟩

end Musli.Dec2Flt
