import Verif.Model.Ty
/-!
# Integer types and the integers they hold
-/
namespace Musli

/-- The integer types of Rust. -/
inductive IntTy where
  | uint (w : IW)
  | sint (w : IW)
  | usize
  | isize
deriving Repr, DecidableEq

namespace IntTy

/-- The type as a primitive type of the model. -/
@[reducible] def prim : IntTy → Prim
  | uint w => .uint w
  | sint w => .sint w
  | usize => .usize
  | isize => .isize

/-- Bits. -/
def bits : IntTy → Nat
  | uint w => w.bits
  | sint w => w.bits
  | usize => 64
  | isize => 64

/-- Is the type signed? -/
def signed : IntTy → Bool
  | uint _ => false
  | sint _ => true
  | usize => false
  | isize => true

/-- The mathematical integer a value stands for. -/
def toInt : (t : IntTy) → t.prim.Val → Int
  | uint _, v => BitVec.toNat v
  | sint _, v => BitVec.toInt v
  | usize, v => BitVec.toNat v
  | isize, v => BitVec.toInt v

/-- `n` is in the range of an integer type of `b` bits, signed or not. -/
def inRange (signed : Bool) (b : Nat) (n : Int) : Prop :=
  match signed with
  | false => 0 ≤ n ∧ n < 2 ^ b
  | true => -2 ^ (b - 1) ≤ n ∧ n < 2 ^ (b - 1)

/-- `n` is in the range of the type. -/
def fits (t : IntTy) (n : Int) : Prop := inRange t.signed t.bits n

end IntTy
end Musli
