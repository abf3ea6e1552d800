import Verif.Model.Zero.Endian
/-!
# What the compiler and the derive macro accept

Of types with byte orders in them, and which of them have no bytes that depend on the platform.
-/
namespace Musli.Zero
open Musli

/-- The discriminant and the fields of a variant. -/
def SVariants.get : SVariants → Nat → Option (Nat × SFields)
  | .nil, _ => none
  | .cons disc _ fs rest, i => match i with
    | 0 => some (disc, fs)
    | i + 1 => rest.get i

/-- With `#[zero_copy(swap_bytes)]`: discriminants are distinct and in range; every variant names another one or
is named by one (or else the derive macro reports an error); and the two have the same fields. The compiler only
demands that they have the same names and types, in any order; here the order is the same too. -/
def SVariants.Paired (vs : SVariants) (tagSize : Nat) : Prop :=
  vs.discs.Nodup ∧ (∀ d ∈ vs.discs, d < 256 ^ tagSize) ∧
  (∀ i : Nat, vs.swaps[i]? = some none → ∃ k : Nat, vs.swaps[k]? = some (some i)) ∧
  ∀ i d fs, vs.get i = some (d, fs) → ∃ d', vs.get (target vs.swaps i) = some (d', fs)

mutual
/-- `Endian` is only made of types which can be swapped, `endian/endian.rs:139-141`; enums are paired. -/
def STy.SwapOk : STy → Prop
  | .array t _ => t.SwapOk
  | .struct _ _ fs => fs.SwapOk
  | .transparent t => t.SwapOk
  | .wrapping t => t.SwapOk
  | .endian _ t => t.SwapOk ∧ t.canSwap = true
  | .enum tagSize _ _ swaps vs => vs.SwapOk ∧ (swaps = true → vs.Paired tagSize)
  | _ => True

def SFields.SwapOk : SFields → Prop
  | .nil => True
  | .cons _ _ t rest => t.SwapOk ∧ rest.SwapOk

def SVariants.SwapOk : SVariants → Prop
  | .nil => True
  | .cons _ _ fs rest => fs.SwapOk ∧ fs.names.Nodup ∧ rest.SwapOk
end

mutual
/-- Types in which everything larger than a byte is in an `Endian`. -/
def STy.portable : STy → Bool
  | .num size _ => decide (size ≤ 1)
  | .bool => true
  | .char => false
  | .nonzero size _ => decide (size ≤ 1)
  | .zst => true
  | .array t _ => t.portable
  | .struct _ _ fs => fs.portable
  | .transparent t => t.portable
  | .wrapping t => t.portable
  | .endian _ _ => true
  | .enum tagSize _ _ _ vs => decide (tagSize ≤ 1) && vs.portable

def SFields.portable : SFields → Bool
  | .nil => true
  | .cons _ _ t rest => t.portable && rest.portable

def SVariants.portable : SVariants → Bool
  | .nil => true
  | .cons _ _ fs rest => fs.portable && rest.portable
end

end Musli.Zero
