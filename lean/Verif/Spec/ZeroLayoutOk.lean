import Verif.Model.Zero.Layout
/-!
# Types which are validated and padded where their fields are

Neither holds of all types which the compiler accepts, see C51 and C52.
-/
namespace Musli.Zero

mutual
/-- The alignment (exponent) which an address needs so that validation looks at the fields: validation
aligns addresses, not offsets. -/
def ZTy.need : ZTy → Nat
  | .array t _ => t.need
  | .struct packed _ fs => if fs.anyBits then 0 else fs.lg packed
  | .transparent t => t.need
  | .wrapping t => if t.anyBits then 0 else t.lg
  | .enum _ tagLg _ vs => max tagLg vs.lg
  | _ => 0
end

mutual
/-- Types for which validation looks at the fields. Nothing has to be looked at if all bit patterns are
values. Otherwise:

* `packed(N)` is not greater than the alignment of any field,
* ignored fields have alignment 1,
* fields are aligned as much as their own validation needs, which `packed` may prevent. -/
def ZTy.LoadOk : ZTy → Prop
  | .array t _ => t.LoadOk
  | .struct packed _ fs => fs.anyBits = true ∨ fs.LoadOk packed
  | .transparent t => t.LoadOk
  | .wrapping t => t.LoadOk
  | .enum _ _ _ vs => vs.LoadOk
  | _ => True

def ZFields.LoadOk : ZFields → Option Nat → Prop
  | .nil, _ => True
  | .cons true t rest, packed => capped packed t.lg = 0 ∧ rest.LoadOk packed
  | .cons false t rest, packed => t.LoadOk ∧ (∀ k, packed = some k → k ≤ t.lg) ∧
      t.need ≤ capped packed t.lg ∧ rest.LoadOk packed

def ZVariants.LoadOk : ZVariants → Prop
  | .nil => True
  | .cons _ fs rest => fs.LoadOk none ∧ rest.LoadOk
end

mutual
/-- Types of which padding is filled where it is:

* `packed(N)` is not greater than the alignment of any field,
* ignored fields have alignment 1,

unless there is no padding. -/
def ZTy.StoreOk : ZTy → Prop
  | .array t _ => t.StoreOk
  | .struct packed align fs => (ZTy.struct packed align fs).padded = false ∨ fs.StoreOk packed
  | .transparent t => t.StoreOk
  | .wrapping t => t.StoreOk
  | .enum tagSize tagLg align vs => (ZTy.enum tagSize tagLg align vs).padded = false ∨ vs.StoreOk
  | _ => True

def ZFields.StoreOk : ZFields → Option Nat → Prop
  | .nil, _ => True
  | .cons true t rest, packed => capped packed t.lg = 0 ∧ rest.StoreOk packed
  | .cons false t rest, packed => t.StoreOk ∧ (∀ k, packed = some k → k ≤ t.lg) ∧ rest.StoreOk packed

def ZVariants.StoreOk : ZVariants → Prop
  | .nil => True
  | .cons _ fs rest => fs.StoreOk none ∧ rest.StoreOk
end

end Musli.Zero
