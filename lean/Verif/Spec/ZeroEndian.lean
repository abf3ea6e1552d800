import Verif.Spec.ZeroRef
/-!
# Types with byte orders in them

The types of `Spec/ZeroLayout.lean`, with `Endian<T, E>`, names of fields and the attributes which say how the
variants of an enum are swapped. Values are as a program sees them, on any platform; `repr` is their memory on a
platform of some byte order, with the layout of the Rust reference.
-/
namespace Musli.Zero
open Musli

mutual
inductive STy where
  | num (size lg : Nat)
  | bool
  | char
  | nonzero (size lg : Nat)
  | zst
  | array (t : STy) (n : Nat)
  | struct (packed : Option Nat) (align : Nat) (fs : SFields)
  | transparent (t : STy)
  | wrapping (t : STy)
  /-- `Endian<T, E>`. A `Ref<T, E, O>` is an `Endian` with a struct in it: what is stored are numbers which
  have been swapped, see C55. -/
  | endian (E : ByteOrder) (t : STy)
  /-- A derived enum. `swaps` says whether it has `#[zero_copy(swap_bytes)]`. -/
  | enum (tagSize tagLg align : Nat) (swaps : Bool) (vs : SVariants)

inductive SFields where
  | nil
  | cons (name : Nat) (ignored : Bool) (t : STy) (rest : SFields)

/-- Variants with their discriminants, as unsigned numbers, and the index of the one which
`#[zero_copy(swap = …)]` names. -/
inductive SVariants where
  | nil
  | cons (disc : Nat) (swap : Option Nat) (fs : SFields) (rest : SVariants)
end

/-- Values: numbers (also for `bool` and `char`), the elements of arrays and fields of structs, and variants. -/
inductive Val where
  | num (n : Nat)
  | list (vs : List Val)
  | variant (i : Nat) (vs : List Val)

mutual
/-- The type without byte orders, on a platform of one. -/
def STy.zty (H : ByteOrder) : STy → ZTy
  | .num size lg => .num size lg
  | .bool => .bool
  | .char => .char
  | .nonzero size lg => .nonzero size lg
  | .zst => .zst
  | .array t n => .array (t.zty H) n
  | .struct packed align fs => .struct packed align (fs.zty H)
  | .transparent t => .transparent (t.zty H)
  | .wrapping t => .wrapping (t.zty H)
  | .endian _ t => .transparent (t.zty H)
  | .enum tagSize tagLg align _ vs => .enum tagSize tagLg align (vs.zty H tagSize)

def SFields.zty (H : ByteOrder) : SFields → ZFields
  | .nil => .nil
  | .cons _ ignored t rest => .cons ignored (t.zty H) (rest.zty H)

def SVariants.zty (H : ByteOrder) : SVariants → Nat → ZVariants
  | .nil, _ => .nil
  | .cons disc _ fs rest, tagSize => .cons (numBytes H tagSize disc) (fs.zty H) (rest.zty H tagSize)
end

mutual
/-- Values of a type. -/
def Typed : STy → Val → Prop
  | .num size _, .num n => n < 256 ^ size
  | .bool, .num n => n < 2
  | .char, .num n => ∃ c : Char, c.toNat = n
  | .nonzero size _, .num n => n < 256 ^ size ∧ n ≠ 0
  | .zst, .list vs => vs = []
  | .array t n, .list vs => vs.length = n ∧ ∀ v ∈ vs, Typed t v
  | .struct _ _ fs, .list vs => TypedFields fs vs
  | .transparent t, v => Typed t v
  | .wrapping t, v => Typed t v
  | .endian _ t, v => Typed t v
  | .enum tagSize _ _ _ vs, .variant i xs => TypedVariant vs tagSize i xs
  | _, _ => False

def TypedFields : SFields → List Val → Prop
  | .nil, vs => vs = []
  | .cons _ _ t rest, vs => ∃ v ws, vs = v :: ws ∧ Typed t v ∧ TypedFields rest ws

def TypedVariant : SVariants → Nat → Nat → List Val → Prop
  | .nil, _, _, _ => False
  | .cons disc _ fs rest, tagSize, i, xs =>
    match i with
    | 0 => disc < 256 ^ tagSize ∧ TypedFields fs xs
    | i + 1 => TypedVariant rest tagSize i xs
end

mutual
/-- The memory of a value, on a platform of some byte order. What an `Endian` has stored is a value of its type. -/
def repr (H : ByteOrder) : STy → Val → Memory
  | .num size _, .num n => (numBytes H size n).map some
  | .bool, .num n => [some (BitVec.ofNat 8 n)]
  | .char, .num n => (numBytes H 4 n).map some
  | .nonzero size _, .num n => (numBytes H size n).map some
  | .array t _, .list vs => (vs.map (repr H t)).flatten
  | .struct packed align fs, .list vs =>
    reprFields H fs packed 0 vs ++
      gap (((STy.struct packed align fs).zty H).size - (fs.zty H).fin packed 0)
  | .transparent t, v => repr H t v
  | .wrapping t, v => repr H t v
  | .endian _ t, v => repr H t v
  | .enum tagSize tagLg align swaps vs, .variant i xs =>
    reprVariant H vs tagSize ((STy.enum tagSize tagLg align swaps vs).zty H).size i xs
  | _, _ => []

def reprFields (H : ByteOrder) : SFields → Option Nat → Nat → List Val → Memory
  | .cons _ _ t rest, packed, off, v :: vs =>
    gap (roundUp off (capped packed (t.zty H).lg) - off) ++
      (repr H t v ++ reprFields H rest packed (roundUp off (capped packed (t.zty H).lg) + (t.zty H).size) vs)
  | _, _, _, _ => []

def reprVariant (H : ByteOrder) : SVariants → (tagSize size i : Nat) → List Val → Memory
  | .nil, _, _, _, _ => []
  | .cons disc _ fs rest, tagSize, size, i, xs =>
    match i with
    | 0 => (numBytes H tagSize disc).map some ++
        (reprFields H fs none tagSize xs ++ gap (size - (fs.zty H).fin none tagSize))
    | i + 1 => reprVariant H rest tagSize size i xs
end

end Musli.Zero
