import Verif.Spec.Grammar
/-!
# What the values of zero-copy types look like in memory

The layout of types is that of the Rust reference, chapter "Type layout": `repr(C)`, `repr(transparent)`,
`repr(packed)`, `repr(align)` and primitive representations. Alignments are powers of two and are given
by their exponents. The specification says which memory a value may occupy; which function validates it,
or fills its padding, is not part of it.
-/
namespace Musli.Zero
open Musli

mutual
/-- Types which implement `ZeroCopy`. -/
inductive ZTy where
  /-- A type of which all bit patterns are values and which has no padding: integers, floats,
  `Option<NonZero*>`. -/
  | num (size lg : Nat)
  | bool
  | char
  /-- `NonZero*` -/
  | nonzero (size lg : Nat)
  /-- `()`, `PhantomData<_>` -/
  | zst
  /-- `[T; N]` -/
  | array (t : ZTy) (n : Nat)
  /-- A derived struct with `repr(C)`, and perhaps `packed(2^packed)` or `align(2^align)`. -/
  | struct (packed : Option Nat) (align : Nat) (fs : ZFields)
  /-- A derived struct with `repr(transparent)` around a type. -/
  | transparent (t : ZTy)
  /-- `Wrapping<T>` -/
  | wrapping (t : ZTy)
  /-- A derived enum with a primitive representation of that size and alignment. -/
  | enum (tagSize tagLg align : Nat) (vs : ZVariants)

/-- The fields of a struct or variant, in order. Those which have `#[zero_copy(ignore)]` are marked. -/
inductive ZFields where
  | nil
  | cons (ignored : Bool) (t : ZTy) (rest : ZFields)

/-- The variants of an enum, with the bytes of their discriminants in memory. -/
inductive ZVariants where
  | nil
  | cons (tag : Bytes) (fs : ZFields) (rest : ZVariants)
end

/-- The next multiple of `2^lg`. -/
def roundUp (n lg : Nat) : Nat := (n + (2 ^ lg - 1)) / 2 ^ lg * 2 ^ lg

/-- The alignment of a field in a struct which may be packed. -/
def capped : Option Nat → Nat → Nat
  | none, lg => lg
  | some k, lg => min k lg

mutual
/-- The alignment of a type. -/
def ZTy.lg : ZTy → Nat
  | .num _ lg => lg
  | .bool => 0
  | .char => 2
  | .nonzero _ lg => lg
  | .zst => 0
  | .array t _ => t.lg
  | .struct packed align fs => max align (fs.lg packed)
  | .transparent t => t.lg
  | .wrapping t => t.lg
  | .enum _ tagLg align vs => max align (max tagLg vs.lg)

/-- The greatest alignment of the fields. -/
def ZFields.lg : ZFields → Option Nat → Nat
  | .nil, _ => 0
  | .cons _ t rest, packed => max (capped packed t.lg) (rest.lg packed)

/-- The greatest alignment of the fields of variants. -/
def ZVariants.lg : ZVariants → Nat
  | .nil => 0
  | .cons _ fs rest => max (fs.lg none) rest.lg
end

mutual
/-- The size of a type. -/
def ZTy.size : ZTy → Nat
  | .num size _ => size
  | .bool => 1
  | .char => 4
  | .nonzero size _ => size
  | .zst => 0
  | .array t n => n * t.size
  | .struct packed align fs => roundUp (fs.fin packed 0) (max align (fs.lg packed))
  | .transparent t => t.size
  | .wrapping t => t.size
  | .enum tagSize tagLg align vs => roundUp (vs.fin tagSize) (max align (max tagLg vs.lg))

/-- Where fields end, if the ones before them end at `off`: every field is at the next offset which
suits its alignment. -/
def ZFields.fin : ZFields → Option Nat → Nat → Nat
  | .nil, _, off => off
  | .cons _ t rest, packed, off => rest.fin packed (roundUp off (capped packed t.lg) + t.size)

/-- Where the longest of the variants ends. Every variant is a `repr(C)` struct whose first field is
the discriminant. -/
def ZVariants.fin : ZVariants → Nat → Nat
  | .nil, tagSize => tagSize
  | .cons _ fs rest, tagSize => max (fs.fin none tagSize) (rest.fin tagSize)
end

/-- Memory: bytes, some of which are padding (`none`), the contents of which do not matter and which
need not be initialised. -/
abbrev Memory := List (Option Byte)

/-- Padding. -/
def gap (n : Nat) : Memory := List.replicate n none

mutual
/-- The memory of values of a type, of which exactly the padding is `none`. -/
def Mem [Host] : ZTy → Memory → Prop
  | .num size _, m => ∃ bs : Bytes, m = bs.map some ∧ bs.length = size
  | .bool, m => m = [some 0#8] ∨ m = [some 1#8]
  | .char, m => ∃ bs : Bytes, m = bs.map some ∧ bs.length = 4 ∧
      ∃ c : Char, c.toNat = Grammar.fixed Host.order bs
  | .nonzero size _, m => ∃ bs : Bytes, m = bs.map some ∧ bs.length = size ∧ ∃ b ∈ bs, b ≠ 0#8
  | .zst, m => m = []
  | .array t n, m => ∃ parts : List Memory, m = parts.flatten ∧ parts.length = n ∧ ∀ p ∈ parts, Mem t p
  | .struct packed align fs, m => ∃ mf, m = mf ++ gap ((ZTy.struct packed align fs).size - fs.fin packed 0) ∧
      MemFields fs packed 0 mf
  | .transparent t, m => Mem t m
  | .wrapping t, m => Mem t m
  | .enum tagSize tagLg align vs, m => MemVariants vs tagSize (ZTy.enum tagSize tagLg align vs).size m

/-- The memory of fields, if the ones before them end at `off`. -/
def MemFields [Host] : ZFields → Option Nat → Nat → Memory → Prop
  | .nil, _, _, m => m = []
  | .cons _ t rest, packed, off, m => ∃ mt mr,
      m = gap (roundUp off (capped packed t.lg) - off) ++ (mt ++ mr) ∧ Mem t mt ∧
      MemFields rest packed (roundUp off (capped packed t.lg) + t.size) mr

/-- The memory of one of the variants of an enum of the given size. -/
def MemVariants [Host] : ZVariants → (tagSize size : Nat) → Memory → Prop
  | .nil, _, _, _ => False
  | .cons tag fs rest, tagSize, size, m =>
      (∃ mf, m = tag.map some ++ (mf ++ gap (size - fs.fin none tagSize)) ∧ MemFields fs none tagSize mf) ∨
      MemVariants rest tagSize size m
end

/-- Bytes have the contents of some memory. -/
inductive Agree : Memory → Bytes → Prop where
  | nil : Agree [] []
  | pad {m bs} (b : Byte) : Agree m bs → Agree (none :: m) (b :: bs)
  | byte {m bs} (b : Byte) : Agree m bs → Agree (some b :: m) (b :: bs)

/-- The bytes are those of a value. -/
def IsValue [Host] (t : ZTy) (bs : Bytes) : Prop := ∃ m, Mem t m ∧ Agree m bs

/-! ## What the compiler accepts -/

mutual
/-- Types which implement `ZeroSized`. -/
def ZTy.zeroSized : ZTy → Bool
  | .zst => true
  | .array _ n => n == 0
  | .struct _ _ fs => fs.zeroSized
  | .transparent t => t.zeroSized
  | .wrapping t => t.zeroSized
  | _ => false

def ZFields.zeroSized : ZFields → Bool
  | .nil => true
  | .cons _ t rest => t.zeroSized && rest.zeroSized
end

/-- The discriminants. -/
def ZVariants.tags : ZVariants → List Bytes
  | .nil => []
  | .cons tag _ rest => tag :: rest.tags

mutual
/-- Sizes are multiples of alignments, ignored fields are `ZeroSized`, discriminants are distinct and
have the size of the representation, `packed` and `align` exclude each other. -/
def ZTy.WF : ZTy → Prop
  | .num size lg => size % 2 ^ lg = 0
  | .nonzero size lg => size % 2 ^ lg = 0
  | .array t _ => t.WF
  | .struct packed align fs => fs.WF ∧ (packed.isSome → align = 0)
  | .transparent t => t.WF
  | .wrapping t => t.WF
  | .enum tagSize tagLg _ vs => tagSize % 2 ^ tagLg = 0 ∧ vs.tags.Nodup ∧ vs.WF tagSize
  | _ => True

def ZFields.WF : ZFields → Prop
  | .nil => True
  | .cons ignored t rest => t.WF ∧ (ignored = true → t.zeroSized = true) ∧ rest.WF

def ZVariants.WF : ZVariants → Nat → Prop
  | .nil, _ => True
  | .cons tag fs rest, tagSize => tag.length = tagSize ∧ fs.WF ∧ rest.WF tagSize
end

end Musli.Zero
