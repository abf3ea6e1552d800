import Verif.Model.Zero.Layout
import Verif.Spec.ZeroRef
/-!
# `Ref`, `pointer/ref.rs`, and `Size`, `pointer/size.rs`

Paths are relative to `crates/musli-zerocopy/src`. Integers of a type are numbers; that they are in its range is
a hypothesis where it matters. Sums and products of `usize` are checked for overflow, as in debug builds.
-/
namespace Musli.Zero
open Musli

/-- The platform: its byte order and the number of bytes of a pointer. -/
structure Platform where
  order : ByteOrder
  ptr : Nat
deriving DecidableEq

/-- The types which implement `Size`, `pointer/size.rs:150-155`. -/
inductive SizeTy where | u8 | u16 | u32 | u64 | usize
deriving DecidableEq, Repr

/-- `size_of` -/
def SizeTy.bytes (P : Platform) : SizeTy → Nat
  | .u8 => 1
  | .u16 => 2
  | .u32 => 4
  | .u64 => 8
  | .usize => P.ptr

/-- `u64` implements it on 64-bit platforms only, `pointer/size.rs:18, 153`; others are not supported,
`pointer/size.rs:10-11`. -/
def SizeTy.ok (P : Platform) (O : SizeTy) : Prop := (P.ptr = 4 ∨ P.ptr = 8) ∧ (O = .u64 → P.ptr = 8)

/-- `swap_bytes` of the integers. -/
def swapNum (w n : Nat) : Nat := Grammar.little (toLittle w n).reverse

/-- `ByteOrder::swap_*`, `endian/mod.rs:359-517`: `from_le`, `to_le`, `from_be`, `to_be` of the integers. -/
def orderSwap (P : Platform) (E : ByteOrder) (w n : Nat) : Nat := if P.order = E then n else swapNum w n

/-- `ZeroCopy::swap_bytes` of the sizes, `traits.rs:798-804, 821-832`: for `u8` it is the identity. -/
def SizeTy.swapBytes (P : Platform) (O : SizeTy) (E : ByteOrder) (n : Nat) : Nat :=
  match O with
  | .u8 => n
  | _ => orderSwap P E (O.bytes P) n

/-- `Size::as_usize`, `pointer/size.rs:130-140, 131-140`: it does not swap a `usize`. -/
def SizeTy.asUsize (P : Platform) (O : SizeTy) (E : ByteOrder) (n : Nat) : Nat :=
  if n > (2 ^ (8 * P.ptr) - 1) % 2 ^ (8 * O.bytes P) then 2 ^ (8 * P.ptr) - 1
  else match O with
    | .u8 => n
    | .usize => n
    | _ => orderSwap P E (O.bytes P) n

/-- `O::try_from`, and `Size::try_from_usize`, `pointer/size.rs:121-128`. -/
def SizeTy.tryFrom (P : Platform) (O : SizeTy) (n : Nat) : Option Nat :=
  if n ≥ 2 ^ (8 * O.bytes P) then none else some n

/-- `Ref<T, E, O>`, `pointer/ref.rs:43-56`: its fields as they are stored. The metadata is `()` unless `T` is
a slice or string. -/
structure ZRef where
  offset : Nat
  len : Option Nat
deriving DecidableEq, Repr

/-- The bytes of a native integer. -/
def nativeBytes (P : Platform) (w n : Nat) : Bytes := numBytes P.order w n

/-- The bytes of a `repr(C)` reference. -/
def ZRef.mem (P : Platform) (O : SizeTy) (r : ZRef) : Bytes :=
  nativeBytes P (O.bytes P) r.offset ++
    (match r.len with | none => [] | some n => nativeBytes P (O.bytes P) n)

section
variable (P : Platform) (O : SizeTy) (E : ByteOrder)

/-- `swap_bytes` of the metadata; that of `()` is the identity, `traits.rs:1158-1164`. -/
def swapMeta (m : Option Nat) : Option Nat := m.map (O.swapBytes P E)

/-- `try_from_metadata`, `pointer/pointee.rs:63-68, 82-87, 98-103`; the outer option is the result. -/
def tryFromMetadata : Option Nat → Option (Option Nat)
  | none => some none
  | some n => (O.tryFrom P n).map some

/-- `Ref::with_metadata`, `pointer/ref.rs:186-211`. -/
def ZRef.withMetadata (offset : Nat) (len : Option Nat) : Except ZErr ZRef :=
  match O.tryFrom P offset with
  | none => .error .panic
  | some offset =>
    match tryFromMetadata P O len with
    | none => .error .panic
    | some len => .ok ⟨O.swapBytes P E offset, swapMeta P O E len⟩

/-- `Ref::try_with_metadata`, `pointer/ref.rs:241-277`; `none` is an error. -/
def ZRef.tryWithMetadata (offset : Nat) (len : Option Nat) : Option ZRef :=
  match O.tryFrom P offset with
  | none => none
  | some offset =>
    match tryFromMetadata P O len with
    | none => none
    | some len => some ⟨O.swapBytes P E offset, swapMeta P O E len⟩

/-- `Ref::new`, `pointer/ref.rs:610-631`. -/
def ZRef.new (offset : Nat) : Except ZErr ZRef :=
  match O.tryFrom P offset with
  | none => .error .panic
  | some offset => .ok ⟨O.swapBytes P E offset, none⟩

/-- `Ref::zero`, `pointer/ref.rs:644-650`. -/
def ZRef.zero : ZRef := ⟨0, none⟩

/-- `Ref::offset`, `pointer/ref.rs:669-672`. -/
def ZRef.offsetOf (r : ZRef) : Nat := O.asUsize P E r.offset

/-- `Ref::len`, `pointer/ref.rs:297-299, 482-484`. -/
def ZRef.lenOf (r : ZRef) : Option Nat := r.len.map (O.asUsize P E)

/-- `Ref::is_empty`, `pointer/ref.rs:315-317, 500-502`. -/
def ZRef.isEmpty (r : ZRef) : Bool := r.len == some 0

/-- `Ref::to_endian`, `pointer/ref.rs:143-150`, and `to_be`, `to_le`, `to_ne`, `pointer/ref.rs:81-125`. -/
def ZRef.toEndian (U : ByteOrder) (r : ZRef) : ZRef :=
  ⟨O.swapBytes P U (O.swapBytes P E r.offset), swapMeta P O U (swapMeta P O E r.len)⟩

/-- `usize` arithmetic. -/
def usizeCheck (n : Nat) : Except ZErr Nat := if n < 2 ^ (8 * P.ptr) then .ok n else .error .panic

/-- `Ref::get_unchecked`, `pointer/ref.rs:374-377`, for elements of a size. -/
def ZRef.getUnchecked (size : Nat) (r : ZRef) (index : Nat) : Except ZErr ZRef := do
  let skip ← usizeCheck P (size * index)
  let offset ← usizeCheck P (O.asUsize P E r.offset + skip)
  ZRef.new P O E offset

/-- `Ref::get`, `pointer/ref.rs:339-346`; the metadata of a slice is its length. -/
def ZRef.get (size : Nat) (r : ZRef) (index : Nat) : Except ZErr (Option ZRef) :=
  if index ≥ (r.lenOf P O E).getD 0 then .ok none
  else do
    let skip ← usizeCheck P (size * index)
    let offset ← usizeCheck P (O.asUsize P E r.offset + skip)
    let e ← ZRef.new P O E offset
    .ok (some e)

/-- `Ref::split_at`, `pointer/ref.rs:404-412`. -/
def ZRef.splitAt (size : Nat) (r : ZRef) (at_ : Nat) : Except ZErr (ZRef × ZRef) := do
  let offset := r.offsetOf P O E
  let len := (r.lenOf P O E).getD 0
  if at_ ≤ len then
    let a ← ZRef.withMetadata P O E offset (some at_)
    let skip ← usizeCheck P (at_ * size)
    let start ← usizeCheck P (offset + skip)
    let b ← ZRef.withMetadata P O E start (some (len - at_))
    .ok (a, b)
  else .error .panic

/-- `Iter`, `pointer/ref.rs:508-512`. -/
structure RefIter where
  start : Nat
  fin : Nat

/-- `Ref::iter`, `pointer/ref.rs:453-463`. -/
def ZRef.iter (size : Nat) (r : ZRef) : Except ZErr RefIter := do
  let start := O.asUsize P E r.offset
  let bytes ← usizeCheck P ((r.lenOf P O E).getD 0 * size)
  let fin ← usizeCheck P (start + bytes)
  .ok ⟨start, fin⟩

/-- `Iter::next`, `pointer/ref.rs:522-531`. -/
def RefIter.next (size : Nat) (it : RefIter) : Except ZErr (Option ZRef × RefIter) :=
  if it.start = it.fin then .ok (none, it)
  else do
    let start ← usizeCheck P (it.start + size)
    let r ← ZRef.new P O E it.start
    .ok (some r, { it with start := start })

/-- `Iter::next_back`, `pointer/ref.rs:540-548`. -/
def RefIter.nextBack (size : Nat) (it : RefIter) : Except ZErr (Option ZRef × RefIter) :=
  if it.start = it.fin then .ok (none, it)
  else if it.fin < size then .error .panic
  else do
    let r ← ZRef.new P O E (it.fin - size)
    .ok (some r, { it with fin := it.fin - size })

/-- What calls of `next` (`true`) and `next_back` (`false`) return. -/
def RefIter.run (size : Nat) : List Bool → RefIter → Except ZErr (List (Option ZRef))
  | [], _ => .ok []
  | call :: calls, it => do
    let (r, it) ← if call then RefIter.next P O E size it else RefIter.nextBack P O E size it
    let rest ← RefIter.run size calls it
    .ok (r :: rest)

/-- `Ref::array_into_slice`, `pointer/ref.rs:807-810`: `with_metadata` gets the offset as it is stored. -/
def ZRef.arrayIntoSlice (n : Nat) (r : ZRef) : Except ZErr ZRef := ZRef.withMetadata P O E r.offset (some n)

end

/-! ## Coercions -/

/-- The types in the tables of coercions. `int` is `u8` to `u128` and `i8` to `i128` with that many bytes. -/
inductive Elem where
  | int (signed : Bool) (bytes : Nat)
  | nonzero (signed : Bool) (bytes : Nat)
  | array (t : Elem) (n : Nat)
  | wrapping (t : Elem)
deriving DecidableEq, Repr

/-- What a reference may point to. -/
inductive Pointee where
  | sized (t : Elem)
  | slice (t : Elem)
  | str
deriving DecidableEq, Repr

/-- `{u8, i8}`, `{u16, i16}`, … -/
def both (bytes : Nat) : List Elem := [.int false bytes, .int true bytes]

/-- `[u8; 2], [i8; 2]` -/
def bothArrays (bytes n : Nat) : List Elem := [.array (.int false bytes) n, .array (.int true bytes) n]

/-- The groups of types which are coerced to: `pointer/coerce_slice.rs:121-127`, `pointer/coerce.rs:140-144`. -/
def group : Nat → List Elem
  | 1 => both 1
  | 2 => both 2 ++ bothArrays 1 2
  | 4 => both 4 ++ bothArrays 2 2 ++ bothArrays 1 4
  | 8 => both 8 ++ bothArrays 4 2 ++ bothArrays 2 4 ++ bothArrays 1 8
  | 16 => both 16 ++ bothArrays 8 2 ++ bothArrays 4 4 ++ bothArrays 2 8 ++ bothArrays 1 16
  | _ => []

/-- The invocations of `self_impl!` and `coerce_slice!`, `pointer/coerce_slice.rs:113-180`: the factor, and
from which integers to which group. -/
def sliceRows : List (Nat × Nat × Nat) :=
  [(1, 1, 1), (1, 2, 2), (1, 4, 4), (1, 8, 8), (1, 16, 16),
   (2, 2, 1), (2, 4, 2), (2, 8, 4), (2, 16, 8),
   (4, 4, 1), (4, 8, 2), (4, 16, 4),
   (8, 8, 1), (8, 16, 2),
   (16, 16, 1)]

/-- `CoerceSlice`: the factor of the coercion of `[T]` to `[U]`, if there is one. -/
def coerceSlice (t u : Elem) : Option Nat :=
  (sliceRows.find? fun row => (both row.2.1).contains t && (group row.2.2).contains u).map (·.1)

/-- `same_size!`, `pointer/coerce.rs:140-144`. -/
def sameSize (t u : Elem) : Bool :=
  [1, 2, 4, 8, 16].any fun n => (both n).contains t && (group n).contains u

/-- What happens to the metadata. -/
inductive Resize where
  /-- It is `()`. -/
  | keep
  /-- It is multiplied. -/
  | times (factor : Nat)
  /-- It was `()` and becomes a length, of `n` elements before the coercion. -/
  | count (n factor : Nat)
deriving DecidableEq, Repr

/-- The implementations of `Coerce` for sized types: `pointer/coerce.rs:140-144, 273-277, 296-311`. -/
def coerceSized : Elem → Elem → Bool
  | .int s n, u => sameSize (.int s n) u
  | .nonzero _ n, .int s m => (both n).contains (.int s m) && [1, 2, 4, 8, 16].contains n
  | .wrapping t, u => coerceSized t u
  | _, _ => false

/-- `Coerce`: `pointer/coerce.rs:22-37, 54-69, 84-99` for slices and strings, `178-193, 213-230` from values
and arrays to slices. -/
def coerceTo : Pointee → Pointee → Option Resize
  | .slice t, .slice u => (coerceSlice t u).map .times
  | .str, .slice u => (coerceSlice (.int false 1) u).map .times
  | .slice t, .str => (coerceSlice t (.int false 1)).map .times
  | .sized t, .sized u => if coerceSized t u then some .keep else none
  | .sized (.array t n), .slice u => (coerceSlice t u).map (.count n)
  | .sized t, .slice u => (coerceSlice t u).map (.count 1)
  | _, _ => none

section
variable (P : Platform) (O : SizeTy)

/-- `checked_mul` -/
def checkedMul (a b : Nat) : Option Nat := O.tryFrom P (a * b)

/-- `wrapping_mul` -/
def wrappingMul (a b : Nat) : Nat := a * b % 2 ^ (8 * O.bytes P)

/-- `coerce_metadata`. -/
def coerceMeta : Resize → Option Nat → Option Nat
  | .keep, m => m
  | .times f, m => m.map (wrappingMul P O · f)
  | .count n f, _ => some (wrappingMul P O ((O.tryFrom P n).getD (2 ^ (8 * O.bytes P) - 1)) f)

/-- `try_coerce_metadata`; the outer option is the result. -/
def tryCoerceMeta : Resize → Option Nat → Option (Option Nat)
  | .keep, m => some m
  | .times f, some m => (checkedMul P O m f).map some
  | .times _, none => some none
  | .count n f, _ => do
    let n ← O.tryFrom P n
    (checkedMul P O n f).map some

/-- `Ref::coerce`, `pointer/ref.rs:689-699`: the metadata is taken as it is stored. -/
def ZRef.coerce (c : Resize) (r : ZRef) : ZRef := ⟨r.offset, coerceMeta P O c r.len⟩

/-- `Ref::try_coerce`, `pointer/ref.rs:761-771`. -/
def ZRef.tryCoerce (c : Resize) (r : ZRef) : Option ZRef :=
  (tryCoerceMeta P O c r.len).map fun len => ⟨r.offset, len⟩

end
end Musli.Zero
