import Verif.Model.Zero.Ref
/-!
# Packed slices, `musli-zerocopy/src/slice/packed.rs`

Paths are relative to `crates/musli-zerocopy/src`. As in `Model/Zero/Ref.lean` integers are numbers, and sums and
products of `usize` are checked for overflow.
-/
namespace Musli.Zero
open Musli

/-- `Packed<[T], O, L, E>`, `slice/packed.rs:34-48`: its fields as they are stored. -/
structure PSlice where
  offset : Nat
  len : Nat
deriving DecidableEq, Repr

/-- The bytes of this `repr(C, packed)` struct, `slice/packed.rs:36`: its fields without padding. -/
def PSlice.mem (P : Platform) (O L : SizeTy) (s : PSlice) : Bytes :=
  nativeBytes P (O.bytes P) s.offset ++ nativeBytes P (L.bytes P) s.len

section
variable (P : Platform) (O L : SizeTy) (E : ByteOrder)

/-- `from_raw_parts`, `slice/packed.rs:137-155`; also `from_ref`, `slice/packed.rs:122-129`, and
`with_metadata`, `slice/packed.rs:79-81`. -/
def PSlice.fromRawParts (offset len : Nat) : Except ZErr PSlice :=
  match O.tryFrom P offset with
  | none => .error .panic
  | some offset =>
    match L.tryFrom P len with
    | none => .error .panic
    | some len => .ok ⟨O.swapBytes P E offset, L.swapBytes P E len⟩

/-- `try_from_raw_parts`, `slice/packed.rs:175-200`; `none` is an error. -/
def PSlice.tryFromRawParts (offset len : Nat) : Option PSlice :=
  match O.tryFrom P offset with
  | none => none
  | some offset =>
    match L.tryFrom P len with
    | none => none
    | some len => some ⟨O.swapBytes P E offset, L.swapBytes P E len⟩

/-- `offset`, `slice/packed.rs:318-320`. -/
def PSlice.offsetOf (s : PSlice) : Nat := O.asUsize P E s.offset

/-- `len`, `slice/packed.rs:333-335`. -/
def PSlice.lenOf (s : PSlice) : Nat := L.asUsize P E s.len

/-- `is_empty`, `slice/packed.rs:351-353`. -/
def PSlice.isEmpty (s : PSlice) : Bool := s.len == 0

/-- `get_unchecked`, `slice/packed.rs:303-306`, for elements of a size: the result is a `Ref<T, E, usize>`. -/
def PSlice.getUnchecked (size : Nat) (s : PSlice) (index : Nat) : Except ZErr ZRef := do
  let skip ← usizeCheck P (size * index)
  let offset ← usizeCheck P (O.asUsize P E s.offset + skip)
  ZRef.new P .usize E offset

/-- `get`, `slice/packed.rs:224-230`. -/
def PSlice.get (size : Nat) (s : PSlice) (index : Nat) : Except ZErr (Option ZRef) :=
  if index ≥ s.lenOf P L E then .ok none
  else
    match s.getUnchecked P O E size index with
    | .error e => .error e
    | .ok r => .ok (some r)

/-- `split_at`, `slice/packed.rs:259-266`. -/
def PSlice.splitAt (size : Nat) (s : PSlice) (at_ : Nat) : Except ZErr (PSlice × PSlice) := do
  let offset := O.asUsize P E s.offset
  let len := L.asUsize P E s.len
  if at_ ≤ len then
    let a ← PSlice.fromRawParts P O L E offset at_
    let skip ← usizeCheck P (at_ * size)
    let start ← usizeCheck P (offset + skip)
    let b ← PSlice.fromRawParts P O L E start (len - at_)
    .ok (a, b)
  else .error .panic

/-- `Load::load`, `slice/packed.rs:366-371`. -/
def PSlice.load [Host] (base : Nat) (buf : Bytes) (t : ZTy) (s : PSlice) : Except ZErr Bytes :=
  match ZRef.withMetadata P .usize P.order (O.asUsize P E s.offset) (some (L.asUsize P E s.len)) with
  | .error e => .error e
  | .ok r => loadSlice base buf t (r.offsetOf P .usize P.order) ((r.lenOf P .usize P.order).getD 0)

end
end Musli.Zero
