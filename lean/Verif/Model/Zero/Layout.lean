import Verif.Model.Zero.Search
import Verif.Model.Utf8
import Verif.Spec.ZeroLayout
/-!
# `ZeroCopy` of `musli-zerocopy`: validation, padding, loading and storing

The types and their layout (`size_of`, `align_of`) are in `Spec/ZeroLayout.lean`: they are the compiler's.
Paths are relative to `crates/musli-zerocopy/src`; `derive` is
`crates/musli-zerocopy-macros/src/zero_copy/mod.rs`.

Addresses are numbers. An access outside of the slice which a function has got is undefined (`ZErr.ub`).
-/
namespace Musli.Zero
open Musli

/-- `is_aligned_with`, `buf/mod.rs:214-216`, for an alignment which is a power of two. -/
def isAligned (addr lg : Nat) : Bool := addr &&& (2 ^ lg - 1) == 0

/-- `padding_to`, `buf/mod.rs:220-223`. -/
def paddingTo (len align : Nat) : Nat := (align - (len &&& (align - 1))) &&& (align - 1)

mutual
/-- `ANY_BITS`: `traits.rs:217, 788, 880, 919, 990, 1064, 1145, 1214`, derive 255, 563. -/
def ZTy.anyBits : ZTy → Bool
  | .num _ _ => true
  | .bool => false
  | .char => false
  | .nonzero _ _ => false
  | .zst => true
  | .array t _ => t.anyBits
  | .struct _ _ fs => fs.anyBits
  | .transparent t => t.anyBits
  | .wrapping t => t.anyBits
  | .enum _ _ _ _ => false

/-- `true #(&& <#types as ZeroCopy>::ANY_BITS)*`, without the ignored fields, derive 255. -/
def ZFields.anyBits : ZFields → Bool
  | .nil => true
  | .cons ignored t rest => (ignored || t.anyBits) && rest.anyBits
end

/-- `0 #(+ #field_sizes)*`, without the ignored fields, derive 225-241. -/
def ZFields.sum : ZFields → Nat
  | .nil => 0
  | .cons ignored t rest => (if ignored then 0 else t.size) + rest.sum

mutual
/-- `PADDED`: `traits.rs:218, 787, 881, 920, 991, 1065, 1146, 1215`, derive 238, 564. -/
def ZTy.padded : ZTy → Bool
  | .num _ _ => false
  | .bool => false
  | .char => false
  | .nonzero _ _ => false
  | .zst => false
  | .array t _ => t.padded
  | .struct packed align fs => decide ((ZTy.struct packed align fs).size > fs.sum) || fs.padded
  | .transparent t => decide (t.size > t.size + 0) || (t.padded || false)
  | .wrapping t => t.padded
  | .enum tagSize tagLg align vs => vs.padded tagSize (ZTy.enum tagSize tagLg align vs).size

/-- `#(|| #field_padded)*`, derive 238. -/
def ZFields.padded : ZFields → Bool
  | .nil => false
  | .cons ignored t rest => (!ignored && t.padded) || rest.padded

/-- `false #(|| #padded_variants)*`, derive 416, 564. -/
def ZVariants.padded : ZVariants → (tagSize size : Nat) → Bool
  | .nil, _, _ => false
  | .cons _ fs rest, tagSize, size =>
    (decide (size > tagSize + fs.sum) || fs.padded) || rest.padded tagSize size
end

/-! ## Validation -/

/-- Read some bytes of a slice through a raw pointer. -/
def readRaw (bs : Bytes) (off n : Nat) : Except ZErr Bytes :=
  if off + n ≤ bs.length then .ok ((bs.drop off).take n) else .error .ub

/-- `Validator::align_with`, `buf/validator.rs:264-267`. It aligns the address, not the offset; `base` is
the address of the slice. -/
def alignWith (base off lg : Nat) : Nat := off + (roundUp (base + off) lg - (base + off))

/-- `char::try_from(u32)`. -/
def charTry (n : Nat) : Bool := n < 0xD800 || (0xDFFF < n && n < 0x110000)

/-- The native integer in some bytes. -/
def native [Host] (bs : Bytes) : Nat := Grammar.fixed Host.order bs

/-- Repeat `validate_only`, `traits.rs:734-736, 1226-1232`, `buf/validator.rs:251-260`. -/
def validateMany (f : Nat → Except ZErr Unit) (size : Nat) : Nat → Nat → Except ZErr Unit
  | 0, _ => .ok ()
  | n + 1, off => do
    f off
    validateMany f size n (off + size)

section
variable [Host] (base : Nat) (bs : Bytes)

mutual
/-- `ZeroCopy::validate` at an offset in the slice. -/
def validate : ZTy → Nat → Except ZErr Unit
  -- `traits.rs:793-796, 1069-1072`
  | .num _ _, _ => .ok ()
  -- `traits.rs:926-933`
  | .bool, off => do
    let b ← readRaw bs off 1
    if b = [0#8] ∨ b = [1#8] then .ok () else .error .illegal
  -- `traits.rs:887-895`
  | .char, off => do
    let b ← readRaw bs off 4
    if charTry (native b) then .ok () else .error .illegal
  -- `traits.rs:995-1004`
  | .nonzero size _, off => do
    let b ← readRaw bs off size
    if native b = 0 then .error .illegal else .ok ()
  -- `traits.rs:1150-1153`
  | .zst, _ => .ok ()
  -- `traits.rs:1227-1234`
  | .array t n, off => validateMany (validate t) t.size n off
  -- derive 186-209
  | .struct packed _ fs, off => validateFields fs packed off
  -- derive 163-165
  | .transparent t, off => validate t off
  -- `traits.rs:223-226`
  | .wrapping t, off => validate t (alignWith base off t.lg)
  -- derive 545-554, `buf/validator.rs:92-105`
  | .enum tagSize tagLg _ vs, off => do
    let off := alignWith base off tagLg
    let tag ← readRaw bs off tagSize
    validateVariants vs tag (off + tagSize)

/-- The fields which are not ignored one after the other: `validate` or `validate_with`, derive 186-209,
`buf/validator.rs:182-187, 232-240`. -/
def validateFields : ZFields → Option Nat → Nat → Except ZErr Unit
  | .nil, _, _ => .ok ()
  | .cons true _ rest, packed, off => validateFields rest packed off
  | .cons false t rest, packed, off => do
    let off := alignWith base off (packed.getD t.lg)
    validate t off
    validateFields rest packed (off + t.size)

/-- The `match` over the discriminants, derive 375-379, 550-553. -/
def validateVariants : ZVariants → Bytes → Nat → Except ZErr Unit
  | .nil, _, _ => .error .illegal
  | .cons tag fs rest, tag', off =>
    if tag' = tag then validateFields fs none off else validateVariants rest tag' off
end

end

/-! ## Padding -/

/-- `write_bytes(0, n)` of some bytes through a raw pointer. -/
def zeroRaw (m : Memory) (off n : Nat) : Except ZErr Memory :=
  if off + n ≤ m.length then .ok (m.take off ++ (List.replicate n (some 0#8) ++ m.drop (off + n)))
  else .error .ub

/-- Read some bytes through a raw pointer, which have to be initialised. -/
def readInit (m : Memory) (off n : Nat) : Except ZErr Bytes :=
  if off + n ≤ m.length then
    match ((m.drop off).take n).mapM id with
    | some bs => .ok bs
    | none => .error .ub
  else .error .ub

/-- `Padder::remaining`, `buf/padder.rs:140-146`. If the offset is past the end, the subtraction wraps
around. -/
def remaining (m : Memory) (start offset size : Nat) : Except ZErr Memory :=
  if offset ≤ size then zeroRaw m (start + offset) (size - offset) else .error .ub

/-- `Padder::pad_with`, `buf/padder.rs:79-96`, for a field with that `PADDED`, `pad` and size. The offset is
relative to `start`. -/
def padWith (padded : Bool) (pad : Memory → Nat → Except ZErr (Memory × Nat)) (size align : Nat)
    (m : Memory) (start offset : Nat) : Except ZErr (Memory × Nat) := do
  let count := paddingTo offset align
  let m ← zeroRaw m (start + offset) count
  let offset := offset + count
  if padded then
    let (m, inner) ← pad m (start + offset)
    let m ← remaining m (start + offset) inner size
    .ok (m, offset + size)
  else .ok (m, offset + size)

/-- Repeat it, `traits.rs:694-698, 1219-1223`. -/
def padMany (f : Memory → Nat → Except ZErr (Memory × Nat)) : Nat → Memory → Nat → Except ZErr (Memory × Nat)
  | 0, m, offset => .ok (m, offset)
  | n + 1, m, offset => do
    let (m, offset) ← f m offset
    padMany f n m offset

mutual
/-- `ZeroCopy::pad` with a new `Padder` at `start`; the second result is the padder's offset. -/
def pad : ZTy → Memory → (start : Nat) → Except ZErr (Memory × Nat)
  -- `traits.rs:1219-1224`
  | .array t n, m, start => padMany (fun m offset => padWith t.padded (pad t) t.size (2 ^ t.lg) m start offset) n m 0
  -- derive 178-200
  | .struct packed _ fs, m, start => padFields fs packed m start 0
  -- derive 159-161
  | .transparent t, m, start => pad t m start
  -- `traits.rs:218-220`
  | .wrapping t, m, start => padWith t.padded (pad t) t.size (2 ^ t.lg) m start 0
  -- derive 535-543, `buf/padder.rs:107-118`
  | .enum tagSize tagLg _ vs, m, start => do
    let count := paddingTo 0 (2 ^ tagLg)
    let m ← zeroRaw m start count
    let tag ← readInit m (start + count) tagSize
    padVariants vs tag m start (count + tagSize)
  -- `traits.rs:791, 884, 923, 993, 1067, 1148`: nothing
  | _, m, _ => .ok (m, 0)

/-- `pad` or `pad_with` of the fields which are not ignored, derive 178-200. -/
def padFields : ZFields → Option Nat → Memory → (start offset : Nat) → Except ZErr (Memory × Nat)
  | .nil, _, m, _, offset => .ok (m, offset)
  | .cons true _ rest, packed, m, start, offset => padFields rest packed m start offset
  | .cons false t rest, packed, m, start, offset => do
    let (m, offset) ← padWith t.padded (pad t) t.size (2 ^ packed.getD t.lg) m start offset
    padFields rest packed m start offset

/-- The `match` over the discriminants, derive 385-389, 540-542; `unknown_discriminant` is unreachable, and
so undefined. -/
def padVariants : ZVariants → Bytes → Memory → (start offset : Nat) → Except ZErr (Memory × Nat)
  | .nil, _, _, _, _ => .error .ub
  | .cons tag fs rest, tag', m, start, offset =>
    if tag' = tag then padFields fs none m start offset else padVariants rest tag' m start offset
end

/-- `store_unaligned`, `buf/mod.rs:237-249`, into memory of the size of the type. `value` is the memory of
the value. -/
def storeUnaligned (t : ZTy) (value : Memory) : Except ZErr Memory :=
  if t.padded then do
    let (m, offset) ← pad t value 0
    remaining m 0 offset t.size
  else .ok value

/-! ## Loading -/

section
variable [Host]

/-- `Buf::load_sized`, `buf/buf.rs:749-770`, and `load_sized_mut`, `buf/buf.rs:874-895`, which
`load_at`, and `load` of a reference, call: the bytes of the value which is returned. `base` is the address of
the buffer. The sum is checked for overflow in debug builds; otherwise the range is reversed. -/
def loadSized (base : Nat) (buf : Bytes) (t : ZTy) (offset : Nat) : Except ZErr Bytes :=
  if offset + t.size ≥ 2 ^ 64 then .error .panic
  else if offset + t.size ≤ buf.length then
    let s := (buf.drop offset).take t.size
    if isAligned (base + offset) t.lg then
      if t.anyBits then .ok s
      else
        match validate (base + offset) s t 0 with
        | .ok () => .ok s
        | .error e => .error e
    else .error .alignment
  else .error .bounds

/-- `Buf::load_sized_unaligned`, `buf/buf.rs:899-920`. -/
def loadUnaligned (base : Nat) (buf : Bytes) (t : ZTy) (offset : Nat) : Except ZErr Bytes :=
  if offset + t.size ≥ 2 ^ 64 then .error .panic
  else if offset + t.size ≤ buf.length then
    let s := (buf.drop offset).take t.size
    if t.anyBits then .ok s
    else
      match validate (base + offset) s t 0 with
      | .ok () => .ok s
      | .error e => .error e
  else .error .bounds

/-- `Buf::load_unsized`, `buf/buf.rs:706-722`, of a slice, `traits.rs:706-740`, with `get_range_from`,
`buf/buf.rs:571-594`. -/
def loadSlice (base : Nat) (buf : Bytes) (t : ZTy) (start len : Nat) : Except ZErr Bytes :=
  if buf.length < start then .error .bounds
  else if isAligned (base + start) t.lg then
    if len * t.size ≥ 2 ^ 64 then .error .overflow
    else if len * t.size > buf.length - start then .error .bounds
    else
      if t.anyBits then .ok ((buf.drop start).take (len * t.size))
      else
        match validateMany (validate base buf t) t.size len start with
        | .ok () => .ok ((buf.drop start).take (len * t.size))
        | .error e => .error e
  else .error .alignment

/-- `Buf::load_unsized` of a string, `traits.rs:645-666`. -/
def loadStr (buf : Bytes) (start len : Nat) : Except ZErr Bytes :=
  if buf.length < start then .error .bounds
  else if len > buf.length - start then .error .bounds
  else if Utf8.valid ((buf.drop start).take len) then .ok ((buf.drop start).take len) else .error .illegal

end
end Musli.Zero
