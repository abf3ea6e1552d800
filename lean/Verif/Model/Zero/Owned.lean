import Verif.Model.Zero.Layout
/-!
# `OwnedBuf` and `SliceMut`, `buf/owned_buf.rs` and `buf/slice_mut.rs`

Paths are relative to `crates/musli-zerocopy/src`. Alignments are exponents. A buffer has the memory which
has been written (`data`); the rest of its capacity cannot be observed. The address of new allocations is
chosen by the allocator (`Env.place`); it never fails.

The two kinds of buffers have the same functions with the same contents, except for `ensure_capacity` and
`align_in_place`.
-/
namespace Musli.Zero
open Musli

/-- An allocation: its address, size and alignment. -/
structure Block where
  addr : Nat
  size : Nat
  lg : Nat
deriving DecidableEq, Repr

/-- What a buffer depends on. -/
structure Env where
  /-- The address of the `n`-th allocation, which has this size and alignment. -/
  place : (n size lg : Nat) → Nat
  /-- `(capacity as f32 * 1.5) as usize`, `owned_buf.rs:1058`: any function. -/
  grow : Nat → Nat
  /-- Offsets have a type with these many values, e.g. 2³². -/
  limit : Nat

/-- `OwnedBuf`, `owned_buf.rs:39-55`, and `SliceMut`, `slice_mut.rs:37-52` (which has no `align`), and
the allocator's state. -/
structure Owned where
  /-- A `SliceMut`, which is on top of a slice. -/
  fixed : Bool
  /-- `data` as a pointer. -/
  addr : Nat
  /-- The bytes up to `len`. -/
  data : Memory
  capacity : Nat
  requested : Nat
  align : Nat
  /-- The blocks which are allocated. -/
  live : List Block
  /-- The number of allocations so far. -/
  count : Nat

/-- `len`, `owned_buf.rs:285-287`, `slice_mut.rs:170-172`. -/
def Owned.len (b : Owned) : Nat := b.data.length

/-- The largest size of an allocation, rounded up to its alignment, `Layout::from_size_align`. -/
def layoutOk (size lg : Nat) : Bool := roundUp size lg < 2 ^ 63

section
variable (env : Env)

/-- `alloc::alloc`: the size must not be zero. The address is that of the new block. -/
def allocBlock (b : Owned) (size lg : Nat) : Except ZErr (Nat × Owned) :=
  if size = 0 then .error .ub
  else
    let addr := env.place b.count size lg
    .ok (addr, { b with live := ⟨addr, size, lg⟩ :: b.live, count := b.count + 1 })

/-- `alloc::dealloc`: there must be a block with this address and layout. -/
def deallocBlock (b : Owned) (addr size lg : Nat) : Except ZErr Owned :=
  if ⟨addr, size, lg⟩ ∈ b.live then .ok { b with live := b.live.erase ⟨addr, size, lg⟩ } else .error .ub

/-- `with_capacity_and_custom_alignment`, `owned_buf.rs:240-272`, and with a capacity of zero also
`with_alignment`, `owned_buf.rs:129-141`. -/
def Owned.new (capacity lg : Nat) : Except ZErr Owned :=
  let b : Owned := ⟨false, 2 ^ lg, [], 0, lg, lg, [], 0⟩
  if capacity = 0 then .ok b
  else if layoutOk capacity lg then do
    let (addr, b) ← allocBlock env b capacity lg
    .ok { b with addr := addr, capacity := capacity }
  else .error .panic

/-- `SliceMut::with_alignment`, `slice_mut.rs:87-98`, on top of a slice at an address. -/
def Owned.slice (addr capacity lg : Nat) : Owned := ⟨true, addr, [], capacity, lg, lg, [], 0⟩

/-- `alloc_init`, `owned_buf.rs:1084-1096`. -/
def allocInit (b : Owned) (size : Nat) : Except ZErr Owned := do
  let (addr, b) ← allocBlock env b size b.requested
  .ok { b with addr := addr, capacity := size, align := b.requested }

/-- `alloc_realloc`, `owned_buf.rs:1100-1115`. The contents are preserved by the allocator. -/
def allocRealloc (b : Owned) (size : Nat) : Except ZErr Owned := do
  let (addr, b') ← allocBlock env b size b.align
  let b' ← deallocBlock b' b.addr b.capacity b.align
  .ok { b' with addr := addr, capacity := size }

/-- `alloc_new`, `owned_buf.rs:1119-1135`. -/
def allocNew (b : Owned) (size : Nat) : Except ZErr Owned := do
  let (addr, b') ← allocBlock env b size b.requested
  if b.len ≤ size then
    let b' ← deallocBlock b' b.addr b.capacity b.align
    .ok { b' with addr := addr, capacity := size, align := b.requested }
  else .error .ub

/-- `ensure_capacity`, `owned_buf.rs:1051-1068`, with `layouts`, `owned_buf.rs:1073-1081`;
`slice_mut.rs:889-898`. -/
def ensureCapacity (b : Owned) (capacity : Nat) : Except ZErr Owned :=
  let capacity := max capacity (2 ^ b.requested)
  if b.capacity ≥ capacity then .ok b
  else if b.fixed then .error .panic
  else
    let capacity := max capacity (env.grow b.capacity)
    if layoutOk capacity b.requested then
      if b.capacity = 0 then allocInit env b capacity
      else if b.requested = b.align then allocRealloc env b capacity
      else allocNew env b capacity
    else .error .panic

/-- `reserve`, `owned_buf.rs:373-376`, `slice_mut.rs:260-263`. The sum is checked in debug builds. -/
def reserve (b : Owned) (n : Nat) : Except ZErr Owned :=
  if b.len + n ≥ 2 ^ 64 then .error .panic else ensureCapacity env b (b.len + n)

/-- Write behind the end and advance: `store_bytes`, `owned_buf.rs:869-876`, and the likes of it. -/
def append (b : Owned) (m : Memory) : Except ZErr Owned :=
  if b.len + m.length ≤ b.capacity then .ok { b with data := b.data ++ m } else .error .ub

/-- `ensure_aligned_and_reserve`, `owned_buf.rs:994-1003`, `slice_mut.rs:834-843`. -/
def ensureAligned (b : Owned) (lg n : Nat) : Except ZErr Owned := do
  let extra := paddingTo b.len (2 ^ lg)
  let b ← reserve env b (extra + n)
  append b (List.replicate extra (some 0#8))

/-- `next_offset_with_and_reserve`, `owned_buf.rs:1008-1011`, `slice_mut.rs:848-851`; and `request_align`,
`owned_buf.rs:984-990`. -/
def nextOffset (b : Owned) (lg n : Nat) : Except ZErr Owned :=
  ensureAligned env { b with requested := max b.requested lg } lg n

/-- `Ref::new`, `pointer/ref.rs:610-631`, and `Ref::with_metadata`, `pointer/ref.rs:186-211`, panic if a
number is too large. -/
def newRef (n : Nat) : Except ZErr Unit := if n < env.limit then .ok () else .error .panic

/-- `store`, `owned_buf.rs:638-647`, with `store_unchecked`, `owned_buf.rs:701-710`;
`slice_mut.rs:531-540, 596-606`. The result is the offset. -/
def store (b : Owned) (t : ZTy) (m : Memory) : Except ZErr (Owned × Nat) := do
  let b ← nextOffset env b t.lg t.size
  let bytes ← storeUnaligned t m
  let offset := b.len
  let b ← append b bytes
  newRef env offset
  .ok (b, offset)

/-- `store_unsized` of a slice, `owned_buf.rs:729-749`, `slice_mut.rs:655-675`; the padder is used as for an
array, `traits.rs:694-698`. -/
def storeSlice (b : Owned) (t : ZTy) (ms : List Memory) : Except ZErr (Owned × Nat) := do
  let b ← nextOffset env b t.lg (ms.length * t.size)
  let bytes ← storeUnaligned (.array t ms.length) ms.flatten
  let offset := b.len
  let b ← append b bytes
  newRef env offset
  newRef env ms.length
  .ok (b, offset)

/-- `store_unsized` of a string, which has an alignment of 1 and no padding, `traits.rs:620-641`. -/
def storeStr (b : Owned) (s : Bytes) : Except ZErr (Owned × Nat) := do
  let b ← nextOffset env b 0 s.length
  let offset := b.len
  let b ← append b (s.map some)
  newRef env offset
  newRef env s.length
  .ok (b, offset)

/-- `store_uninit`, `owned_buf.rs:484-499`, `slice_mut.rs:367`: zeros. -/
def storeUninit (b : Owned) (t : ZTy) : Except ZErr Owned := do
  let b ← nextOffset env b t.lg t.size
  let offset := b.len
  let b ← append b (List.replicate t.size (some 0#8))
  newRef env offset
  .ok b

/-- `extend_from_slice`, `owned_buf.rs:841-848`; and `fill`, `owned_buf.rs:851-859`. -/
def extend (b : Owned) (s : Bytes) : Except ZErr Owned := do
  let b ← reserve env b s.length
  append b (s.map some)

/-- `align_in_place`, `owned_buf.rs:920-926`; `slice_mut.rs:1046-1051`. -/
def alignInPlace (b : Owned) : Except ZErr Owned :=
  if isAligned b.addr b.requested then .ok b
  else if b.fixed then .error .panic
  else if layoutOk b.capacity b.requested then allocNew env b b.capacity
  else .error .panic

/-- `drop`, `owned_buf.rs:1283-1292`. -/
def dropBuf (b : Owned) : Except ZErr Owned :=
  if b.fixed = true ∨ b.capacity = 0 then .ok b else deallocBlock b b.addr b.capacity b.align

/-- `clone`, `owned_buf.rs:1263-1275`, after which the original is dropped and the copy takes its place. (A
`SliceMut` cannot be cloned.) -/
def cloneBuf (b : Owned) : Except ZErr Owned :=
  if b.fixed then .ok b
  else if b.len = 0 then do
    let b' ← dropBuf b
    .ok { b' with addr := 2 ^ b.align, capacity := 0, data := [] }
  else if layoutOk b.len b.align then do
    let (addr, b') ← allocBlock env b b.len b.align
    let b' ← dropBuf b'
    .ok { b' with addr := addr, capacity := b.len }
  else .error .panic

/-- `clear`, `owned_buf.rs:308-310`, and `truncate`, `owned_buf.rs:1324-1328`. -/
def truncate (b : Owned) (n : Nat) : Owned := { b with data := b.data.take n }

end

end Musli.Zero
