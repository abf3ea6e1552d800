import Verif.Basic
/-!
# The slice allocator

`crates/musli/src/alloc/slice.rs`, and `crates/musli-core/src/alloc/vec.rs`, which is how
it is used. Addresses are natural numbers, a header has 24 bytes (64 bit hosts).

Headers live in the buffer, growing downwards from its end; here they are a separate map
from ids to headers, and `freeEnd` says how far they reach. So when a region overlaps a header, the
model shows the overlap, but not the corruption which follows from it.

The functions take a parameter `fix`. The code is `fix = false`. With `fix = true` three
defects are corrected, each of which is marked by a comment at the place where `fix` is
used:

1. `alloc_header` drops the rest of the free list and leaves a stale `next` in the header
2. `alloc_header` does not check that the region does not overlap the new header
3. `try_merge` takes the next region to be the region of the other buffer, if only their
   addresses coincide
-/
namespace Musli.Slice
open Musli

/-- `size_of::<Header>()`: two pointers and two `u16`, `slice.rs:865-874`. -/
def headerSize : Nat := 24
/-- `align_of::<Header>()`. -/
def headerAlign : Nat := 8
/-- `MAX_BYTES`, `slice.rs:15`. -/
def maxBytes : Nat := 2 ^ 31 - 1

/-- `Header`, `slice.rs:867-874`. -/
structure Header where
  start : Nat
  stop : Nat
  prev : Option Nat
  next : Option Nat
deriving DecidableEq

/-- `Header::capacity`, `slice.rs:878-881`. -/
def Header.capacity (h : Header) : Nat := h.stop - h.start

/-- `<*const u8>::align_offset`. -/
def alignOffset (p a : Nat) : Nat := (a - p % a) % a

/-- `Header::is_aligned`, `slice.rs:885-887`. -/
def Header.isAligned (h : Header) (a : Nat) : Bool := alignOffset h.start a == 0

/-- `Internal`, `slice.rs:521-532`, with the headers and the memory it points to. -/
structure Internal where
  freeHead : Option Nat
  tail : Option Nat
  occupied : Option Nat
  fullStart : Nat
  fullEnd : Nat
  freeStart : Nat
  freeEnd : Nat
  /-- the headers, by id -/
  hdr : Nat → Header
  /-- the bytes of the buffer, by address -/
  mem : Nat → Byte

/-- Write through `header_mut`, `slice.rs:573-575`. -/
def Internal.modify (s : Internal) (id : Nat) (f : Header → Header) : Internal :=
  { s with hdr := fun k => if k = id then f (s.hdr k) else s.hdr k }

/-- `ptr::copy` of `len` bytes. -/
def copy (mem : Nat → Byte) (src dst len : Nat) : Nat → Byte := fun a =>
  if dst ≤ a ∧ a < dst + len then mem (src + (a - dst)) else mem a

/-- Write bytes at an address. -/
def store (mem : Nat → Byte) (at_ : Nat) (b : Bytes) : Nat → Byte := fun a =>
  if at_ ≤ a ∧ a < at_ + b.length then b.getD (a - at_) 0#8 else mem a

/-- `Slice::new` for a buffer at an address, `slice.rs:131-175`. -/
def Internal.new (base size : Nat) (mem : Nat → Byte) : Internal :=
  let stop := base + size
  let align := alignOffset stop headerAlign
  let stop := if align ≠ 0 then
      if headerAlign - align ≤ size then stop - (headerAlign - align) else base
    else stop
  { freeHead := none, tail := none, occupied := none, fullStart := base, fullEnd := stop,
    freeStart := base, freeEnd := stop, hdr := fun _ => ⟨base, base, none, none⟩, mem := mem }

/-- `remaining`, `slice.rs:558-561`. A negative difference is a huge `usize`. -/
def Internal.remaining (s : Internal) : Nat :=
  if s.freeStart ≤ s.freeEnd then s.freeEnd - s.freeStart
  else 2 ^ 64 - (s.freeStart - s.freeEnd)

/-- `unlink`, `slice.rs:586-596`. -/
def Internal.unlink (s : Internal) (h : Header) : Internal :=
  let s := match h.next with
    | some next => s.modify next (fun x => { x with prev := h.prev })
    | none => { s with tail := h.prev }
  match h.prev with
  | some prev => s.modify prev (fun x => { x with next := h.next })
  | none => s

/-- `push_back`, `slice.rs:613-618`. -/
def Internal.pushBack (s : Internal) (id : Nat) : Internal :=
  match s.tail with
  | some tail =>
    ({ s with tail := some id }.modify id (fun x => { x with prev := some tail })).modify tail
      (fun x => { x with next := some id })
  | none => { s with tail := some id }

/-- `replace_back`, `slice.rs:598-611`. -/
def Internal.replaceBack (s : Internal) (id : Nat) : Internal :=
  let prev := (s.hdr id).prev
  let next := (s.hdr id).next
  let s := s.modify id (fun x => { x with prev := none, next := none })
  let s := match prev with
    | some prev => s.modify prev (fun x => { x with next := next })
    | none => s
  let s := match next with
    | some next => s.modify next (fun x => { x with prev := prev })
    | none => s
  s.pushBack id

/-- `free_region`: returns the header that was freed, `slice.rs:621-629`. -/
def Internal.freeRegion (s : Internal) (id : Nat) : Header × Internal :=
  let s := s.unlink (s.hdr id)
  (s.hdr id,
    { s.modify id (fun _ => ⟨s.fullStart, s.fullStart, none, s.freeHead⟩) with freeHead := some id })

/-- `alloc_header`, `slice.rs:636-669`. -/
def Internal.allocHeader (fix : Bool) (s : Internal) (stop : Nat) : Option Nat × Internal :=
  match s.freeHead with
  | some id =>
    /- defect 1 -/
    let rest := if fix then (s.hdr id).next else none
    let s := s.modify id (fun x => { x with
      start := s.freeStart, stop := stop, next := if fix then none else x.next })
    (some id, { s with freeHead := rest })
  | none =>
    if s.freeEnd < headerSize then (none, s)
    else
      let ptr := s.freeEnd - headerSize
      /- defect 2 -/
      if ptr < s.freeStart || (fix && ptr < stop) then (none, s)
      else
        let id := (s.fullEnd - ptr) / headerSize
        if id = 0 ∨ 2 ^ 16 ≤ id then (none, s)
        else
          (some id, { s.modify id (fun _ => ⟨s.freeStart, stop, none, none⟩) with freeEnd := ptr })

/-- `align`, `slice.rs:707-734`. `false` is `None`. -/
def Internal.align (fix : Bool) (s : Internal) (align : Nat) : Bool × Internal :=
  let align := alignOffset s.freeStart align
  if align = 0 then (true, s)
  else if s.remaining < align then (false, s)
  else
    let aligned := s.freeStart + align
    match s.tail with
    | some tail =>
      (true, { s.modify tail (fun x => { x with stop := aligned }) with freeStart := aligned })
    | none =>
      match s.allocHeader fix aligned with
      | (none, s) => (false, s)
      | (some id, s) => (true, { s.pushBack id with freeStart := aligned })

/-- `alloc` with no occupied region to reuse, `slice.rs:686-698`. -/
def Internal.allocNew (fix : Bool) (s : Internal) (requested align : Nat) : Option Nat × Internal :=
  match s.align fix align with
  | (false, s) => (none, s)
  | (true, s) =>
    if s.remaining < requested then (none, s)
    else
      let stop := s.freeStart + requested
      match s.allocHeader fix stop with
      | (none, s) => (none, s)
      | (some id, s) => (some id, { s with freeStart := stop }.pushBack id)

/-- `alloc`, `slice.rs:676-700`. -/
def Internal.alloc (fix : Bool) (s : Internal) (requested align : Nat) : Option Nat × Internal :=
  match s.occupied with
  | some id =>
    if requested ≤ (s.hdr id).capacity && (s.hdr id).isAligned align then
      (some id, { s with occupied := none })
    else s.allocNew fix requested align
  | none => s.allocNew fix requested align

/-- `free_tail`, `slice.rs:770-785`. -/
def Internal.freeTail (s : Internal) (id : Nat) : Internal :=
  let (current, s) := s.freeRegion id
  match current.prev with
  | some prev =>
    if s.occupied = some prev then
      let (h, s) := { s with occupied := none }.freeRegion prev
      { s with freeStart := h.start }
    else { s with freeStart := current.start }
  | none => { s with freeStart := current.start }

/-- `free`, `slice.rs:736-767`. -/
def Internal.free (s : Internal) (id : Nat) : Internal :=
  match (s.hdr id).next with
  | none => s.freeTail id
  | some _ =>
    match (s.hdr id).prev with
    | none => { s with occupied := some id }
    | some prev =>
      let (h, s) := s.freeRegion id
      let s := s.modify prev (fun x => { x with stop := h.stop })
      match h.next with
      | none => { s with freeStart := h.start }
      | some _ => s

/-- `reserve`, `slice.rs:787-797`. -/
def Internal.reserve (fix : Bool) (s : Internal) (additional align : Nat) : Option Nat × Internal :=
  match s.align fix align with
  | (false, s) => (none, s)
  | (true, s) =>
    let freeStart := s.freeStart + additional
    if s.freeEnd < freeStart then (none, s) else (some freeStart, s)

/-- `realloc`, the last two cases: move to the previous region if it is occupied and there is enough
space, or else to a new one, `slice.rs:828-861`. -/
def Internal.move (fix : Bool) (s : Internal) (id len requested align : Nat) : Option Nat × Internal :=
  let new :=
    match s.alloc fix requested align with
    | (none, s) => (none, s)
    | (some to, s) =>
      let s := { s with mem := copy s.mem (s.hdr id).start (s.hdr to).start len }
      (some to, s.free id)
  match (s.hdr id).prev with
  | none => new
  | some prev =>
    if s.occupied ≠ some prev then new
    else if (s.hdr prev).capacity + (s.hdr id).capacity < requested then new
    else if !(s.hdr prev).isAligned align then new
    else
      let (h, s) := s.freeRegion id
      let s := { s with mem := copy s.mem h.start (s.hdr prev).start len }
      (some prev, { s.modify prev (fun x => { x with stop := h.stop }) with occupied := none })

/-- `realloc`, `slice.rs:799-862`. -/
def Internal.realloc (fix : Bool) (s : Internal) (id len requested align : Nat) :
    Option Nat × Internal :=
  match (s.hdr id).next with
  | none =>
    let additional := requested - (s.hdr id).capacity
    match s.reserve fix additional align with
    | (none, s) => (none, s)
    | (some freeStart, s) =>
      (some id, { s with freeStart := freeStart }.modify id
        (fun x => { x with stop := x.stop + additional }))
  | some _ =>
    if (s.hdr id).start = (s.hdr id).stop then
      match s.reserve fix requested align with
      | (none, s) => (none, s)
      | (some freeStart, s) =>
        let start := s.freeStart
        let s := { s with freeStart := freeStart }.modify id
          (fun x => { x with start := start, stop := freeStart })
        (some id, s.replaceBack id)
    else s.move fix id len requested align

/-! ## Buffers -/

/-- A `Vec<T, &Slice>`: the `SliceAlloc`, `slice.rs:241-248`, the length, and `size_of::<T>()` and
`align_of::<T>()`. Types of size zero never use the allocator and are not modelled. A `Box` is
a buffer with one element. -/
structure Buf where
  region : Option Nat
  cap : Nat
  len : Nat
  size : Nat
  align : Nat
deriving DecidableEq

/-- Which buffers exist; those which do not, do not. -/
structure State where
  i : Internal
  bufs : Nat → Option Buf

/-- Replace a buffer. -/
def State.set (s : State) (h : Nat) (b : Option Buf) : State :=
  { s with bufs := fun k => if k = h then b else s.bufs k }

/-- `SliceAlloc::resize`, `slice.rs:315-377`. Sums and products of `usize` are natural
numbers here: those which are too large fail because of `MAX_BYTES`; except that `len + additional`
can wrap in `Vec::reserve`, which then reserves nothing and returns `Ok`. -/
def State.resize (fix : Bool) (s : State) (h : Nat) (b : Buf) (additional : Nat) : Bool × State :=
  if b.len + additional ≤ b.cap then (true, s)
  else match b.region with
    | none => (false, s)
    | some id =>
      let requested := b.len * b.size + additional * b.size
      if maxBytes < requested then (false, s)
      else
        let actual := (s.i.hdr id).capacity
        if requested ≤ actual then (true, s.set h (some { b with cap := actual / b.size }))
        else match s.i.realloc fix id (b.len * b.size) requested b.align with
          | (none, i) => (false, { s with i := i })
          | (some id, i) =>
            (true, { s with i := i }.set h
              (some { b with region := some id, cap := (i.hdr id).capacity / b.size }))

/-- `as_ptr`, `slice.rs:271-281`: where the elements are. -/
def State.ptr (s : State) (b : Buf) : Nat :=
  match b.region with
  | some id => (s.i.hdr id).start
  | none => b.align

/-- The elements of a buffer: `Vec::as_slice`, `vec.rs:336-339`. -/
def State.contents (s : State) (h : Nat) : Option Bytes :=
  match s.bufs h with
  | none => none
  | some b => some ((List.range (b.len * b.size)).map (fun k => s.i.mem (s.ptr b + k)))

/-- `Vec::extend_from_slice`, `vec.rs:478-493`, and `Vec::push`, `vec.rs:244-256`: `n` elements, the bytes
of which are read from the memory after the buffer has been resized. -/
def State.extendFromSlice (fix : Bool) (s : State) (h : Nat) (b : Buf) (n : Nat)
    (bytes : (Nat → Byte) → Bytes) : Bool × State :=
  match s.resize fix h b n with
  | (false, s) => (false, s)
  | (true, s) =>
    match s.bufs h with
    | none => (false, s)
    | some b =>
      let i := { s.i with mem := store s.i.mem (s.ptr b + b.len * b.size) (bytes s.i.mem) }
      (true, { s with i := i }.set h (some { b with len := b.len + n }))

/-- `SliceAlloc::free`, `slice.rs:257-266`. -/
def State.drop (s : State) (h : Nat) (b : Buf) : State :=
  match b.region with
  | none => s.set h none
  | some id => { s with i := s.i.free id }.set h none

/-- `SliceAlloc::try_merge`, `slice.rs:380-437`; `none` is `Err`. -/
def State.tryMerge (fix : Bool) (s : State) (h : Nat) (b : Buf) (o : Nat) (c : Buf) : Option State :=
  match b.region with
  | none => none
  | some id =>
    if (s.i.hdr id).stop ≠ s.ptr c then none
    else match (s.i.hdr id).next with
      | none => none
      | some next =>
        /- defect 3 -/
        if fix && c.region != some next then none
        else
          let i := s.i
          let to := (i.hdr id).start + b.len * b.size
          let i := if (i.hdr id).stop ≠ to then
              { i with mem := copy i.mem (i.hdr id).stop to (c.len * c.size) }
            else i
          let (old, i) := i.freeRegion next
          let i := i.modify id (fun x => { x with stop := old.stop })
          some (({ s with i := i }.set o none).set h (some { b with len := b.len + c.len }))

/-- What a user can do. `h` and `o` name buffers. -/
inductive Op where
  /-- `Vec::new_in`, `vec.rs:66-71`; `Allocator::alloc_empty`, `slice.rs:213-236` -/
  | new (h size align : Nat)
  /-- `Box::new_in`; `Allocator::alloc`, `slice.rs:184-211` -/
  | box (h align : Nat) (bytes : Bytes)
  /-- `Vec::extend_from_slice`, `Vec::push` -/
  | extend (h n : Nat) (bytes : Bytes)
  /-- `Vec::reserve`, `vec.rs:191-197` -/
  | reserve (h additional : Nat)
  /-- `Vec::pop`, `Vec::clear`, `vec.rs:281-317`: keep the first `n` elements -/
  | truncate (h n : Nat)
  /-- write through `Vec::as_slice_mut`, at the given offset -/
  | write (h offset : Nat) (bytes : Bytes)
  /-- `Vec::extend`, `vec.rs:519-530` -/
  | append (h o : Nat)
  /-- drop the buffer -/
  | drop (h : Nat)

/-- An operation is possible: names of new buffers are not in use, others are, elements have
a size, alignments are powers of two, writes are in bounds, what is appended has the same type. The type
system and the safe interface ensure all of this. -/
def Op.ok (s : State) : Op → Prop
  | .new h size align => s.bufs h = none ∧ 0 < size ∧ (∃ k, align = 2 ^ k) ∧ align ∣ size
  | .box h align bytes => s.bufs h = none ∧ bytes ≠ [] ∧ (∃ k, align = 2 ^ k) ∧ align ∣ bytes.length
  | .extend h n bytes => ∃ b, s.bufs h = some b ∧ bytes.length = n * b.size
  | .reserve h _ => ∃ b, s.bufs h = some b
  | .truncate h n => ∃ b, s.bufs h = some b ∧ n ≤ b.len
  | .write h offset bytes => ∃ b, s.bufs h = some b ∧ offset + bytes.length ≤ b.len * b.size
  | .append h o => h ≠ o ∧ ∃ b c, s.bufs h = some b ∧ s.bufs o = some c ∧ b.size = c.size ∧ b.align = c.align
  | .drop h => ∃ b, s.bufs h = some b

/-- Perform an operation. `false` means that it returned an error. -/
def State.step (fix : Bool) (s : State) : Op → Bool × State
  | .new h size align =>
    let (id, i) := s.i.alloc fix 0 align
    (true, { s with i := i }.set h (some ⟨id, 0, 0, size, align⟩))
  | .box h align bytes =>
    match s.i.alloc fix bytes.length align with
    | (none, i) => (false, { s with i := i })
    | (some id, i) =>
      let i := { i with mem := store i.mem (i.hdr id).start bytes }
      (true, { s with i := i }.set h (some ⟨some id, 1, 1, bytes.length, align⟩))
  | .extend h n bytes =>
    match s.bufs h with
    | none => (false, s)
    | some b => s.extendFromSlice fix h b n (fun _ => bytes)
  | .reserve h additional =>
    match s.bufs h with
    | none => (false, s)
    | some b => s.resize fix h b additional
  | .truncate h n =>
    match s.bufs h with
    | none => (false, s)
    | some b => (true, s.set h (some { b with len := n }))
  | .write h offset bytes =>
    match s.bufs h with
    | none => (false, s)
    | some b => (true, { s with i := { s.i with mem := store s.i.mem (s.ptr b + offset) bytes } })
  | .append h o =>
    match s.bufs h, s.bufs o with
    | some b, some c =>
      match s.tryMerge fix h b o c with
      | some s => (true, s)
      | none =>
        let r := s.extendFromSlice fix h b c.len
          (fun mem => (List.range (c.len * c.size)).map (fun k => mem (s.ptr c + k)))
        (r.1, r.2.drop o c)
    | _, _ => (false, s)
  | .drop h =>
    match s.bufs h with
    | none => (false, s)
    | some b => (true, s.drop h b)

/-- A new allocator without buffers. -/
def State.new (base size : Nat) (mem : Nat → Byte) : State := ⟨.new base size mem, fun _ => none⟩

end Musli.Slice
