import Verif.Model.Zero.SwapAt
import Verif.Spec.ZeroMutable
/-!
# Changing what is in a buffer, `buf/buf.rs`, `mem/maybe_uninit.rs`

Paths are relative to `crates/musli-zerocopy/src`. The bytes of a buffer may become uninitialised (`none`). Because
`Buf` is a `[u8]`, calling a function of a buffer with such bytes is taken to be undefined, even if it does not read
them.
-/
namespace Musli.Zero
open Musli

/-- Bytes which have to be initialised. -/
def initialised (m : Memory) : Except ZErr Bytes :=
  match m.mapM id with
  | some bs => .ok bs
  | none => .error .ub

/-- Write through a reference into a buffer. -/
def splice {α : Type} (m : List α) (off : Nat) (new : List α) : List α := m.take off ++ (new ++ m.drop (off + new.length))

section
variable [Host]

/-- `*buf.load_mut(r)? = value`, and the same with `load_at_mut`: `load_sized_mut`, `buf/buf.rs:874-895`, and the
assignment of a value of the type, which copies its memory; the padding of the value is what it happens to be. -/
def assign (base : Nat) (data : Memory) (t : ZTy) (off : Nat) (value : Memory) : Except ZErr Memory := do
  let bytes ← initialised data
  let _ ← loadSized base bytes t off
  .ok (splice data off value)

/-- `buf.load_mut(r)?[i] = value` for a reference to a slice: `load_unsized_mut`, `buf/buf.rs:726-745`, with
`get_mut_range_from`, `buf/buf.rs:596-619`; the index is checked by the compiler. -/
def assignElement (base : Nat) (data : Memory) (t : ZTy) (start len i : Nat) (value : Memory) : Except ZErr Memory := do
  let bytes ← initialised data
  let _ ← loadSlice base bytes t start len
  if i < len then .ok (splice data (start + i * t.size) value) else .error .panic

/-- Changes to the string which `buf.load_mut(r)?` is, as by `make_ascii_uppercase`. (That the new string has the same
length is ensured by the type `&mut str`.) -/
def assignStr (data : Memory) (start len : Nat) (s : Bytes) : Except ZErr Memory := do
  let bytes ← initialised data
  let _ ← loadStr bytes start len
  .ok (splice data start (s.map some))

/-- `if let Some(b) = buf.get_mut(i) { *b = byte }`, `buf/buf.rs:293-298`; `IndexMut`, `buf/buf.rs:1105-1113`, and
`as_mut_slice` panic instead. -/
def setByte (data : Memory) (i : Nat) (b : Byte) : Except ZErr Memory := do
  let bytes ← initialised data
  if i < bytes.length then .ok (splice data i [some b]) else .error .bounds

/-- `load_uninit_mut`, `buf/owned_buf.rs:556-575`, `buf/slice_mut.rs:442-461`. The sum is checked in debug builds.
The reference which it returns is then written to. -/
def loadUninitMut (checked : Bool) (data : Memory) (t : ZTy) (off : Nat) : Except ZErr Unit :=
  if checked = true ∧ off + t.size ≥ 2 ^ 64 then .error .panic
  else if (off + t.size) % 2 ^ 64 ≤ data.length then .ok () else .error .panic

/-- Write at a pointer. -/
def writeAt (data : Memory) (off : Nat) (new : Memory) : Except ZErr Memory :=
  if off + new.length ≤ data.length then .ok (splice data off new) else .error .ub

/-- `buf.load_uninit_mut(r).write(&value)`, `mem/maybe_uninit.rs:94-103`. -/
def writeUninit (checked : Bool) (data : Memory) (t : ZTy) (off : Nat) (value : Memory) : Except ZErr Memory := do
  loadUninitMut checked data t off
  let bytes ← storeUnaligned t value
  writeAt data off bytes

/-- `*buf.load_uninit_mut(r) = MaybeUninit::uninit()`, `mem/maybe_uninit.rs:68-70`. -/
def clearUninit (checked : Bool) (data : Memory) (t : ZTy) (off : Nat) : Except ZErr Memory := do
  loadUninitMut checked data t off
  writeAt data off (gap t.size)

/-- `buf.swap(r, s)?`, see `Model/Zero/SwapAt.lean`. -/
def exchange (checked : Bool) (data : Memory) (size a b : Nat) : Except ZErr Memory := do
  let bytes ← initialised data
  match SwapAt.swap 64 checked size bytes a b with
  | .ok bytes => .ok (bytes.map some)
  | .bounds => .error .bounds
  | .panic => .error .panic
  | .undefined => .error .ub

/-- What is done with a reference to one of the places. -/
def Act.run (base : Nat) (checked : Bool) (places : List Place) (data : Memory) : Act → Except ZErr Memory
  | .assign k value =>
    match places[k]? with
    | some p => Zero.assign base data p.t p.off value
    | none => .ok data
  | .write k value =>
    match places[k]? with
    | some p => writeUninit checked data p.t p.off value
    | none => .ok data
  | .exchange j k =>
    match places[j]?, places[k]? with
    | some p, some q => Zero.exchange checked data p.t.size p.off q.off
    | _, _ => .ok data

/-- One after the other. -/
def runActs (base : Nat) (checked : Bool) (places : List Place) : List Act → Memory → Except ZErr Memory
  | [], data => .ok data
  | act :: acts, data => do runActs base checked places acts (← act.run base checked places data)

end

/-! ## Aligned copies -/

/-- The exponent of the greatest power of two which divides a number, at most `n`: `trailing_zeros().min(n)`. -/
def trailingZeros (addr : Nat) : Nat → Nat
  | 0 => 0
  | n + 1 => if addr % 2 ^ (n + 1) = 0 then n + 1 else trailingZeros addr n

/-- `alignment`, `buf/buf.rs:160-163`, as an exponent. -/
def alignment (addr : Nat) : Nat := trailingZeros addr 29

/-- `is_power_of_two` -/
def isPowerOfTwo (n : Nat) : Bool := n != 0 && (n &&& (n - 1)) == 0

section
variable (env : Env)

/-- A buffer which is borrowed, or a copy. -/
inductive Cow where
  | borrowed
  | owned (buf : Owned)

/-- `to_aligned_with`, `buf/buf.rs:140-157`, of a buffer at an address; `to_aligned` and `aligned_buf`,
`aligned_buf_with`, `buf/mod.rs:171-173, 206-208`, call it. The exponent of the alignment is `Nat.log2`. -/
def toAlignedWith (addr : Nat) (bytes : Bytes) (align : Nat) : Except ZErr Cow :=
  if isPowerOfTwo align then
    if addr &&& (align - 1) == 0 then .ok .borrowed
    else do
      let b ← Owned.new env bytes.length (Nat.log2 align)
      let b ← append b (bytes.map some)
      .ok (.owned b)
  else .error .panic

/-- `to_owned`, `buf/buf.rs:1009-1015`, of a buffer at an address. -/
def toOwned (addr : Nat) (bytes : Bytes) : Except ZErr Owned := do
  let b ← Owned.new env bytes.length (alignment addr)
  extend env b bytes

end
end Musli.Zero
