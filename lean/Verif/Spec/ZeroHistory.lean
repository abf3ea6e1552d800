import Verif.Model.Zero.Owned
import Verif.Spec.ZeroLayoutOk
/-!
# What users do with `OwnedBuf` and `SliceMut`, and what should be in the buffer

`Op.run` makes the calls of the model one after the other. `Op.image` says what should be in the buffer
after them, whichever memory it uses.
-/
namespace Musli.Zero
open Musli

/-- Calls of a user. -/
inductive Op where
  | store (t : ZTy) (m : Memory)
  | storeSlice (t : ZTy) (ms : List Memory)
  | storeStr (s : Bytes)
  | storeUninit (t : ZTy)
  | extend (s : Bytes)
  /-- `next_offset` and `request_align` -/
  | request (t : ZTy)
  | reserve (n : Nat)
  | alignInPlace
  | clone
  | truncate (n : Nat)

/-- What a reference points to. -/
inductive Item where
  | value (t : ZTy) (m : Memory)
  | slice (t : ZTy) (ms : List Memory)
  | str (s : Bytes)

/-- The bytes of a value: zeros where the padding is. -/
def bytesOf (m : Memory) : Bytes := m.map (fun o => o.getD 0#8)

/-- The bytes of an item. -/
def Item.bytes : Item → Bytes
  | .value _ m => bytesOf m
  | .slice _ ms => bytesOf ms.flatten
  | .str s => s

/-- The alignment of an item. -/
def Item.lg : Item → Nat
  | .value t _ => t.lg
  | .slice t _ => t.lg
  | .str _ => 0

/-- A buffer, and the references to it which are valid with what they point to, the last one first. -/
structure Session where
  buf : Owned
  items : List (Nat × Item)

/-- The items which end at or before `n`. -/
def itemsUpTo (n : Nat) (items : List (Nat × Item)) : List (Nat × Item) :=
  items.filter (fun i => i.1 + i.2.bytes.length ≤ n)

/-- A call. -/
def Op.run (env : Env) (s : Session) : Op → Except ZErr Session
  | .store t m => do
    let (b, o) ← Zero.store env s.buf t m
    .ok ⟨b, (o, .value t m) :: s.items⟩
  | .storeSlice t ms => do
    let (b, o) ← Zero.storeSlice env s.buf t ms
    .ok ⟨b, (o, .slice t ms) :: s.items⟩
  | .storeStr str => do
    let (b, o) ← Zero.storeStr env s.buf str
    .ok ⟨b, (o, .str str) :: s.items⟩
  | .storeUninit t => do .ok ⟨← Zero.storeUninit env s.buf t, s.items⟩
  | .extend str => do .ok ⟨← Zero.extend env s.buf str, s.items⟩
  | .request t => do .ok ⟨← nextOffset env s.buf t.lg t.size, s.items⟩
  | .reserve n => do .ok ⟨← Zero.reserve env s.buf n, s.items⟩
  | .alignInPlace => do .ok ⟨← Zero.alignInPlace env s.buf, s.items⟩
  | .clone => do .ok ⟨← cloneBuf env s.buf, s.items⟩
  | .truncate n => .ok ⟨Zero.truncate s.buf n, itemsUpTo n s.items⟩

/-- Calls, one after the other. -/
def runOps (env : Env) : List Op → Session → Except ZErr Session
  | [], s => .ok s
  | op :: ops, s => do runOps env ops (← op.run env s)

/-! ## Specification -/

/-- What should be in a buffer, the alignment which its address should have, and what the references point
to. -/
structure Image where
  bytes : Bytes
  lg : Nat
  items : List (Nat × Item)

/-- Zeros up to the next multiple of an alignment. -/
def Image.align (i : Image) (lg : Nat) : Image :=
  { i with bytes := i.bytes ++ List.replicate (roundUp i.bytes.length lg - i.bytes.length) 0#8, lg := max i.lg lg }

/-- An item at the end. -/
def Image.add (i : Image) (item : Item) : Image :=
  let i := i.align item.lg
  { i with bytes := i.bytes ++ item.bytes, items := (i.bytes.length, item) :: i.items }

/-- What a call should do. -/
def Op.image (i : Image) : Op → Image
  | .store t m => i.add (.value t m)
  | .storeSlice t ms => i.add (.slice t ms)
  | .storeStr s => i.add (.str s)
  | .storeUninit t =>
    let i := i.align t.lg
    { i with bytes := i.bytes ++ List.replicate t.size 0#8 }
  | .extend s => { i with bytes := i.bytes ++ s }
  | .request t => i.align t.lg
  | .reserve _ => i
  | .alignInPlace => i
  | .clone => i
  | .truncate n => { i with bytes := i.bytes.take n, items := itemsUpTo n i.items }

/-- What calls should leave. -/
def imageOf (ops : List Op) (i : Image) : Image := ops.foldl Op.image i

/-- What is stored are values of types the padding of which is found (C52). -/
def Op.Ok [Host] : Op → Prop
  | .store t m => t.WF ∧ t.StoreOk ∧ Mem t m
  | .storeSlice t ms => t.WF ∧ t.StoreOk ∧ ∀ m ∈ ms, Mem t m
  | _ => True

/-- The types are such that loading finds the fields (C51), and strings are UTF-8. -/
def Op.Loads : Op → Prop
  | .store t _ => t.LoadOk
  | .storeSlice t _ => t.LoadOk
  | .storeStr s => ∃ cs : List Char, s = Utf8.encode cs
  | _ => True

/-- Load what a reference points to. -/
def Item.load [Host] (base : Nat) (buf : Bytes) (offset : Nat) : Item → Except ZErr Bytes
  | .value t _ => loadSized base buf t offset
  | .slice t ms => loadSlice base buf t offset ms.length
  | .str s => loadStr buf offset s.length

/-- There is room for something of an alignment and size: the alignment is at most 2²⁹, as in Rust, memory
does not end, and offsets and lengths can be represented. -/
def Image.Room (limit : Nat) (i : Image) (lg size count : Nat) : Prop :=
  lg ≤ 29 ∧ roundUp i.bytes.length lg + size ≤ 2 ^ 60 ∧ roundUp i.bytes.length lg < limit ∧ count < limit

/-- There is room for what a call does. -/
def Op.Fits (limit : Nat) (i : Image) : Op → Prop
  | .store t _ => i.Room limit t.lg t.size 0
  | .storeSlice t ms => i.Room limit t.lg (ms.length * t.size) ms.length
  | .storeStr s => i.Room limit 0 s.length s.length
  | .storeUninit t => i.Room limit t.lg t.size 0
  | .extend s => i.bytes.length + s.length ≤ 2 ^ 60
  | .request t => t.lg ≤ 29 ∧ roundUp i.bytes.length t.lg + t.size ≤ 2 ^ 60
  | .reserve n => i.bytes.length + n ≤ 2 ^ 60
  | _ => True

/-- There is room for what calls do, one after the other. -/
def opsFit (limit : Nat) : List Op → Image → Prop
  | [], _ => True
  | op :: ops, i => op.Fits limit i ∧ opsFit limit ops (op.image i)

/-- There is room in a slice of a length, for something of an alignment and size; and the slice is at least as
long as the greatest alignment which has been asked for. -/
def Image.RoomIn (cap : Nat) (i : Image) (lg size : Nat) : Prop :=
  roundUp i.bytes.length lg + size ≤ cap ∧ 2 ^ max i.lg lg ≤ cap

/-- There is room in a slice with this address and length for what a call does. -/
def Op.FitsIn (addr cap limit : Nat) (i : Image) : Op → Prop
  | .store t _ => i.RoomIn cap t.lg t.size ∧ roundUp i.bytes.length t.lg < limit
  | .storeSlice t ms => i.RoomIn cap t.lg (ms.length * t.size) ∧ roundUp i.bytes.length t.lg < limit ∧ ms.length < limit
  | .storeStr s => i.RoomIn cap 0 s.length ∧ i.bytes.length < limit ∧ s.length < limit
  | .storeUninit t => i.RoomIn cap t.lg t.size ∧ roundUp i.bytes.length t.lg < limit
  | .extend s => i.RoomIn cap 0 s.length
  | .request t => i.RoomIn cap t.lg t.size
  | .reserve n => i.RoomIn cap 0 n
  | .alignInPlace => addr % 2 ^ i.lg = 0
  | .clone => True
  | .truncate _ => True

/-- There is room in the slice for what calls do, one after the other. -/
def opsFitIn (addr cap limit : Nat) : List Op → Image → Prop
  | [], _ => True
  | op :: ops, i => op.FitsIn addr cap limit i ∧ opsFitIn addr cap limit ops (op.image i)

/-- `(capacity as f32 * 1.5) as usize` is at most this. -/
def Env.Grows (env : Env) : Prop := ∀ c, env.grow c ≤ 2 * c

/-- Allocators return aligned memory. -/
def Env.Lawful (env : Env) : Prop := ∀ n size lg, env.place n size lg % 2 ^ lg = 0

/-- No empty buffer is cloned for which a greater alignment has been requested than its memory has. -/
def ClonesOk (env : Env) (ops : List Op) (s : Session) : Prop :=
  ∀ pre post s', ops = pre ++ .clone :: post → runOps env pre s = .ok s' →
    s'.buf.len ≠ 0 ∨ s'.buf.align = s'.buf.requested

/-- A new buffer: an `OwnedBuf`, or a `SliceMut` on top of a slice, which is less than 2⁶³ bytes long. -/
def Start (env : Env) (b : Owned) : Prop :=
  (∃ capacity lg, Owned.new env capacity lg = .ok b) ∨
  ∃ addr capacity lg, capacity < 2 ^ 63 ∧ b = Owned.slice addr capacity lg

end Musli.Zero
