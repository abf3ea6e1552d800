import Verif.Model.Alloc.Slice
/-!
# What an allocator is for

The contents of buffers, without any memory: what every buffer should hold after a
history of operations.
-/
namespace Musli.Slice.Spec
open Musli

/-- The size of the elements and the contents of every buffer that exists. -/
abbrev Buffers := Nat → Option (Nat × Bytes)

/-- Replace a buffer. -/
def Buffers.set (c : Buffers) (h : Nat) (b : Option (Nat × Bytes)) : Buffers :=
  fun k => if k = h then b else c k

/-- The effect of an operation that succeeded or returned an error. -/
def effect (c : Buffers) (ok : Bool) : Op → Buffers
  | .new h size _ => c.set h (some (size, []))
  | .box h _ bytes => if ok then c.set h (some (bytes.length, bytes)) else c
  | .extend h _ bytes => if ok then c.set h ((c h).map fun (n, b) => (n, b ++ bytes)) else c
  | .reserve _ _ => c
  | .truncate h n => c.set h ((c h).map fun (m, b) => (m, b.take (n * m)))
  | .write h offset bytes =>
    c.set h ((c h).map fun (m, b) => (m, b.take offset ++ bytes ++ b.drop (offset + bytes.length)))
  | .append h o =>
    let c' := if ok then c.set h ((c h).map fun (n, b) => (n, b ++ ((c o).map Prod.snd).getD [])) else c
    c'.set o none
  | .drop h => c.set h none

/-- A history: the state of the allocator, and what the buffers should hold. -/
inductive Runs (fix : Bool) : State → Buffers → Prop
  | new (base size : Nat) (mem : Nat → Byte) : Runs fix (.new base size mem) (fun _ => none)
  | step {s : State} {c : Buffers} (op : Op) : Runs fix s c → op.ok s →
      Runs fix (s.step fix op).2 (effect c (s.step fix op).1 op)

/-- Every buffer lies within the buffer of the allocator, in front of the headers; it is aligned, it has
space for its elements, and it does not overlap any other. -/
structure Separate (s : State) : Prop where
  bounds : ∀ h b id, s.bufs h = some b → b.region = some id →
    s.i.fullStart ≤ (s.i.hdr id).start ∧
    (s.i.hdr id).start + b.len * b.size ≤ (s.i.hdr id).stop ∧
    (s.i.hdr id).stop ≤ s.i.freeEnd ∧ s.i.freeEnd ≤ s.i.fullEnd ∧
    (s.i.hdr id).start % b.align = 0
  disjoint : ∀ h b id h' b' id', h ≠ h' → s.bufs h = some b → b.region = some id →
    s.bufs h' = some b' → b'.region = some id' →
    (s.i.hdr id).stop ≤ (s.i.hdr id').start ∨ (s.i.hdr id').stop ≤ (s.i.hdr id).start

/-- The buffers hold what they should. -/
def Holds (s : State) (c : Buffers) : Prop := ∀ h, s.contents h = (c h).map Prod.snd

/-- There is enough space for two headers, alignment, and that many bytes. -/
def Room (s : State) (align bytes : Nat) : Prop :=
  s.i.freeStart + align + bytes + 2 * headerSize ≤ s.i.freeEnd

/-- An operation does not run into a defect: at most one header is free, there is enough space, and a buffer
which is appended is not adjacent to the other one, or it is the next region. -/
def Benign (s : State) (op : Op) : Prop :=
  (∀ id, s.i.freeHead = some id → (s.i.hdr id).next = none) ∧
  match op with
  | .new _ _ align => Room s align 0
  | .box _ align bytes => Room s align bytes.length
  | .extend h n _ => ∀ b, s.bufs h = some b → Room s b.align ((b.len + n) * b.size)
  | .reserve h n => ∀ b, s.bufs h = some b → Room s b.align ((b.len + n) * b.size)
  | .append h o => ∀ b d, s.bufs h = some b → s.bufs o = some d →
    Room s b.align ((b.len + d.len) * b.size) ∧
    ∀ id next, b.region = some id → (s.i.hdr id).next = some next → (s.i.hdr id).stop = s.ptr d →
      d.region = some next
  | _ => True

/-- A history of the code in which every operation is benign. -/
inductive BenignRuns : State → Buffers → Prop
  | new (base size : Nat) (mem : Nat → Byte) : BenignRuns (.new base size mem) (fun _ => none)
  | step {s : State} {c : Buffers} (op : Op) : BenignRuns s c → op.ok s → Benign s op →
      BenignRuns (s.step false op).2 (effect c (s.step false op).1 op)

end Musli.Slice.Spec
