import Verif.Model.Reader
/-!
# Model of `crates/musli/src/writer.rs`, `writer/slice_mut_writer.rs`, `fixed.rs`
-/
namespace Musli.Wr

/-- The methods of `Writer` which write, `writer.rs:64-84`; `extend(buffer)` is
`write_bytes(buffer.as_slice())` in every implementation. -/
inductive Op where
  | bytes (b : Bytes)
  | byte (b : Byte)
deriving DecidableEq

/-- A writer together with the mark of the context. -/
structure St (σ : Type) where
  wr : σ
  mark : Nat
deriving DecidableEq

/-- An implementation of `Writer`; the result says whether the call succeeded. -/
abbrev Impl (σ : Type) := Op → St σ → Bool × St σ

/-- Run operations, collecting what they return. -/
def run {σ} (step : Impl σ) : List Op → St σ → List Bool × St σ
  | [], st => ([], st)
  | op :: ops, st =>
    let (o, st) := step op st
    let (os, st) := run step ops st
    (o :: os, st)

/-- Run operations up to the first failure, like an encoder which propagates errors with `?`. -/
def runAll {σ} (step : Impl σ) : List Op → St σ → Bool × St σ
  | [], st => (true, st)
  | op :: ops, st =>
    match step op st with
    | (false, st) => (false, st)
    | (true, st) => runAll step ops st

/-- `impl Writer for Vec<u8>`, `writer.rs:149-197`. -/
def vecStep : Impl Bytes
  | .bytes b, st => (true, ⟨st.wr ++ b, st.mark + b.length⟩)
  | .byte b, st => (true, ⟨st.wr ++ [b], st.mark + 1⟩)

/-- `FixedBytes<N>`, `fixed.rs:16-21`; uninitialized bytes have some value. -/
structure Fixed where
  data : Bytes
  init : Nat
deriving DecidableEq

/-- Overwrite a part of a list. -/
def overwrite (l : Bytes) (i : Nat) (b : Bytes) : Bytes := l.take i ++ b ++ l.drop (i + b.length)

/-- `FixedBytes::extend_from_slice`, `fixed.rs:129-141`; `data.length` is `N`. -/
def Fixed.extend (f : Fixed) (b : Bytes) : Bool × Fixed :=
  if b.length > f.data.length - f.init then (false, f)
  else (true, ⟨overwrite f.data f.init b, f.init + b.length⟩)

/-- `FixedBytes::as_slice`, `fixed.rs:86-94`. -/
def Fixed.asSlice (f : Fixed) : Bytes := f.data.take f.init

/-- `FixedBytes::push`, `fixed.rs:109-127`; not used by its `Writer` implementation. -/
def Fixed.push (f : Fixed) (b : Byte) : Bool × Fixed :=
  if f.data.length - f.init = 0 then (false, f) else (true, ⟨overwrite f.data f.init [b], f.init + 1⟩)

/-- `FixedBytes::into_bytes`, `fixed.rs:71-82`. -/
def Fixed.intoBytes (f : Fixed) : Option Bytes := if f.init = f.data.length then some f.data else none

/-- `FixedBytes::remaining`, `fixed.rs:65-67`. -/
def Fixed.remaining (f : Fixed) : Nat := f.data.length - f.init

/-- `FixedBytes::clear`, `fixed.rs:59-61`. -/
def Fixed.clear (f : Fixed) : Fixed := { f with init := 0 }

/-- `write_bytes` of `FixedBytes<N>`, `fixed.rs:145-158, 214-221`. -/
def Fixed.writeBytes (b : Bytes) (st : St Fixed) : Bool × St Fixed :=
  match st.wr.extend b with
  | (false, _) => (false, st)
  | (true, f) => (true, ⟨f, st.mark + b.length⟩)

/-- `impl Writer for FixedBytes<N>`, `fixed.rs:184-222`; `write_byte` is the default method,
`writer.rs:79-84`. -/
def fixedStep : Impl Fixed
  | .bytes b, st => Fixed.writeBytes b st
  | .byte b, st => Fixed.writeBytes [b] st

/-- `SliceMutWriter`, `slice_mut_writer.rs:10-14`, and the memory it writes to. -/
structure SliceMut where
  mem : Mem
  start : BitVec 64
  stop : BitVec 64

/-- `copy_from_nonoverlapping`. -/
def copy (m : Mem) (p : BitVec 64) : Bytes → Mem
  | [] => m
  | b :: s => copy (fun a => if a = p then b else m a) (p + 1) s

/-- `impl Writer for SliceMutWriter`: `write_bytes`, `slice_mut_writer.rs:68-90`; `write_byte`,
`87-106`. The mark is not advanced. -/
def sliceStep : Impl SliceMut
  | .bytes b, st =>
    let stop := st.wr.start + BitVec.ofNat 64 b.length
    if stop > st.wr.stop ∨ stop < st.wr.start then (false, st)
    else (true, ⟨⟨copy st.wr.mem st.wr.start b, stop, st.wr.stop⟩, st.mark⟩)
  | .byte b, st =>
    if st.wr.start = st.wr.stop then (false, st)
    else (true, ⟨⟨copy st.wr.mem st.wr.start [b], st.wr.start + 1, st.wr.stop⟩, st.mark⟩)

/-- `SliceMutWriter::remaining`, which is also the result of `finish`,
`slice_mut_writer.rs:31-34, 46-51`. -/
def SliceMut.remaining (s : SliceMut) : Nat := s.stop.toNat - s.start.toNat

/-- `to_slice_with`, `macros/internal.rs:712-725`, for a value whose encoding makes the calls `ops`:
the number of bytes written, and the memory. -/
def toSlice (m : Mem) (start : BitVec 64) (len : Nat) (ops : List Op) : Option Nat × Mem :=
  match runAll sliceStep ops ⟨⟨m, start, start + BitVec.ofNat 64 len⟩, 0⟩ with
  | (false, st) => (none, st.wr.mem)
  | (true, st) => (some (len - st.wr.remaining), st.wr.mem)

end Musli.Wr
