import Verif.Model.Writer
/-!
# Model of `crates/musli/src/wrap.rs`: writing to a `std::io::Write`

The standard library's `Write::write_all` and `BufWriter` are taken from their
documentation; they are not part of this repository.
-/
namespace Musli.Io
open Wr

/-- What a call of `Write::write` returns. -/
inductive Reply where
  /-- `Ok(n)`, or `Ok(buf.len())` if that is less. -/
  | accept (n : Nat)
  /-- an error of kind `Interrupted`, after which the caller tries again -/
  | interrupted
  /-- any other error -/
  | error
deriving DecidableEq

/-- A device: what it will reply, and the bytes it has accepted so far. When the replies are used up it
accepts everything. -/
structure Dev where
  replies : List Reply
  got : Bytes
deriving DecidableEq

/-- `std::io::Write::write_all`: repeat `write` until everything was accepted; `Ok(0)` is an error
(`WriteZero`), `Interrupted` is not. Returns whether it succeeded. -/
def writeAll (b : Bytes) (replies : List Reply) (got : Bytes) : Bool × Dev :=
  if b = [] then (true, ⟨replies, got⟩) else
  match replies with
  | [] => (true, ⟨[], got ++ b⟩)
  | .accept n :: rs => if n = 0 then (false, ⟨rs, got⟩) else writeAll (b.drop n) rs (got ++ b.take n)
  | .interrupted :: rs => writeAll b rs got
  | .error :: rs => (false, ⟨rs, got⟩)

/-- `Writer for Wrap<W>`: `write_bytes`, `wrap.rs:77-86`. -/
def wrapBytes (b : Bytes) (st : St Dev) : Bool × St Dev :=
  match writeAll b st.wr.replies st.wr.got with
  | (false, d) => (false, ⟨d, st.mark⟩)
  | (true, d) => (true, ⟨d, st.mark + b.length⟩)

/-- `Writer for Wrap<W>`, `wrap.rs:44-87`; `write_byte` is the default method, `writer.rs:79-84`. -/
def wrapStep : Impl Dev
  | .bytes b, st => wrapBytes b st
  | .byte b, st => wrapBytes [b] st

/-- `to_writer`, `macros/internal.rs:503-510, 866-874`, for a value whose encoding makes the calls `ops`.
`finish` does nothing, `wrap.rs:57-62`. -/
def toWriter (d : Dev) (ops : List Op) : Bool × St Dev := runAll wrapStep ops ⟨d, 0⟩

/-! ## Buffered -/

/-- `std::io::BufWriter`. -/
structure Buf where
  cap : Nat
  buf : Bytes
  dev : Dev
deriving DecidableEq

/-- `BufWriter::flush_buf`: write the buffer to the device. What was accepted is removed from the buffer. -/
def Buf.flush (b : Buf) : Bool × Buf :=
  match writeAll b.buf b.dev.replies b.dev.got with
  | (ok, d) => (ok, { b with buf := b.buf.drop (d.got.length - b.dev.got.length), dev := d })

/-- `BufWriter::write_all`: what does not fit into the buffer causes it to be written; what is not less than
the capacity is written directly. -/
def Buf.writeAll (s : Bytes) (b : Buf) : Bool × Buf :=
  if s.length < b.cap - b.buf.length then (true, { b with buf := b.buf ++ s }) else
  match if b.buf.length + s.length > b.cap then b.flush else (true, b) with
  | (false, b) => (false, b)
  | (true, b) =>
    if s.length ≥ b.cap then
      match Io.writeAll s b.dev.replies b.dev.got with
      | (ok, d) => (ok, { b with dev := d })
    else (true, { b with buf := b.buf ++ s })

/-- `Writer for Wrap<BufWriter<W>>`, `wrap.rs:79-86`. -/
def bufBytes (s : Bytes) (st : St Buf) : Bool × St Buf :=
  match st.wr.writeAll s with
  | (false, b) => (false, ⟨b, st.mark⟩)
  | (true, b) => (true, ⟨b, st.mark + s.length⟩)

@[inherit_doc bufBytes]
def bufStep : Impl Buf
  | .bytes b, st => bufBytes b st
  | .byte b, st => bufBytes [b] st

/-- `to_writer(BufWriter::with_capacity(cap, device), ..)`: the writer is dropped at the end, which writes the
buffer and ignores errors. Returns the result of `to_writer` and the device. -/
def toBufWriter (cap : Nat) (d : Dev) (ops : List Op) : Bool × Dev :=
  match runAll bufStep ops ⟨⟨cap, [], d⟩, 0⟩ with
  | (ok, st) => (ok, st.wr.flush.2.dev)

end Musli.Io
