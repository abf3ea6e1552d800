import Verif.Basic
/-!
# Model of `crates/musli/src/reader.rs`

A reader is a state machine: every method is an operation, which changes the reader and the
mark of the context (`cx.advance`). `usize` and pointers are `BitVec 64`, except for the mark,
which is an unbounded number. Visitors passed to `read_bytes` accept.
-/
namespace Musli

/-- Memory. -/
abbrev Mem := BitVec 64 → Byte

/-- The `n` bytes of memory from `p` on. -/
def Mem.slice (m : Mem) : (p : BitVec 64) → (n : Nat) → Bytes
  | _, 0 => []
  | p, n + 1 => m p :: m.slice (p + 1) n

namespace Rd

/-- The methods of `Reader`, `reader.rs:37-174`. -/
inductive Op where
  | skip (n : BitVec 64)
  | read (n : BitVec 64)
  | readBytes (n : BitVec 64)
  | readUninit (n : BitVec 64)
  | readByte
  | readArray (n : BitVec 64)
  | peek
  | isEof
deriving DecidableEq

/-- What a method returns. -/
inductive Out where
  | done
  | bytes (b : Bytes)
  | byte (b : Byte)
  | peeked (b : Option Byte)
  | eof (b : Bool)
  | err
deriving DecidableEq

/-- A reader together with the mark of the context. -/
structure St (σ : Type) where
  rd : σ
  mark : Nat
deriving DecidableEq

/-- An implementation of `Reader`. -/
abbrev Impl (σ : Type) := Op → St σ → Out × St σ

/-- Run operations, collecting what they return. -/
def run {σ} (step : Impl σ) : List Op → St σ → List Out × St σ
  | [], st => ([], st)
  | op :: ops, st =>
    let (o, st) := step op st
    let (os, st) := run step ops st
    (o :: os, st)

namespace Slice

/-- The bounds check and split of the methods of `&[u8]`. -/
def take (n : BitVec 64) (out : Bytes → Out) (st : St Bytes) : Out × St Bytes :=
  if st.rd.length < n.toNat then (.err, st)
  else (out (st.rd.take n.toNat), ⟨st.rd.drop n.toNat, st.mark + n.toNat⟩)

/-- `impl Reader for &[u8]`: `skip`, `reader.rs:208-224`; `read`, `227-240`; `read_bytes`,
`242-257`; `read_bytes_uninit`, `260-272`; `read_byte`, `275-286`; `read_array`, `289-312`;
`peek`, `315-317`; `is_eof`, `203-206`. -/
def step : Impl Bytes
  | .skip n, st => take n (fun _ => .done) st
  | .read n, st => take n .bytes st
  | .readBytes n, st => take n .bytes st
  | .readUninit n, st => take n .bytes st
  | .readByte, st =>
    match st.rd with
    | [] => (.err, st)
    | b :: s => (.byte b, ⟨s, st.mark + 1⟩)
  | .readArray n, st => take n .bytes st
  | .peek, st => (.peeked st.rd.head?, st)
  | .isEof, st => (.eof st.rd.isEmpty, st)

end Slice

namespace Ptr

/-- `SliceReader`, `reader.rs:321-324`. -/
structure Range where
  start : BitVec 64
  stop : BitVec 64
deriving DecidableEq

/-- `bounds_check_add`, `reader.rs:485-500`; `wrapping_add` is addition of bit vectors. -/
def boundsCheckAdd (r : Range) (n : BitVec 64) : Option (BitVec 64) :=
  let outcome := r.start + n
  if outcome > r.stop ∨ outcome < r.start then none else some outcome

/-- The check and the update of the methods of `SliceReader`; `adv` is how far the mark advances. -/
def take (m : Mem) (n : BitVec 64) (adv : Nat) (out : Bytes → Out) (st : St Range) :
    Out × St Range :=
  match boundsCheckAdd st.rd n with
  | none => (.err, st)
  | some outcome => (out (m.slice st.rd.start n.toNat), ⟨⟨outcome, st.rd.stop⟩, st.mark + adv⟩)

/-- The byte of a one-byte array. -/
def first : Bytes → Out
  | b :: _ => .byte b
  | [] => .err

/-- `impl Reader for SliceReader`: `skip`, `reader.rs:413-420`; `read_bytes`, `422-439`;
`read_bytes_uninit`, `441-451`; `peek`, `453-461`; `read`, `463-482`; `is_eof`, `408-411`.
`read_byte` and `read_array` are the default methods, `reader.rs:124-161`, in which both the visitor
and `read_bytes` advance the mark. -/
def step (m : Mem) : Impl Range
  | .skip n, st => take m n n.toNat (fun _ => .done) st
  | .read n, st => take m n n.toNat .bytes st
  | .readBytes n, st => take m n n.toNat .bytes st
  | .readUninit n, st => take m n n.toNat .bytes st
  | .readByte, st => take m 1 2 first st
  | .readArray n, st => take m n (n.toNat + n.toNat) .bytes st
  | .peek, st =>
    if st.rd.start = st.rd.stop then (.peeked none, st) else (.peeked (some (m st.rd.start)), st)
  | .isEof, st => (.eof (st.rd.start == st.rd.stop), st)

end Ptr

namespace Limit

/-- `Limit`, `reader.rs:505-508`. -/
structure Lim (σ : Type) where
  remaining : BitVec 64
  reader : σ
deriving DecidableEq

/-- Call a method of the inner reader. -/
def inner {σ} (step : Impl σ) (op : Op) (st : St (Lim σ)) : Out × St (Lim σ) :=
  let (o, s) := step op ⟨st.rd.reader, st.mark⟩
  (o, ⟨⟨st.rd.remaining, s.rd⟩, s.mark⟩)

/-- `bounds_check`, `reader.rs:522-534`, followed by the method of the inner reader. Note that
`remaining` is lowered before the inner method is called, which may fail. -/
def checked {σ} (step : Impl σ) (n : BitVec 64) (op : Op) (st : St (Lim σ)) : Out × St (Lim σ) :=
  if n ≤ st.rd.remaining then inner step op ⟨⟨st.rd.remaining - n, st.rd.reader⟩, st.mark⟩
  else (.err, st)

/-- `impl Reader for Limit<R>`: `reader.rs:537-629`. -/
def step {σ} (s : Impl σ) : Impl (Lim σ)
  | .skip n, st => checked s n (.skip n) st
  | .read n, st => checked s n (.read n) st
  | .readBytes n, st => checked s n (.readBytes n) st
  | .readUninit n, st => checked s n (.readUninit n) st
  | .readByte, st => checked s 1 .readByte st
  | .readArray n, st => checked s n (.readArray n) st
  | .peek, st => if st.rd.remaining > 0 then inner s .peek st else (.peeked none, st)
  | .isEof, st => if st.rd.remaining = 0 then (.eof true, st) else inner s .isEof st

end Limit
end Rd
end Musli
