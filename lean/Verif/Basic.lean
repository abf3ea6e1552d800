/-!
# Bytes, errors and the decoder monad

Shared vocabulary of the model.  A reader is the list of bytes that have not
been consumed yet (`impl Reader for &[u8]`, `crates/musli/src/reader.rs:205-318`),
a writer is the list of bytes that have been written (`impl Writer for Vec<u8>`,
`crates/musli/src/writer.rs`).
-/

namespace Musli

/-- A `u8`. -/
abbrev Byte := BitVec 8

/-- A byte buffer. -/
abbrev Bytes := List Byte

/-- Kinds of failures. The code reports messages through `cx.message(..)`; the
model keeps only a coarse classification of them. -/
inductive Err where
  /-- not enough input (`SliceUnderflow`, `crates/musli/src/reader.rs`) -/
  | eof
  /-- an integer did not fit -/
  | overflow
  /-- an unexpected tag, boolean, character, .. -/
  | invalid
  /-- bytes which are not UTF-8 -/
  | utf8
  /-- a length did not match -/
  | length
  /-- a missing field -/
  | missing
  /-- an unknown field or variant -/
  | unknown
  /-- an operation which the format does not support -/
  | unsupported
  /-- output buffer exhausted -/
  | full
  /-- the code would panic here -/
  | panic
  /-- the model ran out of fuel; proved unreachable wherever fuel is used -/
  | fuel
deriving Repr, DecidableEq

/-- `DecidableEq` for results, so that concrete executions can be checked. -/
instance {ε α} [DecidableEq ε] [DecidableEq α] : DecidableEq (Except ε α)
  | .ok a, .ok b => if h : a = b then isTrue (by rw [h]) else isFalse (by intro h'; cases h'; exact h rfl)
  | .error a, .error b => if h : a = b then isTrue (by rw [h]) else isFalse (by intro h'; cases h'; exact h rfl)
  | .ok _, .error _ => isFalse (by intro h; cases h)
  | .error _, .ok _ => isFalse (by intro h; cases h)

/-- A decoder: consumes a prefix of the input or fails. -/
def Dec (α : Type) := Bytes → Except Err (α × Bytes)

namespace Dec

/-- Succeed without consuming input. -/
protected def pure {α} (a : α) : Dec α := fun s => .ok (a, s)

/-- Run two decoders in sequence (`?` in the code). -/
protected def bind {α β} (x : Dec α) (f : α → Dec β) : Dec β := fun s =>
  match x s with
  | .ok (a, s') => f a s'
  | .error e => .error e

instance : Monad Dec where
  pure := Dec.pure
  bind := Dec.bind

/-- Fail (`return Err(cx.message(..))`). -/
def fail {α} (e : Err) : Dec α := fun _ => .error e

/-- `Reader::read_byte`, `crates/musli/src/reader.rs:275-286`. -/
def readByte : Dec Byte
  | [] => .error .eof
  | b :: s => .ok (b, s)

/-- `Reader::peek`, `crates/musli/src/reader.rs:315-317`. -/
def peek : Dec (Option Byte) := fun s => .ok (s.head?, s)

/-- `Reader::is_eof`, `crates/musli/src/reader.rs:204-206`. -/
def isEof : Dec Bool := fun s => .ok (s.isEmpty, s)

/-- `Reader::read_bytes` / `read_array` / `read_bytes_uninit`: exactly `n` bytes,
`crates/musli/src/reader.rs:242-272, 289-312`. -/
def readBytes (n : Nat) : Dec Bytes := fun s =>
  if s.length < n then .error .eof else .ok (s.take n, s.drop n)

/-- `Reader::skip`, `crates/musli/src/reader.rs:208-224`. -/
def skip (n : Nat) : Dec Unit := fun s =>
  if s.length < n then .error .eof else .ok ((), s.drop n)

/-- Turn a check that needs no input into a decoder. -/
def ofExcept {α} (x : Except Err α) : Dec α := fun s =>
  match x with
  | .ok a => .ok (a, s)
  | .error e => .error e

theorem pure_apply {α} (a : α) (s : Bytes) : (pure a : Dec α) s = .ok (a, s) := rfl

theorem bind_apply {α β} (x : Dec α) (f : α → Dec β) (s : Bytes) :
    (x >>= f) s = match x s with
      | .ok (a, s') => f a s'
      | .error e => .error e := rfl

theorem bind_ok {α β} {x : Dec α} {f : α → Dec β} {s s' : Bytes} {a : α}
    (h : x s = .ok (a, s')) : (x >>= f) s = f a s' := by
  rw [bind_apply, h]

theorem bind_error {α β} {x : Dec α} {f : α → Dec β} {s : Bytes} {e : Err}
    (h : x s = .error e) : (x >>= f) s = .error e := by
  rw [bind_apply, h]

theorem bind_eq_ok {α β} {x : Dec α} {f : α → Dec β} {s : Bytes} {r : β × Bytes} :
    (x >>= f) s = .ok r ↔ ∃ a s', x s = .ok (a, s') ∧ f a s' = .ok r := by
  rw [bind_apply]
  cases h : x s with
  | error e => simp
  | ok p =>
    obtain ⟨a, s'⟩ := p
    constructor
    · intro h; exact ⟨a, s', rfl, h⟩
    · rintro ⟨a', s'', h, h'⟩; cases h; exact h'

theorem map_apply {α β} (f : α → β) (x : Dec α) (s : Bytes) :
    (f <$> x) s = match x s with
      | .ok (a, s') => .ok (f a, s')
      | .error e => .error e := rfl

@[simp] theorem readByte_cons (b : Byte) (s : Bytes) : readByte (b :: s) = .ok (b, s) := rfl
@[simp] theorem readByte_nil : readByte [] = .error .eof := rfl

theorem readBytes_append (l s : Bytes) : readBytes l.length (l ++ s) = .ok (l, s) := by
  simp [readBytes]

theorem readBytes_append' {n} (l s : Bytes) (h : l.length = n) :
    readBytes n (l ++ s) = .ok (l, s) := by
  subst h; exact readBytes_append l s

end Dec

/-- The output of an encoder: the bytes it appended to its writer, or an error.
Writers are only ever appended to, so `a; b` is concatenation. -/
abbrev Enc := Except Err Bytes

namespace Enc

/-- Write one byte. -/
abbrev byte (b : Byte) : Enc := .ok [b]

/-- Write bytes. -/
abbrev bytes (b : Bytes) : Enc := .ok b

/-- Write nothing. -/
abbrev nop : Enc := .ok []

/-- Run two encoders in sequence. -/
def seq (a b : Enc) : Enc :=
  match a with
  | .error e => .error e
  | .ok x => match b with
    | .error e => .error e
    | .ok y => .ok (x ++ y)

@[inherit_doc] infixr:60 " +> " => Enc.seq

theorem seq_eq_ok {a b : Enc} {r : Bytes} :
    (a +> b) = .ok r ↔ ∃ x y, a = .ok x ∧ b = .ok y ∧ r = x ++ y := by
  cases a <;> cases b <;> simp [seq, eq_comm]

@[simp] theorem seq_ok (x y : Bytes) : (.ok x +> .ok y : Enc) = .ok (x ++ y) := rfl

/-- Run an encoder for every element of a list. -/
def all {α} (f : α → Enc) : List α → Enc
  | [] => .ok []
  | a :: l => f a +> all f l

end Enc
end Musli
