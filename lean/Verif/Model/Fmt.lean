import Verif.Model.Ty
import Verif.Model.Int
/-!
# The interface between types and formats

`Fmt` collects the methods of the `Encoder` and `Decoder` traits
(`crates/musli-core/src/{en/encoder,de/decoder}.rs`) which the modelled types use. A
closure-taking method such as `decode_sequence(f)` is split in the part before
the closure and the part after it.
-/
namespace Musli

/-- Repeat a decoder `n` times, collecting the results: the `while let Some(..) =
seq.try_decode_next()?` loops over a counted sequence. -/
def decN {α} (d : Dec α) : Nat → Dec (List α)
  | 0 => pure []
  | n + 1 => do
    let a ← d
    let l ← decN d n
    pure (a :: l)

/-- Repeat a decoder `n` times, threading a state. -/
def loopN {σ} (body : σ → Dec σ) : Nat → σ → Dec σ
  | 0, st => pure st
  | n + 1, st => do
    let st ← body st
    loopN body n st

/-- The loop of `skip_any`, `wire/de.rs:65-106`, `descriptive/de.rs:65-115`: `step`
consumes one tag and its payload and returns the number of values that belong
to it. `remaining` is an unbounded number here, a `usize` in the code. `fuel`
bounds the number of rounds; every round consumes input. -/
def skipLoop (step : Dec Nat) : (fuel remaining : Nat) → Dec Unit
  | _, 0 => pure ()
  | 0, _ + 1 => Dec.fail .fuel
  | fuel + 1, remaining + 1 => do
    let k ← step
    skipLoop step fuel (remaining + k)

/-- Skip `n` values. -/
def skipMany (step : Dec Nat) (n : Nat) : Dec Unit := fun s =>
  skipLoop step (s.length + 1) n s

/-- `skip_any`: skip one value. -/
def skipAny (step : Dec Nat) : Dec Unit := skipMany step 1

/-- Run a decoder on the next `n` bytes only: `reader.limit(n)`, `reader.rs:503-629`,
followed by `end()` which skips what is left, `wire/de.rs:49-55`. If fewer than
`n` bytes are there the skip in `end()` fails. -/
def limited {α} (n : Nat) (d : Dec α) : Dec α := fun s =>
  match d (s.take n) with
  | .error e => .error e
  | .ok (a, _) => if s.length < n then .error .eof else .ok (a, s.drop n)

/-- Methods of an encoder and the decoder for it. -/
structure Fmt where
  /-- bitwise copies are used (`is_native_fixed`); storage only -/
  native : Bool
  /-- options are positional (`PACK`); storage only -/
  pack : Bool
  /-- packs are length-prefixed -/
  delimited : Bool
  encPrim : (p : Prim) → p.Val → Enc
  decPrim : (p : Prim) → Dec p.Val
  encUnit : Enc
  decUnit : Dec Unit
  encBytes : Bytes → Enc
  decBytes : Dec Bytes
  encArr : Bytes → Enc
  decArr : Nat → Dec Bytes
  encStr : Bytes → Enc
  /-- before the UTF-8 check -/
  decStr : Dec Bytes
  encNone : Enc
  encSome : Enc
  /-- `true` for `Some` -/
  decOption : Dec Bool
  encSeq : Nat → Enc
  decSeq : Dec Nat
  /-- what happens to `n` elements which the closure left in place -/
  endSeq : Nat → Dec Unit
  encMap : Nat → Enc
  decMap : Dec Nat
  /-- what happens to `n` entries which the closure left in place -/
  endMap : Nat → Dec Unit
  encVariant : Enc
  decVariant : Dec Unit
  /-- the buffer of a pack, given what was written to it -/
  encPack : Bytes → Enc
  decPack : {α : Type} → Dec α → Dec α
  /-- `try_skip`, an error if unsupported -/
  skip : Dec Unit

/-- `encode_usize` of a length. Lengths of 2^64 and more do not exist in Rust. -/
def encLen [Host] (o : Options) (n : Nat) : Enc :=
  if n < 2 ^ 64 then Int'.encodeUsize o (BitVec.ofNat 64 n) else .error .overflow

/-- `decode_usize` of a length. -/
def decLen [Host] (o : Options) : Dec Nat := do
  let n ← Int'.decodeUsize o
  pure n.toNat

/-- `char::from_u32`. -/
def charOf (n : BitVec 32) : Except Err Char :=
  if h : n.toNat.isValidChar then .ok (Char.ofNatAux n.toNat h) else .error .invalid

/-- `value as u32`. -/
def charCode (c : Char) : BitVec 32 := BitVec.ofNat 32 c.toNat

end Musli
