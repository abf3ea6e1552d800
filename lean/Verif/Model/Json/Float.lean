import Verif.Model.Json.Parser
import Verif.Model.Dec2Flt.Main
/-!
# JSON: floats

`crates/musli/src/json/parser/{slice_parser,mut_slice_parser}.rs` and
`crates/musli/src/json/de/mod.rs:265-272`. Floats are their bit patterns.
-/
namespace Musli.Json
open Musli Musli.Dec2Flt

/-- `Parser::parse_f32` and `Parser::parse_f64`, `slice_parser.rs:127-151`,
`mut_slice_parser.rs:135-159`; `decode_f32` and `decode_f64`, `de/mod.rs:265-272`, call
them. -/
def parseFloat (R : RawFloat) : P Nat := fun s =>
  match dec2flt R s with
  | none => .error (.panic, s)
  | some none => .error (.invalid, s)
  | some (some (v, n)) => .ok (v, s.drop n)

/-- `decode_f32`, `de/mod.rs:265-267`. -/
def decF32 : P (BitVec 32) := do
  let v ← parseFloat rawF32
  pure (BitVec.ofNat 32 v)

/-- `decode_f64`, `de/mod.rs:270-272`. -/
def decF64 : P (BitVec 64) := do
  let v ← parseFloat rawF64
  pure (BitVec.ofNat 64 v)

/-- The value of a field: `JsonObjectPairDecoder::decode_value`,
`object_pair_decoder.rs:53-64`, and the decoder of the value. -/
def entryValue {α : Type} (p : P α) : P α := do
  expect .colon
  p

end Musli.Json
