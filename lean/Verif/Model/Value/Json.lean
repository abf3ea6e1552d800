import Verif.Model.Value.Value
import Verif.Model.Json.Codec
/-!
# `decode_any` of JSON, and buffering

`json/de/mod.rs:44, 154-161, 431-459`, `json/de/key_decoder.rs:156-170` and
`json/parser/parser.rs:172-242` with the `AnyVisitor` (`value/value.rs:277-455`). Floating
point text (`compute_float`) is a parameter: `flt neg parts` are the bits of the `f64`.
-/
namespace Musli.Json
open Musli

/-- The smallest signed type, `parser.rs:190-211`. `isize` is never taken, because it is as wide as `i64`. -/
def smallestSigned (v : BitVec 128) : Number :=
  let i := v.toInt
  if -2 ^ 7 ≤ i ∧ i ≤ 2 ^ 7 - 1 then .sint .w8 (BitVec.ofInt 8 i)
  else if -2 ^ 15 ≤ i ∧ i ≤ 2 ^ 15 - 1 then .sint .w16 (BitVec.ofInt 16 i)
  else if -2 ^ 31 ≤ i ∧ i ≤ 2 ^ 31 - 1 then .sint .w32 (BitVec.ofInt 32 i)
  else if -2 ^ 63 ≤ i ∧ i ≤ 2 ^ 63 - 1 then .sint .w64 (BitVec.ofInt 64 i)
  else .sint .w128 v

/-- The smallest unsigned type, `parser.rs:220-240`. -/
def smallestUnsigned (v : BitVec 128) : Number :=
  let n := v.toNat
  if n ≤ 2 ^ 8 - 1 then .uint .w8 (BitVec.ofNat 8 n)
  else if n ≤ 2 ^ 16 - 1 then .uint .w16 (BitVec.ofNat 16 n)
  else if n ≤ 2 ^ 32 - 1 then .uint .w32 (BitVec.ofNat 32 n)
  else if n ≤ 2 ^ 64 - 1 then .uint .w64 (BitVec.ofNat 64 n)
  else .uint .w128 v

/-- `SignedParts::compute`, `integer.rs:60-76`: the parts as an integer, then the sign. -/
def computeParts (neg : Bool) (p : Parts 128) : Except Err (BitVec 128) :=
  match p.compute with
  | .error e => .error e
  | .ok u => computeSigned neg u

/-- `Parser::parse_number` with the `AnyVisitor`, `parser.rs:172-242`. -/
def anyNumberJ (flt : Bool → Parts 128 → BitVec 64) : P Value := do
  skipWs
  let neg ← minus
  let p ← unsignedFull 128
  if neg then
    match computeParts true p with
    | .error _ => pure (.number (.f64 (flt true p)))
    | .ok v => pure (.number (smallestSigned v))
  else
    match p.compute with
    | .error _ => pure (.number (.f64 (flt false p)))
    | .ok v => pure (.number (smallestUnsigned v))

/-- `decode_any` of a key, `key_decoder.rs:156-170`. A key that is a number is passed on to
`decode_number`, which keys do not implement. -/
def anyKeyJ : P Value := do
  let t ← lex
  match t with
  | .string => do
    let s ← decStr
    pure (.string s)
  | .number => P.fail .unsupported
  | _ => P.fail .invalid

/-- `decode_any` with the `AnyVisitor`, `de/mod.rs:431-459`, `value/value.rs:277-455`. The recursion
is bounded by `fuel`; every level consumes a bracket. -/
def anyJ (flt : Bool → Parts 128 → BitVec 64) : (fuel : Nat) → P Value
  | 0 => P.fail .fuel
  | fuel + 1 => do
    let t ← lex
    match t with
    | .openBrace => do
      let l ← object (fun l => do
        let k ← anyKeyJ
        expect .colon
        let v ← anyJ flt fuel
        pure (l ++ [(k, v)])) []
      pure (.map l)
    | .openBracket => do
      let l ← sequence (anyJ flt fuel)
      pure (.seq l)
    | .string => do
      let s ← decStr
      pure (.string s)
    | .number => anyNumberJ flt
    | .null => do
      parseExact strNull
      pure .unit
    | .tru => do
      parseExact strTrue
      pure (.bool true)
    | .fals => do
      parseExact strFalse
      pure (.bool false)
    | _ => P.fail .invalid

/-- `json::from_slice::<Value<_>>` and the first half of `decode_buffer`, with enough fuel. -/
def readValue (flt : Bool → Parts 128 → BitVec 64) : P Value := fun s => anyJ flt (s.length + 1) s

/-- `BUFFER_OPTIONS`, `de/mod.rs:44`. -/
def bufferOptions : Options := Opt.setMapKeysAsNumbers Opt.new

/-- Decoding through a buffer: `decoder.decode_buffer()?` followed by
`buffer.as_decoder()?.decode()`, `de/mod.rs:154-161`. -/
def decBuffered [Host] (flt : Bool → Parts 128 → BitVec 64) (env : Env) (t : Ty) : P t.Val := do
  let x ← readValue flt
  P.ofExcept (fromValue bufferOptions env t x)

end Musli.Json
