import Verif.Model.Serde.Data
import Verif.Model.Serde.Any
import Verif.Model.Value.Json
/-!
# The serde bridge with JSON

`crates/musli/src/serde/{ser,de}.rs` over the encoder and the decoder of `crates/musli/src/json`. Writing floats
is not modelled (`ryu`), reading them is the parameter `flt` of `deserialize_any`.
-/
namespace Musli.Serde.Json
open Musli.Json

/-! ## Serializing -/

/-- `Serializer` with a `JsonObjectKeyEncoder`, `json/en/object_key_encoder.rs:36-128`: it writes
integers and strings, everything else is an error (`musli-macros/src/internals` fills in the methods
which are missing). -/
def serKey : SData → Enc
  | .uint w v => encPrimKey (.uint w) v
  | .sint w v => encPrimKey (.sint w) v
  | .str s => .ok (encodeString s.bytes)
  | .newtypeStruct d => serKey d
  | _ => .error .unsupported

/-- The comma before everything but the first, `array_encoder.rs:63-69`, `object_pair_encoder.rs:52-58`,
`object_encoder.rs:99-107`. -/
def comma (first : Bool) : Enc := if first then .ok [] else .ok [0x2C#8]

/-- `encode_variant`, `ser.rs:266-277`, `variant_encoder.rs:21-67`; `encode_sequence_variant` and
`encode_map_variant`, `json/en/mod.rs:278-310`, which write the last brace together with the end of the data. -/
def variant (n : Str) (data : Enc) : Enc :=
  braces (.ok (encodeString n.bytes) +> .ok [0x3A#8] +> data)

mutual

/-- `Serializer` with a `JsonEncoder`, `ser.rs:23-263`, `json/en/mod.rs:85-310`. Sequences
do not need their length, maps do (`ser.rs:217-228`). -/
def serJ : SData → Enc
  | .bool b => encPrim .bool b
  | .char c => encPrim .char c
  | .uint w v => encPrim (.uint w) v
  | .sint w v => encPrim (.sint w) v
  | .f32 v => encPrim .f32 v
  | .f64 v => encPrim .f64 v
  | .str s => .ok (encodeString s.bytes)
  | .bytes b => encBytes b
  | .none => .ok strNull
  | .some d => serJ d
  | .unit => .ok strNull
  | .unitStruct => .ok strNull
  | .unitVariant n => variant n (.ok strNull)
  | .newtypeStruct d => serJ d
  | .newtypeVariant n d => variant n (serJ d)
  | .seq _ l => brackets (serSeqJ true l)
  | .tuple l => brackets (serSeqJ true l)
  | .tupleStruct l => brackets (serSeqJ true l)
  | .tupleVariant n l => variant n (brackets (serSeqJ true l))
  | .map known l => if known then braces (serMapJ true l) else .error .unsupported
  | .struct l => braces (serFieldsJ true l)
  | .structVariant n l => variant n (braces (serFieldsJ true l))

/-- `SerializeSeq` and its like, `ser.rs:279-375`. -/
def serSeqJ : (first : Bool) → List SData → Enc
  | _, [] => .ok []
  | first, d :: l => comma first +> serJ d +> serSeqJ false l

/-- `SerializeMap`, `ser.rs:377-418`. -/
def serMapJ : (first : Bool) → List (SData × SData) → Enc
  | _, [] => .ok []
  | first, p :: l => comma first +> serPairJ p +> serMapJ false l

/-- `serialize_key`, `serialize_value`, `ser.rs:396-412`. -/
def serPairJ : SData × SData → Enc
  | (k, d) => serKey k +> .ok [0x3A#8] +> serJ d

/-- `SerializeStruct`, `SerializeStructVariant`, `ser.rs:420-495`. -/
def serFieldsJ : (first : Bool) → List (Str × SData) → Enc
  | _, [] => .ok []
  | first, p :: l => comma first +> serFieldJ p +> serFieldsJ false l

/-- `serialize_field`, `ser.rs:439-448, 474-489`. -/
def serFieldJ : Str × SData → Enc
  | (n, d) => .ok (encodeString n.bytes) +> .ok [0x3A#8] +> serJ d

end

/-! ## `deserialize_any` -/

/-- `visit_u8` .. `visit_f64` of the `AnyVisitor`, `serde/de.rs:754-834`. -/
def visitNumber : Number → Seen
  | .uint .w128 v => visitU128 v
  | .uint w v => .uint w v
  | .sint .w128 v => visitI128 v
  | .sint w v => .sint w v
  | .usize v => .uint .w64 v
  | .isize v => .sint .w64 v
  | .f32 v => .f32 v
  | .f64 v => .f64 v

/-- `parse_number` with the `AnyVisitor`, `parser.rs:172-242`. -/
def anyNumberS (flt : Bool → Parts 128 → BitVec 64) : P Seen := do
  skipWs
  let neg ← minus
  let p ← unsignedFull 128
  if neg then
    match computeParts true p with
    | .error _ => pure (visitNumber (.f64 (flt true p)))
    | .ok v => pure (visitNumber (smallestSigned v))
  else
    match p.compute with
    | .error _ => pure (visitNumber (.f64 (flt false p)))
    | .ok v => pure (visitNumber (smallestUnsigned v))

/-- `deserialize_any` of a key, `key_decoder.rs:156-170`. -/
def anyKeyS : P Seen := do
  let t ← lex
  match t with
  | .string => do
    let s ← decStr
    pure (.str s)
  | .number => P.fail .unsupported
  | _ => P.fail .invalid

/-- `deserialize_any`, `serde/de.rs:33-39`: `decode_any` of JSON (`json/de/mod.rs:431-459`) with the `AnyVisitor`
(`serde/de.rs:712-886`) and a visitor which takes everything. In `visit_map` the remaining entries are read by a
decoder of their own which also reads the closing brace (`serde/de.rs:862-873`, `object_decoder.rs:152-169`). -/
def anyS (flt : Bool → Parts 128 → BitVec 64) : (fuel : Nat) → P Seen
  | 0 => P.fail .fuel
  | fuel + 1 => do
    let t ← lex
    match t with
    | .openBrace => do
      let l ← object (fun l => do
        let k ← anyKeyS
        expect .colon
        let v ← anyS flt fuel
        pure (l ++ [(k, v)])) []
      pure (.map l)
    | .openBracket => do
      let l ← sequence (anyS flt fuel)
      pure (.seq l)
    | .string => do
      let s ← decStr
      pure (.str s)
    | .number => anyNumberS flt
    | .null => do
      parseExact strNull
      pure .unit
    | .tru => do
      parseExact strTrue
      pure (.bool true)
    | .fals => do
      parseExact strFalse
      pure (.bool false)
    | _ => P.fail .invalid

/-- `deserialize_any` with enough fuel: every level reads a bracket. -/
def deserializeAnyJ (flt : Bool → Parts 128 → BitVec 64) : P Seen := fun s => anyS flt (s.length + 1) s

/-! ## Deserializing a type -/

/-- `Deserializer` with a `JsonKeyDecoder`, `key_decoder.rs:46-171`: integers and strings. An enum asks for
`decode_variant`, which a key does not have. -/
def deKey (full : Bool) : (t : Ty) → P t.Val
  | .prim p => do
    let v ← decPrimKey full (wire p)
    pure (ofWire p v)
  | .nonZero s w => do
    let v ← decPrimKey full (nonZeroPrim s w)
    P.ofExcept (toNonZero w (nonZeroUnraw s w v))
  | .string => decStr
  | .boxed t => deKey full t
  | .wrapping t => deKey full t
  | .transparent t => deKey full t
  | .unit => P.fail .unsupported
  | .bytes => P.fail .unsupported
  | .byteArray _ => P.fail .unsupported
  | .option _ => P.fail .unsupported
  | .array _ _ => P.fail .unsupported
  | .vec _ => P.fail .unsupported
  | .set _ => P.fail .unsupported
  | .map _ _ => P.fail .unsupported
  | .tuple _ => P.fail .unsupported
  | .result _ _ _ => P.fail .unsupported
  | .unitStruct => P.fail .unsupported
  | .strct _ _ => P.fail .unsupported
  | .packed _ _ => P.fail .unsupported
  | .unitEnum _ _ => P.fail .unsupported
  | .enm _ _ => P.fail .unsupported

/-- `next_element` for `n` elements, `de.rs:359-386`, `sequence_decoder.rs:46-72`: `None`, which the visitor turns into
an error, when there are not enough. Tells whether it is still before the first element. -/
def takeNJ {α} (d : P α) : (n : Nat) → (first : Bool) → P (List α × Bool)
  | 0, first => pure ([], first)
  | n + 1, first => do
    needNext first
    let a ← d
    let (l, first) ← takeNJ d n false
    pure (a :: l, first)

/-- A name: `deserialize_identifier`, `de.rs:330-335`. -/
def deName : P Name := do
  let s ← decStr
  pure (.str s)

section
variable (full : Bool) (env : Env)

mutual

/-- `Deserialize::deserialize` with `Deserializer` around a `JsonDecoder`, `serde/de.rs:28-350`, `json/de/mod.rs:166-459`.
(The visitor of a struct puts the fields together before the closing brace is read, not after.) -/
def deJ : (t : Ty) → P t.Val
  | .prim p => do
    let v ← decPrim full (wire p)
    pure (ofWire p v)
  | .nonZero s w => do
    let v ← decPrim full (nonZeroPrim s w)
    P.ofExcept (toNonZero w (nonZeroUnraw s w v))
  | .unit => skip
  | .bytes => decBytes full
  | .string => decStr
  | .byteArray _ => P.fail .unsupported
  | .option t => do
    let tok ← lex
    if tok = .null then do
      parseExact strNull
      pure none
    else do
      let x ← deJ t
      pure (some x)
  | .array n t => do
    expect .openBracket
    let (l, first) ← takeNJ (deJ t) n true
    endSeq first
    P.ofExcept (toArray n l)
  | .vec t => sequence (deJ t)
  | .set t => sequence (deJ t)
  | .map k t => object (fun l => do
      let a ← deKey full k
      expect .colon
      let b ← deJ t
      pure (l ++ [(a, b)])) []
  | .tuple ts => do
    expect .openBracket
    let (v, first) ← deTysJ ts true
    endSeq first
    pure v
  | .result _ t u => do
    expect .openBrace
    let n ← deName
    if n = resultName .str true then do
      expect .colon
      let x ← deJ t
      expect .closeBrace
      pure (Sum.inl x)
    else if n = resultName .str false then do
      expect .colon
      let x ← deJ u
      expect .closeBrace
      pure (Sum.inr x)
    else P.fail .unknown
  | .boxed t => deJ t
  | .wrapping t => deJ t
  | .transparent t => deJ t
  | .unitStruct => skip
  | .strct _ fs => do
    let p ← object (fun p => do
      let n ← deName
      expect .colon
      deEntryJ fs n p) fs.none
    P.ofExcept (finish env fs p)
  | .packed _ _ => P.fail .unsupported
  | .unitEnum _ names => do
    expect .openBrace
    let n ← deName
    match findName n names with
    | some i => do
      expect .colon
      skip
      expect .closeBrace
      pure i
    | none => P.fail .unknown
  | .enm _ vs => do
    expect .openBrace
    let n ← deName
    let v ← deVariantsJ vs n
    expect .closeBrace
    pure v

/-- The visitor of a tuple, with `SequenceAccess`, `de.rs:257-281, 359-386`. -/
def deTysJ : (ts : Tys) → (first : Bool) → P (ts.Val × Bool)
  | .nil, first => pure ((), first)
  | .cons t ts, first => do
    needNext first
    let a ← deJ t
    let (b, first) ← deTysJ ts false
    pure ((a, b), first)

/-- One entry of a struct, with `StructAccess`, `de.rs:296-310, 400-443`. -/
def deEntryJ : (fs : Fields) → Name → fs.Partial → P fs.Partial
  | .nil, _, _ => skip
  | .cons n _ _ t fs, name, p =>
    if n = name then
      match p.1 with
      | some _ => P.fail .invalid
      | none => do
        let v ← deJ t
        pure (some v, p.2)
    else do
      let q ← deEntryJ fs name p.2
      pure (p.1, q)

/-- The visitor of an enum, with `EnumAccess`, `de.rs:313-327, 629-709`. -/
def deVariantsJ : (vs : Variants) → Name → P vs.Val
  | .nil, _ => P.fail .unknown
  | .cons n t vs, name =>
    if n = name then do
      expect .colon
      let x ← deJ t
      pure (Sum.inl x)
    else do
      let x ← deVariantsJ vs name
      pure (Sum.inr x)

end

/-- `musli::serde::encode` into a `JsonEncoder`, `serde/mod.rs:132-140`: the calls of `Serialize::serialize`
(`Model/Serde/Data.lean`) on a `Serializer`. -/
def encode (t : Ty) (v : t.Val) : Enc :=
  match dataOf env t v with
  | some d => serJ d
  | none => .error .unsupported

/-- `musli::serde::decode` from a `JsonDecoder`, `serde/mod.rs:170-178`. -/
def decode (t : Ty) : P t.Val := deJ full env t

end

end Musli.Serde.Json
