import Verif.Model.Json.Codec
/-!
# JSON: the encoder with floats

The encoder of `Model/Json/Codec.lean` once more, and with floats: `encode_f32` and `encode_f64`
(`crates/musli/src/json/en/mod.rs:183-195`) write what `ryu::Buffer::format` returns. The crate
`ryu` is not a part of this repository, so it is a parameter here.
-/
namespace Musli.Json
open Musli

/-- `ryu::Buffer::format`, for both types. -/
structure Ryu where
  f32 : BitVec 32 → Bytes
  f64 : BitVec 64 → Bytes

/-- The primitives: `encode_f32` and `encode_f64`, `json/en/mod.rs:183-195`. The others are as in
`Model/Json/Codec.lean`. -/
def encPrimF (R : Ryu) : (p : Prim) → p.Val → Enc
  | .f32, v => .ok (R.f32 v)
  | .f64, v => .ok (R.f64 v)
  | p, v => encPrim p v

section
variable (R : Ryu) (env : Env)

mutual

/-- `Encode::encode` with a `JsonEncoder`, `json/en/mod.rs:62-375`. Keys are as before: floats are not
supported as keys, `object_key_encoder.rs:37-128`. -/
def encJF : (t : Ty) → t.Val → Enc
  | .prim p, v => encPrimF R p v
  | .nonZero s w, v => encPrimF R (nonZeroPrim s w) (nonZeroRaw s w v.1)
  | .unit, _ => .ok strNull
  | .bytes, v => encBytes v
  | .string, v => .ok (encodeString v.bytes)
  | .byteArray _, v => encBytes v.1
  | .option t, v =>
    match v with
    | none => .ok strNull
    | some x => encJF t x
  | .array _ t, v => brackets (sepAll (encJF t) true v.1)
  | .vec t, v => brackets (sepAll (encJF t) true v)
  | .set t, v => brackets (sepAll (encJF t) true v)
  | .map k t, v =>
    braces (sepAll (fun x => encKey k x.1 +> .ok [0x3A#8] +> encJF t x.2) true v)
  | .tuple ts, v => brackets (encTysJF ts true v)
  | .result nt t u, v =>
    match v with
    | .inl x => braces (encNameK (resultName nt true) +> .ok [0x3A#8] +> encJF t x)
    | .inr x => braces (encNameK (resultName nt false) +> .ok [0x3A#8] +> encJF u x)
  | .boxed t, v => encJF t v
  | .wrapping t, v => encJF t v
  | .transparent t, v => encJF t v
  | .unitStruct, _ => braces (.ok [])
  | .strct _ fs, v => braces (encFieldsJF fs true v)
  | .packed _ fs, v => brackets (encPackJF fs true v)
  | .unitEnum _ names, v => encNameV names[v]
  | .enm _ vs, v => braces (encVariantsJF vs v)

/-- The elements of a tuple. -/
def encTysJF : (ts : Tys) → (first : Bool) → ts.Val → Enc
  | .nil, _, _ => .ok []
  | .cons t ts, first, v =>
    (if first then .ok [] else .ok [0x2C#8]) +> encJF t v.1 +> encTysJF ts false v.2

/-- The entries of a struct. -/
def encFieldsJF : (fs : Fields) → (first : Bool) → fs.Val → Enc
  | .nil, _, _ => .ok []
  | .cons n _ skip t fs, first, v =>
    if fieldPresent env skip t v.1 then
      (if first then .ok [] else .ok [0x2C#8]) +> encNameK n +> .ok [0x3A#8] +> encJF t v.1 +>
        encFieldsJF fs false v.2
    else encFieldsJF fs first v.2

/-- The fields of a packed struct. -/
def encPackJF : (fs : Fields) → (first : Bool) → fs.Val → Enc
  | .nil, _, _ => .ok []
  | .cons _ _ skip t fs, first, v =>
    if fieldPresent env skip t v.1 then
      (if first then .ok [] else .ok [0x2C#8]) +> encJF t v.1 +> encPackJF fs false v.2
    else encPackJF fs first v.2

/-- The tag and the body of a variant. -/
def encVariantsJF : (vs : Variants) → vs.Val → Enc
  | .nil, v => nomatch v
  | .cons n t vs, v =>
    match v with
    | .inl x => encNameK n +> .ok [0x3A#8] +> encJF t x
    | .inr x => encVariantsJF vs x

end
end

/-- `json::to_vec`, `json/encoding.rs`. -/
def encodeF (R : Ryu) (env : Env) (t : Ty) (v : t.Val) : Enc := encJF R env t v

end Musli.Json
