import Verif.Model.Std
import Verif.Model.Json.Codec
import Verif.Model.Borrow
/-!
# Types of the standard library in JSON

`impls/net.rs`, `impls/range.rs`, and `CString`, `OsString`, `PathBuf` in
`impls/{mod,alloc}.rs` of `crates/musli-core/src`, with the encoder and the decoder of
`crates/musli/src/json`. JSON may be used with either mode (`Form`).
-/
namespace Musli.Std
open Musli.Json

section
variable (T : NetText) (full : Bool) (env : Env)

/-- `collect_string` (`musli-core/src/en/encoder.rs:1125-1132`) with `encode_string`,
`json/en/mod.rs:244-246`. -/
def encTextJ {α : Type} (tf : TextForm α) (v : α) : Enc := .ok (encodeString (tf.disp v).bytes)

/-- `decode_unsized(|string: &str| T::from_str(string))`, `impls/net.rs:92-95`. -/
def decTextJ {α : Type} (tf : TextForm α) : P α := do
  let s ← decStr
  match tf.parse s with
  | some v => pure v
  | none => P.fail .invalid

/-- Addresses: `impls/net.rs:33-38, 56-61, 110-115, 131-136`; `encode_array`, `json/en/mod.rs:198-201`. -/
def encArrJ (n : Nat) (tf : TextForm (Arr n)) (f : Form) (v : Arr n) : Enc :=
  match f with
  | .binary => encBytes v.1
  | .text => encTextJ tf v

/-- Addresses: `impls/net.rs:76-81, 93-99, 153-158, 160-165`; `decode_array`, `json/de/mod.rs:275-302`. -/
def decArrJ (n : Nat) (tf : TextForm (Arr n)) (f : Form) : P (Arr n) :=
  match f with
  | .binary => decArray full n
  | .text => decTextJ tf

/-- `SocketAddrV4::encode`, `impls/net.rs:241-250, 266-271`; a pack is an array, `json/en/mod.rs:257-259`, with a
comma before every element but the first. -/
def encSockV4J (f : Form) (v : SockV4) : Enc :=
  match f with
  | .binary => brackets (encArrJ 4 T.v4 .binary v.1 +> .ok [0x2C#8] +> encPrim (.uint .w16) v.2)
  | .text => encTextJ T.s4 v

/-- `SocketAddrV4::decode`, `impls/net.rs:288-293, 295-301`; `decode_pack`, `json/de/mod.rs:348-356`. -/
def decSockV4J (f : Form) : P SockV4 :=
  match f with
  | .binary => do
    expect .openBracket
    needNext true
    let a ← decArrJ full 4 T.v4 .binary
    needNext false
    let p ← decPrim full (.uint .w16)
    endSeq false
    pure (a, p)
  | .text => decTextJ T.s4

/-- `SocketAddrV6::encode`, `impls/net.rs:322-333, 349-354`. -/
def encSockV6J (f : Form) (v : SockV6) : Enc :=
  match f with
  | .binary => brackets (encArrJ 16 T.v6 .binary v.1 +> .ok [0x2C#8] +> encPrim (.uint .w16) v.2.1 +>
      .ok [0x2C#8] +> encPrim (.uint .w32) v.2.2.1 +> .ok [0x2C#8] +> encPrim (.uint .w32) v.2.2.2)
  | .text => encTextJ T.s6 v

/-- `SocketAddrV6::decode`, `impls/net.rs:371-376, 375-381`. -/
def decSockV6J (f : Form) : P SockV6 :=
  match f with
  | .binary => do
    expect .openBracket
    needNext true
    let a ← decArrJ full 16 T.v6 .binary
    needNext false
    let p ← decPrim full (.uint .w16)
    needNext false
    let w ← decPrim full (.uint .w32)
    needNext false
    let s ← decPrim full (.uint .w32)
    endSeq false
    pure (a, p, w, s)
  | .text => decTextJ T.s6

/-- A variant: `JsonVariantEncoder`, `json/en/variant_encoder.rs:22-73`. -/
def encVariantJ (n : Name) (e : Enc) : Enc := braces (encNameK n +> .ok [0x3A#8] +> e)

/-- `Encode::encode` with a `JsonEncoder`. Lines: `IpAddr` `impls/net.rs:190-200`, `SocketAddr` `389-400`; ranges
`impls/range.rs:17-26, 62-70`; `CString` `impls/alloc.rs:622-627`, `impls/mod.rs:802-807`; paths
`impls/alloc.rs:805-820, 824-861, 880-885, 976-981, 1000-1005`. -/
def encStdJ : (s : StdTy) → s.Val → Enc
  | .ipv4 f, v => encArrJ 4 T.v4 f v
  | .ipv6 f, v => encArrJ 16 T.v6 f v
  | .ipAddr f, v =>
    match v with
    | .inl a => encVariantJ (ipTag f true) (encArrJ 4 T.v4 f a)
    | .inr a => encVariantJ (ipTag f false) (encArrJ 16 T.v6 f a)
  | .sockV4 f, v => encSockV4J T f v
  | .sockV6 f, v => encSockV6J T f v
  | .sockAddr f, v =>
    match v with
    | .inl a => encVariantJ (sockTag f true) (encSockV4J T f a)
    | .inr a => encVariantJ (sockTag f false) (encSockV6J T f a)
  | .range t, v => brackets (encJ env t v.1 +> .ok [0x2C#8] +> encJ env t v.2)
  | .rangeInclusive t, v => brackets (encJ env t v.1 +> .ok [0x2C#8] +> encJ env t v.2.1)
  | .rangeFrom t, v => brackets (encJ env t v)
  | .rangeTo t, v => brackets (encJ env t v)
  | .rangeToInclusive t, v => brackets (encJ env t v)
  | .rangeFull, _ => brackets (.ok [])
  | .cstring, v => encBytes (v.1 ++ [0#8])
  | .unixPath f, v => encVariantJ (platformTag f true) (encBytes v)
  | .windowsPath f, v => encVariantJ (platformTag f false) (encBytes (wideBytes v))

/-- `Decode::decode` with a `JsonDecoder`. Lines: `IpAddr` `impls/net.rs:218-230`, `SocketAddr` `417-428`; ranges
`impls/range.rs:42-48, 88-94`, through the tuple of their bounds (`()` for
`RangeFull`); `CString` `impls/alloc.rs:642-680`; paths `impls/alloc.rs:902-962, 1023-1028`;
`decode_variant`, `json/de/mod.rs:411-420`. -/
def decStdJ : (s : StdTy) → P s.Val
  | .ipv4 f => decArrJ full 4 T.v4 f
  | .ipv6 f => decArrJ full 16 T.v6 f
  | .ipAddr f => do
    expect .openBrace
    let n ← decNameK full f.names
    if n = ipTag f true then do
      expect .colon
      let a ← decArrJ full 4 T.v4 f
      expect .closeBrace
      pure (Sum.inl a)
    else if n = ipTag f false then do
      expect .colon
      let a ← decArrJ full 16 T.v6 f
      expect .closeBrace
      pure (Sum.inr a)
    else P.fail .unknown
  | .sockV4 f => decSockV4J T full f
  | .sockV6 f => decSockV6J T full f
  | .sockAddr f => do
    expect .openBrace
    let n ← decNameK full f.names
    if n = sockTag f true then do
      expect .colon
      let a ← decSockV4J T full f
      expect .closeBrace
      pure (Sum.inl a)
    else if n = sockTag f false then do
      expect .colon
      let a ← decSockV6J T full f
      expect .closeBrace
      pure (Sum.inr a)
    else P.fail .unknown
  | .range t => do
    let (a, b, _) ← decJ full env (.tuple (.cons t (.cons t .nil)))
    pure (a, b)
  | .rangeInclusive t => do
    let (a, b, _) ← decJ full env (.tuple (.cons t (.cons t .nil)))
    pure (a, b, false)
  | .rangeFrom t => do
    let (a, _) ← decJ full env (.tuple (.cons t .nil))
    pure a
  | .rangeTo t => do
    let (a, _) ← decJ full env (.tuple (.cons t .nil))
    pure a
  | .rangeToInclusive t => do
    let (a, _) ← decJ full env (.tuple (.cons t .nil))
    pure a
  | .rangeFull => decJ full env .unit
  | .cstring => do
    let b ← decBytes full
    P.ofExcept (fromBytesWithNul b)
  | .unixPath f => do
    expect .openBrace
    let n ← decNameK full f.names
    if n = platformTag f true then do
      expect .colon
      let b ← decJ full env (.vec (.prim (.uint .w8)))
      expect .closeBrace
      pure b
    else if n = platformTag f false then P.fail .invalid
    else P.fail .unknown
  | .windowsPath f => do
    expect .openBrace
    let n ← decNameK full f.names
    if n = platformTag f true then P.fail .invalid
    else if n = platformTag f false then do
      expect .colon
      let b ← decBytes full
      expect .closeBrace
      pure (wideUnits b)
    else P.fail .unknown

/-- `&CStr`: `decoder.decode::<&[u8]>()`, `impls/mod.rs:822-830`. -/
def decCStrJ : P { b : Bytes // 0#8 ∉ b } := do
  let b ← Json.visitBytes full (Vis.borrow Bytes)
  P.ofExcept (fromBytesWithNul b)

/-- As the key of an object: only strings and integers are supported, `json/en/object_key_encoder.rs:36-128`. -/
def encStdKeyJ : (s : StdTy) → s.Val → Enc
  | .ipv4 .text, v => encTextJ T.v4 v
  | .ipv6 .text, v => encTextJ T.v6 v
  | .sockV4 .text, v => encTextJ T.s4 v
  | .sockV6 .text, v => encTextJ T.s6 v
  | _, _ => .error .unsupported

/-- As the key of an object, `json/de/key_decoder.rs:60-163`. -/
def decStdKeyJ : (s : StdTy) → P s.Val
  | .ipv4 .text => decTextJ T.v4
  | .ipv6 .text => decTextJ T.v6
  | .sockV4 .text => decTextJ T.s4
  | .sockV6 .text => decTextJ T.s6
  | _ => P.fail .unsupported

end

end Musli.Std
