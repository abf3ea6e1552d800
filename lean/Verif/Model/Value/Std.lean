import Verif.Model.Std
import Verif.Model.Value.Value
/-!
# Types of the standard library as a `Value`

`impls/net.rs`, `impls/range.rs`, and `CString`, `OsString`, `PathBuf` in
`impls/{mod,alloc}.rs` of `crates/musli-core/src`, with the encoder and the decoder of
`crates/musli/src/value`.
-/
namespace Musli.Std

section
variable [Host] (T : NetText) (o : Options) (env : Env)

/-- `collect_string`, `encode_string`, `value/en.rs:265-270`. -/
def encTextV {α : Type} (tf : TextForm α) (v : α) : Out := wrote (.string (tf.disp v))

/-- `decode_unsized(|string: &str| T::from_str(string))`, `impls/net.rs:92-95`; `value/de.rs:250-257`. -/
def decTextV {α : Type} (tf : TextForm α) (x : Value) : Except Err α := do
  let s ← readStr x
  match tf.parse s with
  | some v => pure v
  | none => .error .invalid

/-- Addresses: `impls/net.rs:33-38, 56-61, 110-115, 131-136`; `encode_array`, `value/en.rs:232-239`. -/
def encArrV (n : Nat) (tf : TextForm (Arr n)) (f : Form) (v : Arr n) : Out :=
  match f with
  | .binary => wrote (.bytes v.1)
  | .text => encTextV tf v

/-- Addresses: `impls/net.rs:76-81, 93-99, 153-158, 160-165`; `decode_array`, `value/de.rs:233-238`. -/
def decArrV (n : Nat) (tf : TextForm (Arr n)) (f : Form) (x : Value) : Except Err (Arr n) :=
  match f with
  | .binary => do
    let b ← readBytesV x
    toArray n b
  | .text => decTextV tf x

/-- `SocketAddrV4::encode`, `impls/net.rs:241-250, 266-271`; packs are bytes, `value/en.rs:470-474`. -/
def encSockV4V (f : Form) (v : SockV4) : Out :=
  match f with
  | .binary => outBytes ((Mode.packed.fmt o).encArr v.1.1 +> viaE o env u16 .packed v.2)
  | .text => encTextV T.s4 v

/-- `SocketAddrV4::decode`, `impls/net.rs:288-293, 295-301`; `decode_pack`, `value/de.rs:267-274`. -/
def decSockV4V (f : Form) (x : Value) : Except Err SockV4 :=
  match f with
  | .binary => do
    let b ← readBytesV x
    onPack (do
      let a ← decArr o 4 T.v4 .binary .packed
      let p ← viaD o env u16 .packed
      pure (a, p)) b
  | .text => decTextV T.s4 x

/-- `SocketAddrV6::encode`, `impls/net.rs:322-333, 349-354` -/
def encSockV6V (f : Form) (v : SockV6) : Out :=
  match f with
  | .binary => outBytes ((Mode.packed.fmt o).encArr v.1.1 +> viaE o env u16 .packed v.2.1 +>
      viaE o env u32 .packed v.2.2.1 +> viaE o env u32 .packed v.2.2.2)
  | .text => encTextV T.s6 v

/-- `SocketAddrV6::decode`, `impls/net.rs:371-376, 375-381` -/
def decSockV6V (f : Form) (x : Value) : Except Err SockV6 :=
  match f with
  | .binary => do
    let b ← readBytesV x
    onPack (do
      let a ← decArr o 16 T.v6 .binary .packed
      let p ← viaD o env u16 .packed
      let w ← viaD o env u32 .packed
      let s ← viaD o env u32 .packed
      pure (a, p, w, s)) b
  | .text => decTextV T.s6 x

/-- The elements of a sequence, one after another: `encode_next`, `value/en.rs:406-414`. An element for which nothing is
written is left out. -/
def seqV : List Out → Except Err (List Value)
  | [] => .ok []
  | e :: l =>
    match e with
    | .error e => .error e
    | .ok w => match seqV l with
      | .error e => .error e
      | .ok vs => .ok (w.toList ++ vs)

/-- `Encode::encode` with a `ValueEncoder`; lines as for `encStd`. -/
def encStdV : (s : StdTy) → s.Val → Out
  | .ipv4 f, v => encArrV 4 T.v4 f v
  | .ipv6 f, v => encArrV 16 T.v6 f v
  | .ipAddr f, v =>
    match v with
    | .inl a => outVariant (nameV (ipTag f true)) (encArrV 4 T.v4 f a)
    | .inr a => outVariant (nameV (ipTag f false)) (encArrV 16 T.v6 f a)
  | .sockV4 f, v => encSockV4V T o env f v
  | .sockV6 f, v => encSockV6V T o env f v
  | .sockAddr f, v =>
    match v with
    | .inl a => outVariant (nameV (sockTag f true)) (encSockV4V T o env f a)
    | .inr a => outVariant (nameV (sockTag f false)) (encSockV6V T o env f a)
  | .range t, v => outSeq (seqV [encV o env t v.1, encV o env t v.2])
  | .rangeInclusive t, v => outSeq (seqV [encV o env t v.1, encV o env t v.2.1])
  | .rangeFrom t, v => outSeq (seqV [encV o env t v])
  | .rangeTo t, v => outSeq (seqV [encV o env t v])
  | .rangeToInclusive t, v => outSeq (seqV [encV o env t v])
  | .rangeFull, _ => outSeq (seqV [])
  | .cstring, v => wrote (.bytes (v.1 ++ [0#8]))
  | .unixPath f, v => outVariant (nameV (platformTag f true)) (wrote (.bytes v))
  | .windowsPath f, v => outVariant (nameV (platformTag f false)) (wrote (.bytes (wideBytes v)))

/-- `Decode::decode` with a `ValueDecoder`; lines as for `decStd`. -/
def decStdV : (s : StdTy) → Value → Except Err s.Val
  | .ipv4 f, x => decArrV 4 T.v4 f x
  | .ipv6 f, x => decArrV 16 T.v6 f x
  | .ipAddr f, x => do
    let (tag, y) ← readVariant x
    let n ← readName o false f.names tag
    if n = ipTag f true then do
      let a ← decArrV 4 T.v4 f y
      pure (Sum.inl a)
    else if n = ipTag f false then do
      let a ← decArrV 16 T.v6 f y
      pure (Sum.inr a)
    else .error .unknown
  | .sockV4 f, x => decSockV4V T o env f x
  | .sockV6 f, x => decSockV6V T o env f x
  | .sockAddr f, x => do
    let (tag, y) ← readVariant x
    let n ← readName o false f.names tag
    if n = sockTag f true then do
      let a ← decSockV4V T o env f y
      pure (Sum.inl a)
    else if n = sockTag f false then do
      let a ← decSockV6V T o env f y
      pure (Sum.inr a)
    else .error .unknown
  | .range t, x => do
    let (a, b, _) ← decV o env (.tuple (.cons t (.cons t .nil))) false x
    pure (a, b)
  | .rangeInclusive t, x => do
    let (a, b, _) ← decV o env (.tuple (.cons t (.cons t .nil))) false x
    pure (a, b, false)
  | .rangeFrom t, x => do
    let (a, _) ← decV o env (.tuple (.cons t .nil)) false x
    pure a
  | .rangeTo t, x => do
    let (a, _) ← decV o env (.tuple (.cons t .nil)) false x
    pure a
  | .rangeToInclusive t, x => do
    let (a, _) ← decV o env (.tuple (.cons t .nil)) false x
    pure a
  | .rangeFull, x => decV o env .unit false x
  | .cstring, x => do
    let b ← readBytesV x
    fromBytesWithNul b
  | .unixPath f, x => do
    let (tag, y) ← readVariant x
    let n ← readName o false f.names tag
    if n = platformTag f true then decV o env (.vec (.prim (.uint .w8))) false y
    else if n = platformTag f false then .error .invalid
    else .error .unknown
  | .windowsPath f, x => do
    let (tag, y) ← readVariant x
    let n ← readName o false f.names tag
    if n = platformTag f true then .error .invalid
    else if n = platformTag f false then do
      let b ← readBytesV y
      pure (wideUnits b)
    else .error .unknown

/-- `musli::value::encode`, `value/mod.rs:44-54`. -/
def stdToValue (s : StdTy) (v : s.Val) : Except Err Value := (encStdV T o env s v).slot

/-- `musli::value::decode`, `value/mod.rs:60-67`. -/
def stdFromValue (s : StdTy) (x : Value) : Except Err s.Val := decStdV T o env s x

end

end Musli.Std
