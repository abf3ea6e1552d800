import Verif.Model.Codec
/-!
# Types of the standard library

`impls/net.rs`, `impls/range.rs`, and `CString`, `OsString`, `PathBuf` in
`impls/{mod,alloc}.rs` of `crates/musli-core/src`. Those which are represented by a
type of `Model/Ty.lean` (numbers, collections, smart pointers, ..) are in
`Model/Codec.lean`.

The standard library's conversion of addresses to and from text (`Display`,
`FromStr`) is a parameter.
-/
namespace Musli.Std

/-- An array of bytes. -/
abbrev Arr (n : Nat) := { b : Bytes // b.length = n }

/-- `SocketAddrV4`: address and port. -/
abbrev SockV4 := Arr 4 × BitVec 16
/-- `SocketAddrV6`: address, port, flow information and scope. -/
abbrev SockV6 := Arr 16 × BitVec 16 × BitVec 32 × BitVec 32

/-- `Display` and `FromStr` of a type of the standard library. -/
structure TextForm (α : Type) where
  /-- `Display` -/
  disp : α → Str
  /-- `FromStr` -/
  parse : Str → Option α

/-- `Display` and `FromStr` of addresses. -/
structure NetText where
  v4 : TextForm (Arr 4)
  v6 : TextForm (Arr 16)
  s4 : TextForm SockV4
  s6 : TextForm SockV6

/-- Whether the type is encoded in the binary mode or in the text mode. -/
inductive Form where | binary | text
deriving DecidableEq

/-- The type of the names of variants: indexes in the binary mode, strings in the
text mode. -/
def Form.names : Form → NameTy
  | .binary => .idx
  | .text => .str

/-- A type of the standard library. -/
inductive StdTy where
  /-- `Ipv4Addr` -/
  | ipv4 (f : Form)
  /-- `Ipv6Addr` -/
  | ipv6 (f : Form)
  /-- `IpAddr` -/
  | ipAddr (f : Form)
  /-- `SocketAddrV4` -/
  | sockV4 (f : Form)
  /-- `SocketAddrV6` -/
  | sockV6 (f : Form)
  /-- `SocketAddr` -/
  | sockAddr (f : Form)
  /-- `Range<T>` -/
  | range (t : Ty)
  /-- `RangeInclusive<T>` -/
  | rangeInclusive (t : Ty)
  /-- `RangeFrom<T>` -/
  | rangeFrom (t : Ty)
  /-- `RangeTo<T>` -/
  | rangeTo (t : Ty)
  /-- `RangeToInclusive<T>` -/
  | rangeToInclusive (t : Ty)
  /-- `RangeFull` -/
  | rangeFull
  /-- `CString` and `&CStr` -/
  | cstring
  /-- `OsString` and `PathBuf` where `cfg(unix)` -/
  | unixPath (f : Form)
  /-- `OsString` and `PathBuf` where `cfg(windows)` -/
  | windowsPath (f : Form)

/-- Values. A `RangeInclusive` has a flag which is set when it has been iterated to
its end. -/
@[reducible] def StdTy.Val : StdTy → Type
  | .ipv4 _ => Arr 4
  | .ipv6 _ => Arr 16
  | .ipAddr _ => Arr 4 ⊕ Arr 16
  | .sockV4 _ => SockV4
  | .sockV6 _ => SockV6
  | .sockAddr _ => SockV4 ⊕ SockV6
  | .range t => t.Val × t.Val
  | .rangeInclusive t => t.Val × t.Val × Bool
  | .rangeFrom t => t.Val
  | .rangeTo t => t.Val
  | .rangeToInclusive t => t.Val
  | .rangeFull => Unit
  | .cstring => { b : Bytes // 0#8 ∉ b }
  | .unixPath _ => Bytes
  | .windowsPath _ => List (BitVec 16)

/-- The names of the variants of `IpAddrTag`, `impls/net.rs:9-15` -/
def ipTag : Form → Bool → Name
  | .binary, true => .idx 0#64
  | .binary, false => .idx 1#64
  | .text, true => .str ⟨[0x69#8, 0x70#8, 0x76#8, 0x34#8], by decide⟩
  | .text, false => .str ⟨[0x69#8, 0x70#8, 0x76#8, 0x36#8], by decide⟩

/-- The names of the variants of `SocketAddrTag`, `impls/net.rs:17-23` -/
def sockTag : Form → Bool → Name
  | .binary, true => .idx 0#64
  | .binary, false => .idx 1#64
  | .text, true => .str ⟨[0x76#8, 0x34#8], by decide⟩
  | .text, false => .str ⟨[0x76#8, 0x36#8], by decide⟩

/-- The names of the variants of `PlatformTag`, `impls/mod.rs:24-31`; `true` is `Unix`. -/
def platformTag : Form → Bool → Name
  | .binary, true => .idx 0#64
  | .binary, false => .idx 1#64
  | .text, true => .str ⟨[0x55#8, 0x6E#8, 0x69#8, 0x78#8], by decide⟩
  | .text, false => .str ⟨[0x57#8, 0x69#8, 0x6E#8, 0x64#8, 0x6F#8, 0x77#8, 0x73#8], by decide⟩

/-- `u16::to_le_bytes` of every unit, `impls/alloc.rs:839-852`. -/
def wideBytes (l : List (BitVec 16)) : Bytes :=
  l.flatMap fun (w : BitVec 16) => [w.setWidth 8, (w >>> 8).setWidth 8]

/-- `bytes.chunks_exact(2)` and `u16::from_le_bytes`, `impls/alloc.rs:944-952`. -/
def wideUnits : Bytes → List (BitVec 16)
  | a :: b :: l => (a.setWidth 16 ||| (b.setWidth 16 <<< 8)) :: wideUnits l
  | _ => []

/-- `CStr::from_bytes_with_nul` and `CString::from_vec_with_nul`: the last byte and no
other is zero. -/
def fromBytesWithNul (b : Bytes) : Except Err { b : Bytes // 0#8 ∉ b } :=
  if h : 0#8 ∉ b.dropLast then
    if b.getLast? = some 0#8 then .ok ⟨b.dropLast, h⟩ else .error .invalid
  else .error .invalid

section
variable [Host] (T : NetText) (o : Options) (env : Env)

/-- `encoder.encode_pack_fn`, with what the closure writes. -/
def encPackOf (F : Fmt) (e : Enc) : Enc :=
  match e with
  | .error e => .error e
  | .ok b => F.encPack b

/-- `collect_string`, `musli-core/src/en/encoder.rs:1125-1132`, of a value with
`Display`. -/
def encText {α : Type} (tf : TextForm α) (F : Fmt) (v : α) : Enc := F.encStr (tf.disp v).bytes

/-- `decode_unsized(|string: &str| T::from_str(string))`, `impls/net.rs:92-95`. -/
def decText {α : Type} (tf : TextForm α) (F : Fmt) : Dec α := do
  let b ← F.decStr
  let s ← Dec.ofExcept (toStr b)
  match tf.parse s with
  | some v => pure v
  | none => Dec.fail .invalid

/-- `Encode::encode`: `impls/net.rs:33-38, 56-61, 110-115, 131-136` -/
def encArr (n : Nat) (tf : TextForm (Arr n)) (f : Form) (m : Mode) (v : Arr n) : Enc :=
  match f with
  | .binary => (m.fmt o).encArr v.1
  | .text => encText tf (m.fmt o) v

/-- `Decode::decode`: `impls/net.rs:76-81, 93-99, 153-158, 160-165` -/
def decArr (n : Nat) (tf : TextForm (Arr n)) (f : Form) (m : Mode) : Dec (Arr n) :=
  match f with
  | .binary => do
    let b ← (m.fmt o).decArr n
    Dec.ofExcept (toArray n b)
  | .text => decText tf (m.fmt o)

/-- The type of a port. -/
abbrev u16 : Ty := .prim (.uint .w16)
/-- The type of flow information and scopes. -/
abbrev u32 : Ty := .prim (.uint .w32)

/-- `SocketAddrV4::encode`, `impls/net.rs:241-250, 266-271`. The address is not
bitwise encodable, the port is. -/
def encSockV4 (f : Form) (m : Mode) (v : SockV4) : Enc :=
  match f with
  | .binary => encPackOf (m.fmt o)
      ((Mode.packed.fmt o).encArr v.1.1 +> viaE o env u16 .packed v.2)
  | .text => encText T.s4 (m.fmt o) v

/-- `SocketAddrV4::decode`, `impls/net.rs:288-293, 295-301` -/
def decSockV4 (f : Form) (m : Mode) : Dec SockV4 :=
  match f with
  | .binary => (m.fmt o).decPack do
    let a ← decArr o 4 T.v4 .binary .packed
    let p ← viaD o env u16 .packed
    pure (a, p)
  | .text => decText T.s4 (m.fmt o)

/-- `SocketAddrV6::encode`, `impls/net.rs:322-333, 349-354` -/
def encSockV6 (f : Form) (m : Mode) (v : SockV6) : Enc :=
  match f with
  | .binary => encPackOf (m.fmt o)
      ((Mode.packed.fmt o).encArr v.1.1 +> viaE o env u16 .packed v.2.1 +>
        viaE o env u32 .packed v.2.2.1 +> viaE o env u32 .packed v.2.2.2)
  | .text => encText T.s6 (m.fmt o) v

/-- `SocketAddrV6::decode`, `impls/net.rs:371-376, 375-381` -/
def decSockV6 (f : Form) (m : Mode) : Dec SockV6 :=
  match f with
  | .binary => (m.fmt o).decPack do
    let a ← decArr o 16 T.v6 .binary .packed
    let p ← viaD o env u16 .packed
    let w ← viaD o env u32 .packed
    let s ← viaD o env u32 .packed
    pure (a, p, w, s)
  | .text => decText T.s6 (m.fmt o)

/-- `decoder.decode::<Vec<u8>>()`, `impls/alloc.rs:920`. -/
def decByteVec (m : Mode) : Dec Bytes := viaD o env (.vec (.prim (.uint .w8))) m

/-- `Encode::encode`. Lines: `IpAddr` `impls/net.rs:190-200`, `SocketAddr` `389-400`; ranges
`impls/range.rs:17-26, 62-70`; `CString` `impls/alloc.rs:622-627`, `impls/mod.rs:802-807`; paths
`impls/alloc.rs:805-820, 824-861, 880-885, 976-981, 1000-1005`. None of these types is
bitwise encodable. -/
def encStd : (s : StdTy) → Mode → s.Val → Enc
  | .ipv4 f, m, v => encArr o 4 T.v4 f m v
  | .ipv6 f, m, v => encArr o 16 T.v6 f m v
  | .ipAddr f, m, v =>
    match v with
    | .inl a => (m.fmt o).encVariant +> encName (m.fmt o) (ipTag f true) +> encArr o 4 T.v4 f m a
    | .inr a => (m.fmt o).encVariant +> encName (m.fmt o) (ipTag f false) +> encArr o 16 T.v6 f m a
  | .sockV4 f, m, v => encSockV4 T o env f m v
  | .sockV6 f, m, v => encSockV6 T o env f m v
  | .sockAddr f, m, v =>
    match v with
    | .inl a => (m.fmt o).encVariant +> encName (m.fmt o) (sockTag f true) +> encSockV4 T o env f m a
    | .inr a => (m.fmt o).encVariant +> encName (m.fmt o) (sockTag f false) +> encSockV6 T o env f m a
  | .range t, m, v => (m.fmt o).encSeq 2 +> (viaE o env t m v.1 +> viaE o env t m v.2)
  | .rangeInclusive t, m, v => (m.fmt o).encSeq 2 +> (viaE o env t m v.1 +> viaE o env t m v.2.1)
  | .rangeFrom t, m, v => (m.fmt o).encSeq 1 +> viaE o env t m v
  | .rangeTo t, m, v => (m.fmt o).encSeq 1 +> viaE o env t m v
  | .rangeToInclusive t, m, v => (m.fmt o).encSeq 1 +> viaE o env t m v
  | .rangeFull, m, _ => (m.fmt o).encSeq 0
  | .cstring, m, v => (m.fmt o).encBytes (v.1 ++ [0#8])
  | .unixPath f, m, v =>
    (m.fmt o).encVariant +> encName (m.fmt o) (platformTag f true) +> (m.fmt o).encBytes v
  | .windowsPath f, m, v =>
    (m.fmt o).encVariant +> encName (m.fmt o) (platformTag f false) +> (m.fmt o).encBytes (wideBytes v)

/-- `Decode::decode`. Lines: `IpAddr` `impls/net.rs:218-230`, `SocketAddr` `417-428`; ranges
`impls/range.rs:42-48, 88-94`, through the tuple of their bounds (`()` for
`RangeFull`); `CString` `impls/alloc.rs:642-680`; paths `impls/alloc.rs:902-962, 1023-1028`. -/
def decStd : (s : StdTy) → Mode → Dec s.Val
  | .ipv4 f, m => decArr o 4 T.v4 f m
  | .ipv6 f, m => decArr o 16 T.v6 f m
  | .ipAddr f, m => do
    let _ ← (m.fmt o).decVariant
    let n ← decName (m.fmt o) f.names
    if n = ipTag f true then do
      let a ← decArr o 4 T.v4 f m
      pure (Sum.inl a)
    else if n = ipTag f false then do
      let a ← decArr o 16 T.v6 f m
      pure (Sum.inr a)
    else Dec.fail .unknown
  | .sockV4 f, m => decSockV4 T o env f m
  | .sockV6 f, m => decSockV6 T o env f m
  | .sockAddr f, m => do
    let _ ← (m.fmt o).decVariant
    let n ← decName (m.fmt o) f.names
    if n = sockTag f true then do
      let a ← decSockV4 T o env f m
      pure (Sum.inl a)
    else if n = sockTag f false then do
      let a ← decSockV6 T o env f m
      pure (Sum.inr a)
    else Dec.fail .unknown
  | .range t, m => do
    let (a, b, _) ← viaD o env (.tuple (.cons t (.cons t .nil))) m
    pure (a, b)
  | .rangeInclusive t, m => do
    let (a, b, _) ← viaD o env (.tuple (.cons t (.cons t .nil))) m
    pure (a, b, false)
  | .rangeFrom t, m => do
    let (a, _) ← viaD o env (.tuple (.cons t .nil)) m
    pure a
  | .rangeTo t, m => do
    let (a, _) ← viaD o env (.tuple (.cons t .nil)) m
    pure a
  | .rangeToInclusive t, m => do
    let (a, _) ← viaD o env (.tuple (.cons t .nil)) m
    pure a
  | .rangeFull, m => viaD o env .unit m
  | .cstring, m => do
    let b ← (m.fmt o).decBytes
    Dec.ofExcept (fromBytesWithNul b)
  | .unixPath f, m => do
    let _ ← (m.fmt o).decVariant
    let n ← decName (m.fmt o) f.names
    if n = platformTag f true then decByteVec o env m
    else if n = platformTag f false then Dec.fail .invalid
    else Dec.fail .unknown
  | .windowsPath f, m => do
    let _ ← (m.fmt o).decVariant
    let n ← decName (m.fmt o) f.names
    if n = platformTag f true then Dec.fail .invalid
    else if n = platformTag f false then do
      let b ← (m.fmt o).decBytes
      pure (wideUnits b)
    else Dec.fail .unknown

end

end Musli.Std
