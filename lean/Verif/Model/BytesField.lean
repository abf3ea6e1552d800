import Verif.Model.Borrow
import Verif.Model.Calls
import Verif.Model.Value.Value
/-!
# Fields which are `#[musli(bytes)]`

Such a field is written with `EncodeBytes::encode_bytes` and read with `DecodeBytes::decode_bytes`, which several
types of the standard library implement. `Rc<[u8]>` and `Arc<[u8]>` implement only `DecodeBytes`. Allocating does not
fail.
-/
namespace Musli

/-- The types with `EncodeBytes` or `DecodeBytes`. -/
inductive BytesTy where
  /-- `Vec<u8>`, of the standard library or `musli::alloc` -/
  | vec
  /-- `Box<[u8]>`, `Rc<[u8]>`, `Arc<[u8]>` -/
  | boxed
  /-- `VecDeque<u8>` -/
  | deque
  /-- `Cow<'de, [u8]>` -/
  | cow
  /-- `&'de [u8]` -/
  | slice
  /-- `[u8; N]` -/
  | array (n : Nat)
deriving Repr, DecidableEq

/-- A `VecDeque`: its elements are those of its `as_slices`, one after the other. Which
elements are in which slice depends on how it was built. -/
structure Deque where
  first : Bytes
  second : Bytes
deriving Repr, DecidableEq

/-- The values of such a type. -/
abbrev BytesTy.Val : BytesTy → Type
  | .vec => Bytes
  | .boxed => Bytes
  | .deque => Deque
  | .cow => Cow Bytes
  | .slice => Bytes
  | .array n => { b : Bytes // b.length = n }

section
variable [Host] (o : Options) (env : Env)

/-- `EncodeBytes::encode_bytes`: `Vec<u8>` `impls/alloc.rs:1031-1048`, `Box<[u8]>` `1050-1067`,
`VecDeque<u8>` `1109-1127`, `Cow<[u8]>` `256-271`, `[u8]` `impls/mod.rs:848-865`, through a reference
`en/encode_bytes.rs:79-99`, `[u8; N]` `impls/mod.rs:867-884`. -/
def BytesTy.enc (m : Mode) : (k : BytesTy) → k.Val → Enc
  | .vec, b => (m.fmt o).encBytes b
  | .boxed, b => (m.fmt o).encBytes b
  | .deque, d =>
    Call.run o env m (.vectored (d.first.length + d.second.length) [d.first, d.second])
  | .cow, .borrowed b => (m.fmt o).encBytes b
  | .cow, .owned b => (m.fmt o).encBytes b
  | .slice, b => (m.fmt o).encBytes b
  | .array _, b => (m.fmt o).encArr b.1

/-- `DecodeBytes::decode_bytes`: `Vec<u8>` `impls/alloc.rs:1069-1107`, `musli-core/src/alloc/vec.rs:810-854`;
`Box<[u8]>`, `Rc<[u8]>`, `Arc<[u8]>` `impls/alloc.rs:724-737`, `VecDeque<u8>` `1129-1142`, `Cow<[u8]>` `256-271`,
`&[u8]` `impls/mod.rs:886-899`, `[u8; N]` `901-914`. -/
def BytesTy.dec (m : Mode) : (k : BytesTy) → Dec k.Val
  | .vec => visitBytes o m (Vis.copy Bytes)
  | .boxed => visitBytes o m (Vis.copy Bytes)
  | .deque => do
    let b ← visitBytes o m (Vis.copy Bytes)
    pure ⟨b, []⟩
  | .cow => visitBytes o m (Vis.cow Bytes)
  | .slice => visitBytes o m (Vis.borrow Bytes)
  | .array n => decD o env (.byteArray n) m

end

/-- `encode_bytes` to JSON: `json/en/mod.rs:198-241`. -/
def BytesTy.encJ (env : Env) : (k : BytesTy) → k.Val → Enc
  | .vec, b => Json.encBytes b
  | .boxed, b => Json.encBytes b
  | .deque, d =>
    Json.run env (.vectored (d.first.length + d.second.length) [d.first, d.second])
  | .cow, .borrowed b => Json.encBytes b
  | .cow, .owned b => Json.encBytes b
  | .slice, b => Json.encBytes b
  | .array _, b => Json.encBytes b.1

/-- `decode_bytes` from JSON: `json/de/mod.rs:275-322`. -/
def BytesTy.decJ (full : Bool) : (k : BytesTy) → Json.P k.Val
  | .vec => Json.visitBytes full (Vis.copy Bytes)
  | .boxed => Json.visitBytes full (Vis.copy Bytes)
  | .deque => do
    let b ← Json.visitBytes full (Vis.copy Bytes)
    pure ⟨b, []⟩
  | .cow => Json.visitBytes full (Vis.cow Bytes)
  | .slice => Json.visitBytes full (Vis.borrow Bytes)
  | .array n => Json.decArray full n

/-- `encode_bytes_vectored`, `value/en.rs:250-263`: the vectors appended to an empty one. -/
def vectoredV (parts : List Bytes) : Value := .bytes (parts.foldl (· ++ ·) [])

/-- `encode_bytes` to a `Value`: `value/en.rs:233-263`. -/
def BytesTy.encV : (k : BytesTy) → k.Val → Value
  | .vec, b => .bytes b
  | .boxed, b => .bytes b
  | .deque, d => vectoredV [d.first, d.second]
  | .cow, .borrowed b => .bytes b
  | .cow, .owned b => .bytes b
  | .slice, b => .bytes b
  | .array _, b => .bytes b.1

/-- `decode_bytes` of a `Value`, which calls `visit_borrowed`, `value/de.rs:240-247`; `decode_array`, `233-237`. -/
def BytesTy.decV : (k : BytesTy) → Value → Except Err k.Val
  | .vec, x => readBytesV x >>= (Vis.copy Bytes).borrowed
  | .boxed, x => readBytesV x >>= (Vis.copy Bytes).borrowed
  | .deque, x => do
    let b ← readBytesV x >>= (Vis.copy Bytes).borrowed
    pure ⟨b, []⟩
  | .cow, x => readBytesV x >>= (Vis.cow Bytes).borrowed
  | .slice, x => readBytesV x >>= (Vis.borrow Bytes).borrowed
  | .array n, x => readBytesV x >>= toArray n

end Musli
