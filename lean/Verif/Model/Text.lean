import Verif.Model.Codec
/-!
# Strings in allocated memory, `musli-core/src/alloc/string.rs`

The bytes of a `String<A>` are in a `Vec<u8, A>`. The model of the vector is its bytes and the state of its
allocator, which answers any request as it likes; how the allocators of the crate answer, and that a vector
keeps its bytes when it is moved, is in `Model/Alloc`.
-/
namespace Musli.Text
open Musli

/-- An `Allocator` with one allocation, `alloc.rs:104`: a request
to resize it for a length and a number of additional elements is granted or not. -/
structure Memory where
  State : Type
  resize : State → (len additional : Nat) → Bool × State

variable {A : Memory}

/-- `Vec<u8, A>`, `vec.rs:30-36`. -/
structure ByteVec (A : Memory) where
  st : A.State
  bytes : Bytes

/-- `String<A>`, `string.rs:48-53`. That the bytes are UTF-8 is not a part of the type. -/
structure Text (A : Memory) where
  vec : ByteVec A

/-- `Vec::extend_from_slice`, `vec.rs:478-494`. -/
def ByteVec.extend (v : ByteVec A) (s : Bytes) : Bool × ByteVec A :=
  match A.resize v.st v.bytes.length s.length with
  | (false, st) => (false, { v with st := st })
  | (true, st) => (true, ⟨st, v.bytes ++ s⟩)

/-- `new_in`, `string.rs:125-129`. -/
def Text.new (st : A.State) : Text A := ⟨⟨st, []⟩⟩

/-- `with_capacity_in`, `string.rs:174-178`, and `vec.rs:107-117`: fails if the memory is not granted. -/
def Text.withCapacity (st : A.State) (n : Nat) : Option (Text A) :=
  match A.resize st 0 n with
  | (false, _) => none
  | (true, st) => some ⟨⟨st, []⟩⟩

/-- `from_utf8`, `string.rs:263-271`: the error has the vector. -/
def Text.fromUtf8 (v : ByteVec A) : Text A ⊕ ByteVec A :=
  if Utf8.valid v.bytes then .inl ⟨v⟩ else .inr v

/-- `into_bytes`, `string.rs:333-335`. -/
def Text.intoBytes (t : Text A) : ByteVec A := t.vec

/-- `as_str`, `string.rs:353-356`, and `deref`, `string.rs:504-506`: the bytes are not checked, and it is
undefined behaviour if they are not UTF-8 (`none`). `into_std`, `string.rs:182-190`, is the same. -/
def Text.asStr (t : Text A) : Option Str :=
  if h : Utf8.valid t.vec.bytes then some ⟨t.vec.bytes, h⟩ else none

/-- `push`, `string.rs:380-383`. -/
def Text.push (t : Text A) (c : Char) : Bool × Text A :=
  let r := t.vec.extend (Utf8.encodeChar c)
  (r.1, ⟨r.2⟩)

/-- `push_str`, `string.rs:404-406`. -/
def Text.pushStr (t : Text A) (s : Str) : Bool × Text A :=
  let r := t.vec.extend s.bytes
  (r.1, ⟨r.2⟩)

/-- `From<std::string::String>`, `string.rs:639-646`. -/
def Text.ofStd (st : A.State) (s : Str) : Text A := ⟨⟨st, s.bytes⟩⟩

/-- `eq`, `string.rs:544-546`, and the comparisons with `str`, `&str` and `Cow<str>`, `string.rs:581-622`. -/
def Text.eq (a b : Text A) : Bool := a.vec.bytes == b.vec.bytes

/-- `cmp` for byte slices of the standard library: the first byte which differs decides, and then the length. -/
def cmpBytes : Bytes → Bytes → Ordering
  | [], [] => .eq
  | [], _ :: _ => .lt
  | _ :: _, [] => .gt
  | a :: s, b :: t => if a.toNat < b.toNat then .lt else if b.toNat < a.toNat then .gt else cmpBytes s t

/-- `cmp`, `string.rs:556-558, 566-568`. -/
def Text.cmp (a b : Text A) : Ordering := cmpBytes a.vec.bytes b.vec.bytes

/-! ## `core::fmt` -/

/-- The calls a `Display` implementation makes: it can write strings and characters, it is told whether that
worked, and in the end it returns `Ok` or `Err`. -/
inductive Show where
  | ret (ok : Bool)
  | str (s : Str) (k : Bool → Show)
  | chr (c : Char) (k : Bool → Show)

/-- The implementation writes into a `String<A>`, whose `fmt::Write` is at `string.rs:482-495`. -/
def Show.run : Show → Text A → Bool × Text A
  | .ret ok, t => (ok, t)
  | .str s k, t => (k (t.pushStr s).1).run (t.pushStr s).2
  | .chr c k, t => (k (t.push c).1).run (t.push c).2

/-- `collect_string`, `string.rs:19-33`: any error is an `AllocError`. -/
def collect (st : A.State) (d : Show) : Except Unit (Text A) :=
  match d.run (Text.new st) with
  | (true, t) => .ok t
  | (false, _) => .error ()

/-- Why encoding fails: there is no memory, undefined behaviour, or the format. -/
inductive Failure where
  | alloc
  | ub
  | format (e : Err)
deriving DecidableEq

/-- The default implementation of `Encoder::collect_string`, `en/encoder.rs:1125-1132`; no format has
another. `encodeString` is that of the format. -/
def encCollect {β} (encodeString : Str → Except Err β) (st : A.State) (d : Show) : Except Failure β :=
  match collect st d with
  | .error _ => .error .alloc
  | .ok t =>
    match t.asStr with
    | none => .error .ub
    | some s =>
      match encodeString s with
      | .ok bs => .ok bs
      | .error e => .error (.format e)

/-- `Encode for String<A>`, `string.rs:779-799`. -/
def encText {β} (encodeString : Str → Except Err β) (t : Text A) : Except Failure β :=
  match t.asStr with
  | none => .error .ub
  | some s =>
    match encodeString s with
    | .ok bs => .ok bs
    | .error e => .error (.format e)

/-! ## Decoding -/

/-- How a decoder calls the visitor of `decode_string`. -/
inductive Seen (A : Memory) where
  | borrowed (s : Str)
  | ref (s : Str)
  | owned (t : Text A)

/-- The visitor, `string.rs:824-857`; `visit_borrowed` is `visit_ref`, `de/unsized_visitor.rs:62-64`. -/
def visit (st : A.State) : Seen A → Except Unit (Text A)
  | .borrowed s => match (Text.new st).pushStr s with
    | (true, t) => .ok t
    | (false, _) => .error ()
  | .ref s => match (Text.new st).pushStr s with
    | (true, t) => .ok t
    | (false, _) => .error ()
  | .owned t => .ok t

/-! ## Programs -/

/-- What a program does with a string. -/
inductive Op where
  | push (c : Char)
  | pushStr (s : Str)
  | write (d : Show)
  | roundtrip

/-- One step: the result is whether it returned `Ok`. The last one is
`String::from_utf8(s.into_bytes())`. -/
def step (t : Text A) : Op → Bool × Text A
  | .push c => t.push c
  | .pushStr s => t.pushStr s
  | .write d => d.run t
  | .roundtrip => match Text.fromUtf8 t.intoBytes with
    | .inl t => (true, t)
    | .inr v => (false, ⟨v⟩)

/-- Several steps: the results and the string. -/
def runOps (t : Text A) : List Op → List Bool × Text A
  | [] => ([], t)
  | op :: ops =>
    let r := step t op
    let q := runOps r.2 ops
    (r.1 :: q.1, q.2)

end Musli.Text
