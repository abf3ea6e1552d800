import Verif.Model.Codec
import Verif.Model.Value.Value
import Verif.Model.Json.Codec
/-!
# `#[musli(packed)]` fields and `Packed<T>`

`EncodePacked` and `DecodePacked` of arrays, tuples, `Vec`, `VecDeque` and sets. A field
with `#[musli(packed)]` calls `EncodePacked::encode_packed` instead of `Encode::encode`,
`musli-macros/src/internals/mode.rs:91-109, 139-165`, and `Packed<T>` is a transparent struct
of one such field, `musli/src/compat.rs:174-178`, so that both are the functions
of this file. Lists and deques can be packed, not unpacked: they do not implement
`DecodePacked`.
-/
namespace Musli.PackedField
open Musli

/-- `Encoder::encode_pack_fn`: run the closure, which writes to the buffer of the
pack, and finish it, `musli-core/src/en/encoder.rs:1323-1330`,
`storage/en.rs:97-102`, `wire/en.rs:141-143, 362-367`, `descriptive/en.rs:110-112, 350-355`. -/
def inPack (F : Fmt) (e : Enc) : Enc :=
  match e with
  | .error e => .error e
  | .ok b => F.encPack b

section
variable [Host] (o : Options) (env : Env)

/-- The elements of a pack, one `push` each: `encode_next()?.encode(value)`,
`musli-core/src/en/sequence_encoder.rs:26-34`. The encoder of an element is
`StorageEncoder<OPT, true>` in all formats but JSON. -/
def pushAll (t : Ty) (l : List t.Val) : Enc := Enc.all (viaE o env t .packed) l

/-- `EncodePacked::encode_packed` of `[T; N]`, `impls/mod.rs:273-290`, and of sets and heaps,
which are given as the list of what their iterators yield, `impls/alloc.rs:353-380`. -/
def encArray (m : Mode) (t : Ty) (l : List t.Val) : Enc := inPack (m.fmt o) (pushAll o env t l)

/-- `DecodePacked::decode_packed` of `[T; N]`, `impls/mod.rs:292-317`: `decode_next` is called
`N` times and nothing asks whether there is a next element;
`storage/de.rs:122-128, 444-456`, `wire/de.rs:265-275, 551-559`,
`descriptive/de.rs:282-292`. -/
def decArray (m : Mode) (t : Ty) (n : Nat) : Dec (List t.Val) :=
  (m.fmt o).decPack (decN (viaD o env t .packed) n)

/-- `EncodePacked::encode_packed` of tuples, `impls/tuples.rs:96-114`. -/
def encTuple (m : Mode) (ts : Tys) (v : ts.Val) : Enc :=
  inPack (m.fmt o) (encTys o env ts .packed v)

/-- The closure of `DecodePacked::decode_packed` of tuples, `impls/tuples.rs:127-131`. -/
def nexts : (ts : Tys) → Dec ts.Val
  | .nil => pure ()
  | .cons t ts => do
    let a ← viaD o env t .packed
    let b ← nexts ts
    pure (a, b)

/-- `DecodePacked::decode_packed` of tuples, `impls/tuples.rs:116-133`. -/
def decTuple (m : Mode) (ts : Tys) : Dec ts.Val := (m.fmt o).decPack (nexts o env ts)

/-- `SequenceEncoder::encode_slice` of the encoder of a pack: bitwise in storage and the
packed format, `storage/en.rs:352-366, 627-650`; elsewhere the default,
`musli-core/src/en/utils.rs:52-75`. -/
def encodeSlice (m : Mode) (t : Ty) (l : List t.Val) : Enc :=
  if (m.fmt o).native && t.bwE then .ok (l.flatMap t.rawE) else pushAll o env t l

/-- `SequenceEncoder::encode_slices`, `storage/en.rs:368-384, 659-685`,
`musli-core/src/en/utils.rs:77-102`. -/
def encodeSlices (m : Mode) (t : Ty) : List (List t.Val) → Enc
  | [] => .ok []
  | l :: ls => encodeSlice o env m t l +> encodeSlices m t ls

/-- `EncodePacked::encode_packed` of `Vec<T>`, `musli-core/src/internal/macros.rs:119-135`. -/
def encVec (m : Mode) (t : Ty) (l : List t.Val) : Enc :=
  inPack (m.fmt o) (encodeSlice o env m t l)

/-- `EncodePacked::encode_packed` of `VecDeque<T>`, `impls/alloc.rs:430-446`; `a` and `b` are the
halves of its ring buffer. -/
def encDeque (m : Mode) (t : Ty) (a b : List t.Val) : Enc :=
  inPack (m.fmt o) (encodeSlices o env m t [a, b])

/-! ## Values -/

/-- A packed array in a `Value`: `PackValueEncoder`, `value/en.rs:289-291, 418-475`. -/
def encArrayV (t : Ty) (l : List t.Val) : Out := outBytes (pushAll o env t l)

/-- `decode_pack` of a `Value`, `value/de.rs:267-274`. -/
def decArrayV (t : Ty) (n : Nat) (x : Value) : Except Err (List t.Val) := do
  let b ← readBytesV x
  onPack (decN (viaD o env t .packed) n) b

/-- A packed tuple in a `Value`. -/
def encTupleV (ts : Tys) (v : ts.Val) : Out :=
  outBytes (encTys o env ts .packed v)

/-- A packed tuple from a `Value`. -/
def decTupleV (ts : Tys) (x : Value) : Except Err ts.Val := do
  let b ← readBytesV x
  onPack (nexts o env ts) b

end

/-! ## JSON -/

section
variable (full : Bool) (env : Env)

/-- A packed array in JSON: `JsonArrayEncoder`, `json/en/mod.rs:257-259`. -/
def encArrayJ (t : Ty) (l : List t.Val) : Enc :=
  Json.brackets (Json.sepAll (Json.encJ env t) true l)

/-- `decode_next` and `decode`, `n` times; whether no element has been read yet,
`json/de/sequence_decoder.rs:45-68, 124-131`. -/
def nextsJ (t : Ty) : (n : Nat) → (first : Bool) → Json.P (List t.Val × Bool)
  | 0, first => pure ([], first)
  | n + 1, first => do
    Json.needNext first
    let a ← Json.decJ full env t
    let (l, first) ← nextsJ t n false
    pure (a :: l, first)

/-- `decode_pack` with the closure for `[T; N]`, `json/de/mod.rs:348-356`,
`impls/mod.rs:304-316`. -/
def decArrayJ (t : Ty) (n : Nat) : Json.P (List t.Val) := do
  Json.expect .openBracket
  let (l, first) ← nextsJ full env t n true
  Json.endSeq first
  pure l

/-- A packed tuple in JSON. -/
def encTupleJ (ts : Tys) (v : ts.Val) : Enc := Json.brackets (Json.encTysJ env ts true v)

/-- `decode_pack` with the closure for tuples. -/
def decTupleJ (ts : Tys) : Json.P ts.Val := do
  Json.expect .openBracket
  let (v, first) ← Json.decTysJ full env ts true
  Json.endSeq first
  pure v

end
end Musli.PackedField
