import Verif.Model.Codec
import Verif.Model.Json.Codec
/-!
# Model of encoding by hand

An `Encode` implementation written by hand calls the methods of `Encoder`,
`SequenceEncoder`, `MapEncoder`, `EntryEncoder`, `EntriesEncoder` and
`VariantEncoder` (`crates/musli-core/src/en/*.rs`). `Call` is the tree of the calls such an
implementation makes. The closure-taking methods (`encode_sequence_fn`,
`encode_map_fn`, `encode_variant_fn`, `encode_pack_fn`, ...) call the same methods and are not told
apart, nor are `insert_entry`, `insert_key`/`insert_value`, `insert_variant` and
`push` from the methods they call with `.encode(value)`.

Each encoder is finished: not finishing one (dropping it) is not modelled, and
neither are entries of which only the key or only the value is written.
-/
namespace Musli

mutual

/-- The calls which consume one `Encoder`. -/
inductive Call where
  /-- `encoder.encode(value)` -/
  | value (t : Ty) (v : t.Val)
  /-- `value.encode(encoder)`, and `encode_u32`, `encode_string`, ..., which it calls -/
  | direct (t : Ty) (v : t.Val)
  /-- `encode_bytes_vectored(len, vectors)` -/
  | vectored (len : Nat) (parts : List Bytes)
  /-- `encode_empty()` -/
  | empty
  /-- `encode_none()` -/
  | none
  /-- `encode_some()` and what is done with its result -/
  | some (c : Call)
  /-- `encode_slice(slice)` -/
  | slice (t : Ty) (l : List t.Val)
  /-- `encode_slices(len, slices)` -/
  | slices (t : Ty) (len : Nat) (ls : List (List t.Val))
  /-- `encode_sequence(hint)`, the items, and `finish_sequence()` -/
  | sequence (hint : Option Nat) (items : Items)
  /-- `encode_map(hint)`, the entries, and `finish_map()` -/
  | map (hint : Option Nat) (entries : Calls)
  /-- `encode_map_entries(hint)`, the keys and values, and `finish_entries()` -/
  | entries (hint : Option Nat) (entries : Calls)
  /-- `encode_variant()`, `encode_tag()`, `encode_data()` and `finish_variant()` -/
  | variant (tag data : Call)
  /-- `encode_sequence_variant(&tag, hint)`, the items, and `finish_sequence()` -/
  | sequenceVariant (t : Ty) (tag : t.Val) (hint : Option Nat) (items : Items)
  /-- `encode_map_variant(&tag, hint)`, the entries, and `finish_map()` -/
  | mapVariant (t : Ty) (tag : t.Val) (hint : Option Nat) (entries : Calls)
  /-- `encode_pack()`, the items, and `finish_sequence()` -/
  | pack (items : Items)

/-- The calls to a `SequenceEncoder`. -/
inductive Items where
  | done
  /-- `encode_next()` and what is done with its result -/
  | push (c : Call) (rest : Items)
  /-- `encode_slice(slice)` -/
  | slice (t : Ty) (l : List t.Val) (rest : Items)
  /-- `encode_slices(slices)` -/
  | slices (t : Ty) (ls : List (List t.Val)) (rest : Items)

/-- The calls to a `MapEncoder` or `EntriesEncoder`: keys and values. -/
inductive Calls where
  | done
  | entry (key value : Call) (rest : Calls)

end

section
variable [Host] (o : Options) (env : Env)

/-- What `encode_bytes_vectored(len, ..)` writes before the bytes, `storage/en.rs:114-127`,
`wire/en.rs:158-169`, `descriptive/en.rs:127-138`. -/
def bytesHeader : Mode → Nat → Enc
  | .storage, n => encLen o n
  | .packed, n => encLen o n
  | .wire, n => Wire.encTagLen o Wire.PREFIX n
  | .descriptive, n => Desc.encTagLen o Desc.BYTES n

/-- `SequenceHint::require`, `MapHint::require`, `musli-core/src/hint/sequence_hint.rs:17-29`,
`map_hint.rs:18-28`. -/
def require (hint : Option Nat) (f : Nat → Enc) : Enc :=
  match hint with
  | .none => .error .unsupported
  | .some n => f n

/-- The elements of a slice after each other: bitwise, `storage/en.rs:352-388, 620-685`, or with
`push`, `musli-core/src/en/utils.rs:54-102`. -/
def sliceBody (t : Ty) (m : Mode) (l : List t.Val) : Enc :=
  if (m.fmt o).native && t.bwE then .ok (l.flatMap t.rawE)
  else Enc.all (viaE o env t m) l

/-- The length before a slice: `storage/en.rs:546-618`, `musli-core/src/en/utils.rs:14, 38`. -/
def sliceLen (t : Ty) (m : Mode) (n : Nat) : Enc :=
  if (m.fmt o).native && t.bwE then neLen n else (m.fmt o).encSeq n

mutual

/-- What the calls write in a binary format. `encode_slice`, `encode_slices`: `storage/en.rs:235-269`,
else the defaults in `musli-core/src/en/utils.rs:5-52`; `encode_sequence`, `encode_map`, `encode_map_entries`,
`encode_variant`, `encode_sequence_variant`, `encode_map_variant`: `storage/en.rs:269-329`, `wire/en.rs:278-334`,
`descriptive/en.rs:253-323`; `finish_*` write nothing except for packs, `wire/en.rs:359-364`. In
storage the hint is checked before the tag of a variant is written, which
makes no difference as an error leaves no document. -/
def Call.run : Mode → Call → Enc
  | m, .value t v => viaE o env t m v
  | m, .direct t v => encD o env t m v
  | m, .vectored len parts => bytesHeader o m len +> .ok parts.flatten
  | m, .empty => (m.fmt o).encUnit
  | m, .none => (m.fmt o).encNone
  | m, .some c => (m.fmt o).encSome +> c.run m
  | m, .slice t l => sliceLen o t m l.length +> sliceBody o env t m l
  | m, .slices t len ls => sliceLen o t m len +> sliceBody o env t m ls.flatten
  | m, .sequence hint items => require hint (m.fmt o).encSeq +> items.run m
  | m, .map hint es => require hint (m.fmt o).encMap +> es.run m
  | m, .entries hint es => require hint (m.fmt o).encMap +> es.run m
  | m, .variant tag data => (m.fmt o).encVariant +> tag.run m +> data.run m
  | m, .sequenceVariant t tag hint items =>
    (m.fmt o).encVariant +> viaE o env t m tag +> require hint (m.fmt o).encSeq +> items.run m
  | m, .mapVariant t tag hint es =>
    (m.fmt o).encVariant +> viaE o env t m tag +> require hint (m.fmt o).encMap +> es.run m
  | m, .pack items =>
    match items.run .packed with
    | .error e => .error e
    | .ok b => (m.fmt o).encPack b

/-- The items of a sequence. -/
def Items.run : Mode → Items → Enc
  | _, .done => .ok []
  | m, .push c rest => c.run m +> rest.run m
  | m, .slice t l rest => sliceBody o env t m l +> rest.run m
  | m, .slices t ls rest => sliceBody o env t m ls.flatten +> rest.run m

/-- The entries of a map. -/
def Calls.run : Mode → Calls → Enc
  | _, .done => .ok []
  | m, .entry key value rest => key.run m +> value.run m +> rest.run m

end
end

namespace Json
open Json

section
variable (env : Env)

/-- The calls to the encoder of a key, `json/en/object_key_encoder.rs:36-128`: only those for numbers and strings
are implemented. -/
def keyRun : Call → Enc
  | .value t v => encKey t v
  | .direct t v => encKey t v
  | _ => .error .unsupported

mutual

/-- What the calls write as JSON, `json/en/mod.rs:203-309`. Hints are ignored. -/
def run : Call → Enc
  | .value t v => encJ env t v
  | .direct t v => encJ env t v
  | .vectored _ parts =>
    brackets (sepAll (fun b : Byte => encPrim (.uint .w8) b) true parts.flatten)
  | .empty => .ok strNull
  | .none => .ok strNull
  | .some c => run c
  | .slice t l => brackets (sepAll (encJ env t) true l)
  | .slices t _ ls => brackets (sepAll (encJ env t) true ls.flatten)
  | .sequence _ items => brackets (runItems true items)
  | .map _ es => braces (runCalls true es)
  | .entries _ es => braces (runCalls true es)
  | .variant tag data => braces (keyRun tag +> .ok [0x3A#8] +> run data)
  | .sequenceVariant t tag _ items =>
    .ok [0x7B#8] +> encKey t tag +> .ok [0x3A#8] +> .ok [0x5B#8] +> runItems true items +>
      .ok [0x5D#8, 0x7D#8]
  | .mapVariant t tag _ es =>
    .ok [0x7B#8] +> encKey t tag +> .ok [0x3A#8] +> .ok [0x7B#8] +> runCalls true es +>
      .ok [0x7D#8, 0x7D#8]
  | .pack items => brackets (runItems true items)

/-- The items of an array, `json/en/array_encoder.rs:60-73`. -/
def runItems : (first : Bool) → Items → Enc
  | _, .done => .ok []
  | first, .push c rest =>
    (if first then .ok [] else .ok [0x2C#8]) +> run c +> runItems false rest
  | first, .slice t l rest => sepAll (encJ env t) first l +> runItems (first && l.isEmpty) rest
  | first, .slices t ls rest =>
    sepAll (encJ env t) first ls.flatten +> runItems (first && ls.flatten.isEmpty) rest

/-- The members of an object, `json/en/object_encoder.rs:62-121`, `object_pair_encoder.rs:51-69`. -/
def runCalls : (first : Bool) → Calls → Enc
  | _, .done => .ok []
  | first, .entry key value rest =>
    (if first then .ok [] else .ok [0x2C#8]) +> keyRun key +> .ok [0x3A#8] +> run value +>
      runCalls false rest

end
end
end Json
end Musli
