import Verif.Model.Serde
import Verif.Model.Value.Any
import Verif.Spec.SerdeData
/-!
# `Serializer` call by call, and `deserialize_any` of the descriptive format

`crates/musli/src/serde/ser.rs:23-495`, `serde/de.rs:33-39, 712-886`. A serde type
with `#[serde(untagged)]`, `#[serde(tag = "..")]` or `#[serde(flatten)]` first collects
everything with a visitor that accepts every call; what it is told is a `Seen`.
-/
namespace Musli.Serde

/-! ## Serializing -/

section
variable (F : Fmt)

mutual

/-- `Serializer`, `ser.rs:23-263`: one call for each constructor. Lengths which are not known
are an error: in the binary formats `encode_sequence` asks for the length
(`hint.require`, e.g. `descriptive/en.rs:255-268`), and `serialize_map` always does
(`ser.rs:217-228`). -/
def serData : SData → Enc
  | .bool b => F.encPrim .bool b
  | .char c => F.encPrim .char c
  | .uint w v => F.encPrim (.uint w) v
  | .sint w v => F.encPrim (.sint w) v
  | .f32 v => F.encPrim .f32 v
  | .f64 v => F.encPrim .f64 v
  | .str s => F.encStr s.bytes
  | .bytes b => F.encBytes b
  | .none => F.encNone
  | .some d => F.encSome +> serData d
  | .unit => F.encUnit
  | .unitStruct => F.encUnit
  | .unitVariant n => F.encVariant +> F.encStr n.bytes +> F.encUnit
  | .newtypeStruct d => serData d
  | .newtypeVariant n d => F.encVariant +> F.encStr n.bytes +> serData d
  | .seq known l => if known then F.encSeq l.length +> serDatas l else .error .unsupported
  | .tuple l => F.encSeq l.length +> serDatas l
  | .tupleStruct l => F.encSeq l.length +> serDatas l
  | .tupleVariant n l => F.encVariant +> F.encStr n.bytes +> (F.encSeq l.length +> serDatas l)
  | .map known l => if known then F.encMap l.length +> serPairs l else .error .unsupported
  | .struct l => F.encMap l.length +> serMembers l
  | .structVariant n l =>
    F.encVariant +> F.encStr n.bytes +> (F.encMap l.length +> serMembers l)

/-- `SerializeSeq`, `SerializeTuple`, `SerializeTupleStruct`, `SerializeTupleVariant`,
`ser.rs:279-375`. -/
def serDatas : List SData → Enc
  | [] => .ok []
  | d :: l => serData d +> serDatas l

/-- `SerializeMap`, `ser.rs:377-418`. -/
def serPairs : List (SData × SData) → Enc
  | [] => .ok []
  | p :: l => serPair p +> serPairs l

/-- `serialize_key`, `serialize_value`, `ser.rs:396-412`. -/
def serPair : SData × SData → Enc
  | (k, d) => serData k +> serData d

/-- `SerializeStruct`, `SerializeStructVariant`, `ser.rs:420-495`. -/
def serMembers : List (Str × SData) → Enc
  | [] => .ok []
  | p :: l => serMember p +> serMembers l

/-- `serialize_field`, `ser.rs:439-448, 474-489`. -/
def serMember : Str × SData → Enc
  | (n, d) => F.encStr n.bytes +> serData d

end

end

/-! ## `deserialize_any` -/

/-- `visit_u128`, `de.rs:775-783`: as a `u64` if it fits. -/
def visitU128 (v : BitVec 128) : Seen :=
  if v.toNat < 2 ^ 64 then .uint .w64 (v.setWidth 64) else .uint .w128 v

/-- `visit_i128`, `de.rs:806-814`: as an `i64` if it fits. -/
def visitI128 (v : BitVec 128) : Seen :=
  if -2 ^ 63 ≤ v.toInt ∧ v.toInt < 2 ^ 63 then .sint .w64 (v.setWidth 64) else .sint .w128 v

namespace Desc
open Musli.Desc

/-- The `match data` of `decode_any`, `descriptive/de.rs:640-690`, with the `AnyVisitor`,
`serde/de.rs:754-834`. -/
def anyNum (d : Byte) : Dec Seen :=
  if d = number .w8 .unsigned then do
    let v ← decTypedUnsigned 8
    pure (.uint .w8 v)
  else if d = number .w16 .unsigned then do
    let v ← decTypedUnsigned 16
    pure (.uint .w16 v)
  else if d = number .w32 .unsigned then do
    let v ← decTypedUnsigned 32
    pure (.uint .w32 v)
  else if d = number .w64 .unsigned then do
    let v ← decTypedUnsigned 64
    pure (.uint .w64 v)
  else if d = number .w128 .unsigned then do
    let v ← decTypedUnsigned 128
    pure (visitU128 v)
  else if d = number .w8 .signed then do
    let v ← decTypedSigned 8
    pure (.sint .w8 v)
  else if d = number .w16 .signed then do
    let v ← decTypedSigned 16
    pure (.sint .w16 v)
  else if d = number .w32 .signed then do
    let v ← decTypedSigned 32
    pure (.sint .w32 v)
  else if d = number .w64 .signed then do
    let v ← decTypedSigned 64
    pure (.sint .w64 v)
  else if d = number .w128 .signed then do
    let v ← decTypedSigned 128
    pure (visitI128 v)
  else if d = number .w32 .float then do
    let v ← decTypedUnsigned 32
    pure (.f32 v)
  else if d = number .w64 .float then do
    let v ← decTypedUnsigned 64
    pure (.f64 v)
  else Dec.fail .invalid

variable [Host] (o : Options)

/-- `deserialize_any`, `serde/de.rs:33-39`: `decode_any` of a `SelfDecoder`
(`descriptive/de.rs:624-742`) with the `AnyVisitor` (`serde/de.rs:712-886`), and a visitor which
takes everything. `visit_map` goes through `decode_remaining_entries` and
`end_entries`, `serde/de.rs:862-873`. There is no `visit_variant`: the default is an error
(`musli-core/src/de/visitor.rs:271-279`). `fuel` bounds the nesting. -/
def any : (fuel : Nat) → Dec Seen
  | 0 => Dec.fail .fuel
  | fuel + 1 => do
    let p ← Dec.peek
    match p with
    | Option.none => Dec.fail .eof
    | some t =>
      if kind t = NUMBER then
        match data t with
        | Option.none => Dec.fail .invalid
        | some d => anyNum d
      else if kind t = SEQUENCE then do
        let n ← decTagLen o SEQUENCE
        let l ← decN (any fuel) n
        let _ ← endSeq o 0
        pure (.seq l)
      else if kind t = MAP then do
        let n ← decTagLen o MAP
        let l ← decN (do
          let k ← any fuel
          let v ← any fuel
          pure (k, v)) n
        let _ ← endMap o 0
        let _ ← endMap o 0
        pure (.map l)
      else if kind t = BYTES then do
        let b ← decBytes o BYTES
        pure (.bytes b)
      else if kind t = STRING then do
        let b ← decBytes o STRING
        let s ← Dec.ofExcept (toStr b)
        pure (.str s)
      else if kind t = MARK then
        if mark t = mTrue ∨ mark t = mFalse then do
          let b ← decBool
          pure (.bool b)
        else if mark t = mVariant then do
          let _ ← decVariant
          Dec.fail .unsupported
        else if mark t = mSome ∨ mark t = mNone then do
          let b ← decOption
          if b then do
            let v ← any fuel
            pure (.some v)
          else pure .none
        else if mark t = mChar then do
          let c ← decChar
          pure (.char c)
        else if mark t = mUnit then do
          let _ ← skip o
          pure .unit
        else Dec.fail .invalid
      else Dec.fail .invalid

/-- `deserialize_any` with enough fuel: every level reads a tag. -/
def deserializeAny : Dec Seen := fun s => any o (s.length + 1) s

end Desc

end Musli.Serde
