import Verif.Model.Storage
/-!
# Model of `crates/musli/src/descriptive/{en,de,tag,integer_encoding}.rs`
-/
namespace Musli.Desc

/-- `DATA_MASK`, `tag.rs:127`. -/
def DATA_MASK : Byte := 0b00011111#8
/-- `MARK_MASK`, `tag.rs:128`. -/
def MARK_MASK : Byte := 0b00000111#8
/-- `NUMBER_KIND_MASK`, `tag.rs:129`. -/
def NUMBER_KIND_MASK : Byte := 0b00000011#8
/-- `Kind::Number`, `tag.rs:142`. -/
def NUMBER : Byte := 0b01000000#8
/-- `Kind::Sequence`, `tag.rs:156`. -/
def SEQUENCE : Byte := 0b01100000#8
/-- `Kind::Map`, `tag.rs:158`. -/
def MAP : Byte := 0b10000000#8
/-- `Kind::Bytes`, `tag.rs:160`. -/
def BYTES : Byte := 0b10100000#8
/-- `Kind::String`, `tag.rs:162`. -/
def STRING : Byte := 0b11000000#8
/-- `Kind::Mark`, `tag.rs:164`. -/
def MARK : Byte := 0b11100000#8

/-- `Mark::None`, `tag.rs:15`. -/
def mNone : Byte := 0b000#8
/-- `Mark::Some`, `tag.rs:17`. -/
def mSome : Byte := 0b001#8
/-- `Mark::True`, `tag.rs:19`. -/
def mTrue : Byte := 0b010#8
/-- `Mark::False`, `tag.rs:21`. -/
def mFalse : Byte := 0b011#8
/-- `Mark::Variant`, `tag.rs:23`. -/
def mVariant : Byte := 0b100#8
/-- `Mark::Char`, `tag.rs:25`. -/
def mChar : Byte := 0b101#8
/-- `Mark::Unit`, `tag.rs:27`. -/
def mUnit : Byte := 0b110#8

/-- `NumberKind`, `tag.rs:39-49`. -/
inductive NumberKind where | signed | unsigned | float | reserved
deriving Repr, DecidableEq

/-- Discriminants of `NumberKind`. -/
def NumberKind.code : NumberKind → Byte
  | .signed => 0b00#8 | .unsigned => 0b01#8 | .float => 0b10#8 | .reserved => 0b11#8

/-- Discriminants of `Width`, `tag.rs:64-72`. -/
def widthCode : IW → Byte
  | .w8 => 0b011#8 | .w16 => 0b100#8 | .w32 => 0b101#8 | .w64 => 0b110#8 | .w128 => 0b111#8

/-- The constants `U8 .. F64`, `tag.rs:91-122`. -/
def number (w : IW) (k : NumberKind) : Byte := (widthCode w <<< 2) ||| k.code

/-- `Tag::new`, `Tag::from_mark`, `tag.rs:174-188`. -/
def tag (kind data : Byte) : Byte := kind ||| data

/-- `Tag::kind`, `tag.rs:220-224`. -/
def kind (t : Byte) : Byte := t &&& ~~~DATA_MASK

/-- `Tag::mark`, `tag.rs:192-196`. -/
def mark (t : Byte) : Byte := t &&& MARK_MASK

/-- `Tag::number_kind`, `tag.rs:200-204`. -/
def numberKind (t : Byte) : NumberKind :=
  if t &&& NUMBER_KIND_MASK = 0b00#8 then .signed
  else if t &&& NUMBER_KIND_MASK = 0b01#8 then .unsigned
  else if t &&& NUMBER_KIND_MASK = 0b10#8 then .float
  else .reserved

/-- `Tag::data`, `tag.rs:236-244`. -/
def data (t : Byte) : Option Byte :=
  if t &&& DATA_MASK = DATA_MASK then none else some (t &&& DATA_MASK)

/-- `encode_prefix`, `en.rs:536-556`, with `Tag::with_len`, `tag.rs:251-257`. -/
def encTagLen [Host] (o : Options) (kind : Byte) (n : Nat) : Enc :=
  if n < 31 then .ok [tag kind (BitVec.ofNat 8 n)]
  else .ok [tag kind DATA_MASK] +> encLen o n

/-- `decode_len`, `de.rs:152-158`. -/
def tagLen [Host] (o : Options) (t : Byte) : Dec Nat :=
  match data t with
  | some d => pure d.toNat
  | none => decLen o

/-- `decode_prefix`, `de.rs:135-149`; `decode_pack_length`, `de.rs:162-169`. -/
def decTagLen [Host] (o : Options) (k : Byte) : Dec Nat := do
  let t ← Dec.readByte
  if kind t = k then tagLen o t else Dec.fail .invalid

/-- The body of the loop of `skip_any`, `de.rs:65-115`. -/
def step [Host] (o : Options) : Dec Nat := do
  let t ← Dec.readByte
  if kind t = NUMBER then do
    let _ ← Varint.decode 128
    pure 0
  else if kind t = MARK then
    if mark t = mVariant then pure 2
    else if mark t = mSome then pure 1
    else if mark t = mChar then do
      let _ ← Varint.decode 32
      pure 0
    else pure 0
  else if kind t = BYTES ∨ kind t = STRING then do
    let n ← tagLen o t
    let _ ← Dec.skip n
    pure 0
  else if kind t = SEQUENCE then tagLen o t
  else if kind t = MAP then do
    let n ← tagLen o t
    pure (n * 2)
  else Dec.fail .invalid

/-- `skip_any`, `de.rs:65-115`. -/
def skip [Host] (o : Options) : Dec Unit := skipAny (step o)

/-- `encode_typed`, `integer_encoding.rs:51-59`. -/
def encTyped (bits : Byte) {w : Nat} (v : BitVec w) : Enc :=
  .ok (tag NUMBER bits :: Varint.encode v)

/-- `decode_typed`, `integer_encoding.rs:60-76`. -/
def decTyped (w : Nat) : Dec (BitVec w × NumberKind) := do
  let t ← Dec.readByte
  if kind t = NUMBER then do
    let v ← Varint.decode w
    pure (v, numberKind t)
  else Dec.fail .invalid

/-- `decode_typed_unsigned`, `integer_encoding.rs:24-48`; `T::try_from(signed)`
fails for negative numbers. -/
def decTypedUnsigned (w : Nat) : Dec (BitVec w) := do
  let (v, k) ← decTyped w
  match k with
  | .signed => if (ZigZag.decode v).msb then Dec.fail .overflow else pure (ZigZag.decode v)
  | .unsigned => pure v
  | .float => pure v
  | .reserved => Dec.fail .invalid

/-- `decode_typed_signed`, `integer_encoding.rs:92-116`; `T::try_from(unsigned)`
fails from `2^(w-1)` on. -/
def decTypedSigned (w : Nat) : Dec (BitVec w) := do
  let (v, k) ← decTyped w
  match k with
  | .signed => pure (ZigZag.decode v)
  | .unsigned => if v.msb then Dec.fail .overflow else pure v
  | _ => Dec.fail .invalid

/-- `encode_bool .. encode_isize`, `en.rs:153-243`; `USIZE`, `ISIZE` for a 64-bit
target, `tag.rs:113-124`. -/
def encPrim : (p : Prim) → p.Val → Enc
  | .bool, b => .ok [tag MARK (if b then mTrue else mFalse)]
  | .char, c => .ok (tag MARK mChar :: Varint.encode (charCode c))
  | .uint w, v => encTyped (number w .unsigned) (w := w.bits) v
  | .sint w, v => encTyped (number w .signed) (w := w.bits) (ZigZag.encode v)
  | .usize, v => encTyped (number .w64 .unsigned) (w := 64) v
  | .isize, v => encTyped (number .w64 .signed) (w := 64) (ZigZag.encode v)
  | .f32, v => encTyped (number .w32 .float) (w := 32) v
  | .f64, v => encTyped (number .w64 .float) (w := 64) v

/-- `decode_bool`, `de.rs:434-451`. -/
def decBool : Dec Bool := do
  let t ← Dec.readByte
  if t = tag MARK mFalse then pure false
  else if t = tag MARK mTrue then pure true
  else Dec.fail .invalid

/-- `decode_char`, `de.rs:454-472`. -/
def decChar : Dec Char := do
  let t ← Dec.readByte
  if t = tag MARK mChar then do
    let n ← Varint.decode 32
    Dec.ofExcept (charOf n)
  else Dec.fail .invalid

/-- `decode_bool .. decode_isize`, `de.rs:434-548`. -/
def decPrim : (p : Prim) → Dec p.Val
  | .bool => decBool
  | .char => decChar
  | .uint w => decTypedUnsigned w.bits
  | .sint w => decTypedSigned w.bits
  | .usize => decTypedUnsigned 64
  | .isize => decTypedSigned 64
  | .f32 => decTypedUnsigned 32
  | .f64 => decTypedUnsigned 64

/-- `encode_bytes`, `encode_string`, `en.rs:109-138`. -/
def encBytes [Host] (o : Options) (kind : Byte) (b : Bytes) : Enc :=
  encTagLen o kind b.length +> .ok b

/-- `decode_bytes`, `de.rs:312-319`, `decode_string`, `de.rs:322-367`. -/
def decBytes [Host] (o : Options) (kind : Byte) : Dec Bytes := do
  let n ← decTagLen o kind
  Dec.readBytes n

/-- `decode_array`, `de.rs:295-309`. -/
def decArr [Host] (o : Options) (n : Nat) : Dec Bytes := do
  let m ← decTagLen o BYTES
  if m = n then Dec.readBytes n else Dec.fail .length

/-- `decode_option`, `de.rs:551-569`. -/
def decOption : Dec Bool := do
  let t ← Dec.readByte
  if t = tag MARK mNone then pure false
  else if t = tag MARK mSome then pure true
  else Dec.fail .invalid

/-- `skip_sequence_remaining`, `de.rs:200-206`: only one element is skipped. -/
def endSeq [Host] (o : Options) : Nat → Dec Unit
  | 0 => pure ()
  | _ + 1 => skip o

/-- `skip_map_remaining`, `de.rs:209-220`. -/
def endMap [Host] (o : Options) : Nat → Dec Unit
  | 0 => pure ()
  | n + 1 => do
    let _ ← skip o
    let _ ← skip o
    endMap o n

/-- `decode_variant`, `de.rs:605-621`. -/
def decVariant : Dec Unit := do
  let t ← Dec.readByte
  if t = tag MARK mVariant then pure () else Dec.fail .invalid

/-- `decode_pack`, `de.rs:282-292`. -/
def decPack [Host] (o : Options) {α} (d : Dec α) : Dec α := do
  let n ← decTagLen o BYTES
  limited n d

/-- `SelfEncoder<OPT>` and `SelfDecoder<OPT>`. `encode_empty`: `en.rs:103-107`;
`encode_some`, `encode_none`, `encode_variant`: `en.rs:239-309`; packs:
`en.rs:351-356`; `decode_empty`: `de.rs:277-279`; `try_skip`: `de.rs:264-267`. -/
def fmt [Host] (o : Options) : Fmt where
  native := false
  pack := false
  delimited := true
  encPrim := encPrim
  decPrim := decPrim
  encUnit := .ok [tag MARK mUnit]
  decUnit := skip o
  encBytes := encBytes o BYTES
  decBytes := decBytes o BYTES
  encArr := encBytes o BYTES
  decArr := decArr o
  encStr := encBytes o STRING
  decStr := decBytes o STRING
  encNone := .ok [tag MARK mNone]
  encSome := .ok [tag MARK mSome]
  decOption := decOption
  encSeq := encTagLen o SEQUENCE
  decSeq := decTagLen o SEQUENCE
  endSeq := endSeq o
  encMap := encTagLen o MAP
  decMap := decTagLen o MAP
  endMap := endMap o
  encVariant := .ok [tag MARK mVariant]
  decVariant := decVariant
  encPack := encBytes o BYTES
  decPack := decPack o
  skip := skip o

end Musli.Desc
