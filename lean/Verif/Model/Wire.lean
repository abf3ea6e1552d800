import Verif.Model.Storage
/-!
# Model of `crates/musli/src/wire/{en,de,tag,int}.rs`
-/
namespace Musli.Wire

/-- `DATA_MASK`, `tag.rs:12`. -/
def DATA_MASK : Byte := 0b00111111#8
/-- `Kind::Prefix`, `tag.rs:24`. -/
def PREFIX : Byte := 0b01000000#8
/-- `Kind::Sequence`, `tag.rs:28`. -/
def SEQUENCE : Byte := 0b10000000#8
/-- `Kind::Continuation`, `tag.rs:32`. -/
def CONTINUATION : Byte := 0b11000000#8

/-- `Tag::new`, `tag.rs:56-62`. The debug assertion that `data` fits is not
modelled. -/
def tag (kind data : Byte) : Byte := kind ||| data

/-- `Tag::kind`, `tag.rs:86-90`. -/
def kind (t : Byte) : Byte := t &&& ~~~DATA_MASK

/-- `Tag::data`, `tag.rs:102-110`. -/
def data (t : Byte) : Option Byte :=
  if t &&& DATA_MASK = DATA_MASK then none else some (t &&& DATA_MASK)

/-- `Tag::with_len` with what follows it: `encode_prefix`, `encode_sequence_len`,
`en.rs:56-66, 548-562`, `tag.rs:117-123`. -/
def encTagLen [Host] (o : Options) (kind : Byte) (n : Nat) : Enc :=
  if n < 63 then .ok [tag kind (BitVec.ofNat 8 n)]
  else .ok [tag kind DATA_MASK] +> encLen o n

/-- The length belonging to a tag, `de.rs:75-79, 113-117, 147-151`. -/
def tagLen [Host] (o : Options) (t : Byte) : Dec Nat :=
  match data t with
  | some d => pure d.toNat
  | none => decLen o

/-- `decode_sequence_len` and `decode_len`, `de.rs:109-123, 143-156`. -/
def decTagLen [Host] (o : Options) (k : Byte) : Dec Nat := do
  let t ← Dec.readByte
  if kind t = k then tagLen o t else Dec.fail .invalid

/-- The body of the loop of `skip_any`, `de.rs:65-106`. -/
def step [Host] (o : Options) : Dec Nat := do
  let t ← Dec.readByte
  if kind t = PREFIX then do
    let n ← tagLen o t
    let _ ← Dec.skip n
    pure 0
  else if kind t = SEQUENCE then tagLen o t
  else if kind t = CONTINUATION then
    match data t with
    | some _ => pure 0
    | none => do
      let _ ← Varint.decode 128
      pure 0
  else Dec.fail .invalid

/-- `skip_any`, `de.rs:65-106`. -/
def skip [Host] (o : Options) : Dec Unit := skipAny (step o)

/-- `encode_unsigned`, `int.rs:103-128`. -/
def encUnsigned [Host] (o : Options) {w : Nat} (v : BitVec w) : Enc :=
  match Opt.integer o with
  | .variable =>
    if v.toNat < 63 then .ok [tag CONTINUATION (v.setWidth 8)]
    else .ok (tag CONTINUATION DATA_MASK :: Varint.encode v)
  | .fixed =>
    .ok (tag PREFIX (BitVec.ofNat 8 (w / 8)) :: Fixed.writeBytes (Opt.byteorder o) v)

/-- `decode_unsigned`, `int.rs:132-165`. -/
def decUnsigned [Host] (o : Options) (w : Nat) : Dec (BitVec w) :=
  match Opt.integer o with
  | .variable => do
    let t ← Dec.readByte
    if kind t = CONTINUATION then
      match data t with
      | some d => pure (d.setWidth w)
      | none => Varint.decode w
    else Dec.fail .invalid
  | .fixed => do
    let t ← Dec.readByte
    if t = tag PREFIX (BitVec.ofNat 8 (w / 8)) then Fixed.readBytes w (Opt.byteorder o)
    else Dec.fail .invalid

/-- `encode_signed`, `int.rs:169-182`. -/
def encSigned [Host] (o : Options) {w : Nat} (v : BitVec w) : Enc :=
  encUnsigned o (ZigZag.encode v)

/-- `decode_signed`, `int.rs:186-198`. -/
def decSigned [Host] (o : Options) (w : Nat) : Dec (BitVec w) := do
  let v ← decUnsigned o w
  pure (ZigZag.decode v)

/-- `1u8 << width as u8`, `int.rs:29`. -/
def widthTag (w : Width) : Byte := 1#8 <<< w.code.toNat

/-- `encode_length`, `int.rs:10-46`. -/
def encUsize [Host] (o : Options) (v : BitVec 64) : Enc :=
  match Opt.length o with
  | .variable =>
    if v.toNat < 63 then .ok [tag CONTINUATION (v.setWidth 8)]
    else .ok (tag CONTINUATION DATA_MASK :: Varint.encode v)
  | width =>
    .ok [tag PREFIX (widthTag width)] +>
      (if v.toNat < 2 ^ Int'.widthBits width then
        .ok (Fixed.writeBytes (Opt.byteorder o) (v.setWidth (Int'.widthBits width)))
      else .error .overflow)

/-- `decode_length`, `int.rs:50-99`. -/
def decUsize [Host] (o : Options) : Dec (BitVec 64) :=
  match Opt.length o with
  | .variable => do
    let t ← Dec.readByte
    if kind t = CONTINUATION then
      match data t with
      | some d => pure (d.setWidth 64)
      | none => Varint.decode 64
    else Dec.fail .invalid
  | width => do
    let t ← Dec.readByte
    if t = tag PREFIX (widthTag width) then do
      let v ← Fixed.readBytes (Int'.widthBits width) (Opt.byteorder o)
      pure (v.setWidth 64)
    else Dec.fail .invalid

/-- `encode_bool .. encode_isize`, `en.rs:177-261`. -/
def encPrim [Host] (o : Options) : (p : Prim) → p.Val → Enc
  | .bool, b => .ok [tag CONTINUATION (if b then 1#8 else 0#8)]
  | .char, c => encUnsigned o (charCode c)
  | .uint w, v => encUnsigned (w := w.bits) o v
  | .sint .w8, v => encUnsigned (w := 8) o v
  | .sint .w16, v => encSigned (w := 16) o v
  | .sint .w32, v => encSigned (w := 32) o v
  | .sint .w64, v => encSigned (w := 64) o v
  | .sint .w128, v => encSigned (w := 128) o v
  | .usize, v => encUsize o v
  | .isize, v => encUsize o v
  | .f32, v => encUnsigned (w := 32) o v
  | .f64, v => encUnsigned (w := 64) o v

/-- `decode_bool`, `de.rs:352-363`. -/
def decBool : Dec Bool := do
  let t ← Dec.readByte
  if t = tag CONTINUATION 0#8 then pure false
  else if t = tag CONTINUATION 1#8 then pure true
  else Dec.fail .invalid

/-- `decode_char`, `de.rs:366-374`. -/
def decChar [Host] (o : Options) : Dec Char := do
  let n ← decUnsigned o 32
  Dec.ofExcept (charOf n)

/-- `decode_bool .. decode_isize`, `de.rs:352-450`. -/
def decPrim [Host] (o : Options) : (p : Prim) → Dec p.Val
  | .bool => decBool
  | .char => decChar o
  | .uint w => decUnsigned o w.bits
  | .sint .w8 => decUnsigned o 8
  | .sint .w16 => decSigned o 16
  | .sint .w32 => decSigned o 32
  | .sint .w64 => decSigned o 64
  | .sint .w128 => decSigned o 128
  | .usize => decUsize o
  | .isize => decUsize o
  | .f32 => decUnsigned o 32
  | .f64 => decUnsigned o 64

/-- `encode_bytes`, `encode_string`, `encode_array`, `en.rs:145-174`, and the end
of a pack, `en.rs:362-367`. -/
def encBytes [Host] (o : Options) (b : Bytes) : Enc := encTagLen o PREFIX b.length +> .ok b

/-- `decode_bytes`, `de.rs:296-303`. -/
def decBytes [Host] (o : Options) : Dec Bytes := do
  let n ← decTagLen o PREFIX
  Dec.readBytes n

/-- `decode_array`, `de.rs:278-293`. -/
def decArr [Host] (o : Options) (n : Nat) : Dec Bytes := do
  let m ← decTagLen o PREFIX
  if m = n then Dec.readBytes n else Dec.fail .length

/-- `encode_map_len`, `en.rs:41-54`. -/
def encMapLen [Host] (o : Options) (n : Nat) : Enc :=
  if n * 2 < 2 ^ 64 then encTagLen o SEQUENCE (n * 2) else .error .overflow

/-- `decode_option`, `de.rs:453-465`. -/
def decOption : Dec Bool := do
  let t ← Dec.readByte
  if t = tag SEQUENCE 0#8 then pure false
  else if t = tag SEQUENCE 1#8 then pure true
  else Dec.fail .invalid

/-- `skip_sequence_remaining`, `de.rs:187-197`. -/
def endSeq [Host] (o : Options) : Nat → Dec Unit
  | 0 => pure ()
  | n + 1 => do
    let _ ← skip o
    endSeq o n

/-- `skip_remaining_entries`, `de.rs:200-211`. -/
def endMap [Host] (o : Options) : Nat → Dec Unit
  | 0 => pure ()
  | n + 1 => do
    let _ ← skip o
    let _ ← skip o
    endMap o n

/-- `decode_variant`, `de.rs:514-528`. -/
def decVariant : Dec Unit := do
  let t ← Dec.readByte
  if t = tag SEQUENCE 2#8 then pure () else Dec.fail .invalid

/-- `shared_decode_pair_sequence`, `de.rs:127-132`. -/
def decMapLen [Host] (o : Options) : Dec Nat := do
  let n ← decTagLen o SEQUENCE
  pure (n / 2)

/-- `decode_pack`, `de.rs:265-275`. -/
def decPack [Host] (o : Options) {α} (d : Dec α) : Dec α := do
  let n ← decTagLen o PREFIX
  limited n d

/-- `WireEncoder<OPT>` and `WireDecoder<OPT>`. `encode_empty`: `en.rs:134-138`,
`encode_some`, `encode_none`, `encode_variant`: `en.rs:264-304`; `decode_empty`:
`de.rs:260-262`; `try_skip`: `de.rs:254-257`. -/
def fmt [Host] (o : Options) : Fmt where
  native := false
  pack := false
  delimited := true
  encPrim := encPrim o
  decPrim := decPrim o
  encUnit := .ok [tag SEQUENCE 0#8]
  decUnit := skip o
  encBytes := encBytes o
  decBytes := decBytes o
  encArr := encBytes o
  decArr := decArr o
  encStr := encBytes o
  decStr := decBytes o
  encNone := .ok [tag SEQUENCE 0#8]
  encSome := .ok [tag SEQUENCE 1#8]
  decOption := decOption
  encSeq := encTagLen o SEQUENCE
  decSeq := decTagLen o SEQUENCE
  endSeq := endSeq o
  encMap := encMapLen o
  decMap := decMapLen o
  endMap := endMap o
  encVariant := .ok [tag SEQUENCE 2#8]
  decVariant := decVariant
  encPack := encBytes o
  decPack := decPack o
  skip := skip o

end Musli.Wire
