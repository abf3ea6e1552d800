import Verif.Model.Codec
/-!
# `usize` and `isize` on machines with pointers of 32 or 64 bits

The other models fix `usize` to 64 bits. Here the width of `usize` is a parameter; `Ptr.w64` is shown to be the
other models by `C113_model_w64`. Machines with pointers of 16 bits are not modelled: `descriptive/tag.rs:113-124`
does not compile for them.
-/
namespace Musli

/-- `cfg(target_pointer_width = ..)`. -/
inductive Ptr where | w32 | w64
deriving Repr, DecidableEq

/-- `usize::BITS`. -/
def Ptr.bits : Ptr → Nat
  | .w32 => 32 | .w64 => 64

/-- The width in the tags `USIZE` and `ISIZE`, `descriptive/tag.rs:113-124`. -/
def Ptr.tagWidth : Ptr → IW
  | .w32 => .w32 | .w64 => .w64

namespace Ptr

/-- `encode_usize`, `int/encoding.rs:96-123`. -/
def encodeUsize [Host] (P : Ptr) (o : Options) (v : BitVec P.bits) : Enc :=
  match Opt.length o with
  | .variable => .ok (Varint.encode v)
  | width =>
    if v.toNat < 2 ^ Int'.widthBits width then
      .ok (Fixed.writeBytes (Opt.byteorder o) (v.setWidth (Int'.widthBits width)))
    else .error .overflow

/-- `usize::try_from`, `int/encoding.rs:144-148`, `wire/int.rs:89-91`. -/
def tryFrom (P : Ptr) {w : Nat} (v : BitVec w) : Dec (BitVec P.bits) :=
  if v.toNat < 2 ^ P.bits then pure (v.setWidth P.bits) else Dec.fail .overflow

/-- `decode_usize`, `int/encoding.rs:127-156`. -/
def decodeUsize [Host] (P : Ptr) (o : Options) : Dec (BitVec P.bits) :=
  match Opt.length o with
  | .variable => Varint.decode P.bits
  | width => do
    let v ← Fixed.readBytes (Int'.widthBits width) (Opt.byteorder o)
    P.tryFrom v

/-- `encode_length`, `wire/int.rs:10-46`. -/
def wireEnc [Host] (P : Ptr) (o : Options) (v : BitVec P.bits) : Enc :=
  match Opt.length o with
  | .variable =>
    if v.toNat < 63 then .ok [Wire.tag Wire.CONTINUATION (v.setWidth 8)]
    else .ok (Wire.tag Wire.CONTINUATION Wire.DATA_MASK :: Varint.encode v)
  | width =>
    .ok [Wire.tag Wire.PREFIX (Wire.widthTag width)] +>
      (if v.toNat < 2 ^ Int'.widthBits width then
        .ok (Fixed.writeBytes (Opt.byteorder o) (v.setWidth (Int'.widthBits width)))
      else .error .overflow)

/-- `decode_length`, `wire/int.rs:50-99`. -/
def wireDec [Host] (P : Ptr) (o : Options) : Dec (BitVec P.bits) :=
  match Opt.length o with
  | .variable => do
    let t ← Dec.readByte
    if Wire.kind t = Wire.CONTINUATION then
      match Wire.data t with
      | some d => pure (d.setWidth P.bits)
      | none => Varint.decode P.bits
    else Dec.fail .invalid
  | width => do
    let t ← Dec.readByte
    if t = Wire.tag Wire.PREFIX (Wire.widthTag width) then do
      let v ← Fixed.readBytes (Int'.widthBits width) (Opt.byteorder o)
      P.tryFrom v
    else Dec.fail .invalid

/-- `Encoder::encode_usize`: `storage/en.rs:208-210`, `wire/en.rs:250-252`, `descriptive/en.rs:229-231`. -/
def encUsize [Host] (P : Ptr) (o : Options) : Mode → BitVec P.bits → Enc
  | .storage, v => P.encodeUsize o v
  | .packed, v => P.encodeUsize o v
  | .wire, v => P.wireEnc o v
  | .descriptive, v => Desc.encTyped (Desc.number P.tagWidth .unsigned) v

/-- `Decoder::decode_usize`: `storage/de.rs:280-282`, `wire/de.rs:443-445`, `descriptive/de.rs:541-543`. -/
def decUsize [Host] (P : Ptr) (o : Options) : Mode → Dec (BitVec P.bits)
  | .storage => P.decodeUsize o
  | .packed => P.decodeUsize o
  | .wire => P.wireDec o
  | .descriptive => Desc.decTypedUnsigned P.bits

/-- `Encoder::encode_isize`: `value as usize` in `storage/en.rs:213-215` and `wire/en.rs:255-261`, zigzag in
`descriptive/en.rs:234-236`. -/
def encIsize [Host] (P : Ptr) (o : Options) : Mode → BitVec P.bits → Enc
  | .storage, v => P.encodeUsize o v
  | .packed, v => P.encodeUsize o v
  | .wire, v => P.wireEnc o v
  | .descriptive, v => Desc.encTyped (Desc.number P.tagWidth .signed) (ZigZag.encode v)

/-- `Decoder::decode_isize`: `as isize` in `storage/de.rs:285-287` and `wire/de.rs:448-450`, zigzag in
`descriptive/de.rs:546-548`. -/
def decIsize [Host] (P : Ptr) (o : Options) : Mode → Dec (BitVec P.bits)
  | .storage => P.decodeUsize o
  | .packed => P.decodeUsize o
  | .wire => P.wireDec o
  | .descriptive => Desc.decTypedSigned P.bits

end Ptr
end Musli
