import Verif.Model.Options
/-!
# Model of `crates/musli/src/int/{continuation,zigzag,traits,encoding}.rs`

Unsigned and signed `w`-bit integers are both `BitVec w`; a signed integer is
read through two's complement (`BitVec.toInt`).
-/
namespace Musli

namespace Varint

/-- `MASK_BYTE`, `continuation.rs:9`. -/
def MASK : Byte := 0x7f#8
/-- `CONT_BYTE`, `continuation.rs:10`. -/
def CONT : Byte := 0x80#8

/-- The `while` loop of `decode`, `continuation.rs:29-38`. `T::wrapping_shl` is
a plain shift since `shift < T::BITS` at that point. -/
def decodeLoop {w : Nat} (b : Byte) (value : BitVec w) (shift : Nat) :
    Bytes → Except Err (BitVec w × Bytes)
  | [] =>
    if b &&& CONT = CONT then
      if shift + 7 ≥ w then .error .overflow else .error .eof
    else .ok (value, [])
  | b' :: s =>
    if b &&& CONT = CONT then
      if shift + 7 ≥ w then .error .overflow
      else decodeLoop b' (value + ((b' &&& MASK).setWidth w <<< (shift + 7))) (shift + 7) s
    else .ok (value, b' :: s)

/-- `decode`, `continuation.rs:14-41`. -/
def decode (w : Nat) : Dec (BitVec w)
  | [] => .error .eof
  | b :: s =>
    if b &&& CONT = 0 then .ok (b.setWidth w, s)
    else decodeLoop b ((b &&& MASK).setWidth w) 0 s

/-- The `loop` of `encode`, `continuation.rs:58-68`. The loop ends when the value
is shifted out, after at most `w` rounds, which `fuel` counts. -/
def encodeLoop {w : Nat} : (fuel : Nat) → (value : BitVec w) → (b : Byte) → Bytes
  | 0, _, _ => []
  | fuel + 1, value, b =>
    let value := value >>> 7
    if value = 0 then [b &&& MASK]
    else (b ||| CONT) :: encodeLoop fuel value (value.setWidth 8)

/-- `encode`, `continuation.rs:45-71`. -/
def encode {w : Nat} (value : BitVec w) : Bytes :=
  let b : Byte := value.setWidth 8
  if value < CONT.setWidth w then [b] else encodeLoop (w + 1) value b

end Varint

namespace ZigZag

/-- `encode`, `zigzag.rs:9-14`. `>>` on a signed type is an arithmetic shift. -/
def encode {w : Nat} (x : BitVec w) : BitVec w :=
  (x.sshiftRight (w - 1)) ^^^ (x <<< 1)

/-- `decode`, `zigzag.rs:18-23`. -/
def decode {w : Nat} (x : BitVec w) : BitVec w :=
  (x >>> 1) ^^^ (-(x &&& 1#w))

end ZigZag

namespace Fixed

/-- The bytes of an integer, least significant first (`to_le_bytes`). -/
def leBytes {w : Nat} : (n : Nat) → BitVec w → Bytes
  | 0, _ => []
  | n + 1, v => v.setWidth 8 :: leBytes n (v >>> 8)

/-- `from_le_bytes`. -/
def ofLeBytes (w : Nat) : Bytes → BitVec w
  | [] => 0
  | b :: s => b.setWidth w ||| (ofLeBytes w s <<< 8)

/-- `swap_bytes`. -/
def swap {w : Nat} (v : BitVec w) : BitVec w := ofLeBytes w (leBytes (w / 8) v).reverse

/-- `to_ne_bytes`. -/
def toNe [Host] {w : Nat} (v : BitVec w) : Bytes :=
  match Host.order with
  | .little => leBytes (w / 8) v
  | .big => (leBytes (w / 8) v).reverse

/-- `from_ne_bytes`. -/
def ofNe [Host] (w : Nat) (b : Bytes) : BitVec w :=
  match Host.order with
  | .little => ofLeBytes w b
  | .big => ofLeBytes w b.reverse

/-- `UnsignedOps::write_bytes`, `traits.rs:150-167`. -/
def writeBytes [Host] {w : Nat} (bo : ByteOrder) (v : BitVec w) : Bytes :=
  toNe (if bo = Host.order then v else swap v)

/-- `UnsignedOps::read_bytes`, `traits.rs:170-189`. -/
def readBytes [Host] (w : Nat) (bo : ByteOrder) : Dec (BitVec w) := do
  let b ← Dec.readBytes (w / 8)
  let v := ofNe w b
  pure (if bo = Host.order then v else swap v)

end Fixed

namespace Int'

/-- `encode_unsigned`, `encoding.rs:8-25`. -/
def encodeUnsigned [Host] (o : Options) {w : Nat} (v : BitVec w) : Bytes :=
  match Opt.integer o with
  | .variable => Varint.encode v
  | .fixed => Fixed.writeBytes (Opt.byteorder o) v

/-- `decode_unsigned`, `encoding.rs:30-46`. -/
def decodeUnsigned [Host] (o : Options) (w : Nat) : Dec (BitVec w) :=
  match Opt.integer o with
  | .variable => Varint.decode w
  | .fixed => Fixed.readBytes w (Opt.byteorder o)

/-- `encode_signed`, `encoding.rs:50-68`. -/
def encodeSigned [Host] (o : Options) {w : Nat} (v : BitVec w) : Bytes :=
  match Opt.integer o with
  | .variable => Varint.encode (ZigZag.encode v)
  | .fixed => Fixed.writeBytes (Opt.byteorder o) v

/-- `decode_signed`, `encoding.rs:72-92`. -/
def decodeSigned [Host] (o : Options) (w : Nat) : Dec (BitVec w) :=
  match Opt.integer o with
  | .variable => do
    let v ← Varint.decode w
    pure (ZigZag.decode v)
  | .fixed => Fixed.readBytes w (Opt.byteorder o)

/-- The bits of the type selected by `width_arm!`, `options.rs:416-433`. -/
def widthBits : Width → Nat
  | .u8 => 8 | .u16 => 16 | .u32 => 32 | _ => 64

/-- `encode_usize`, `encoding.rs:96-123`, with a 64-bit `usize`. -/
def encodeUsize [Host] (o : Options) (v : BitVec 64) : Enc :=
  match Opt.length o with
  | .variable => .ok (Varint.encode v)
  | width =>
    if v.toNat < 2 ^ widthBits width then
      .ok (Fixed.writeBytes (Opt.byteorder o) (v.setWidth (widthBits width)))
    else .error .overflow

/-- `decode_usize`, `encoding.rs:127-156`. On a 64-bit target `usize::try_from`
never fails. -/
def decodeUsize [Host] (o : Options) : Dec (BitVec 64) :=
  match Opt.length o with
  | .variable => Varint.decode 64
  | width => do
    let v ← Fixed.readBytes (widthBits width) (Opt.byteorder o)
    pure (v.setWidth 64)

end Int'
end Musli
