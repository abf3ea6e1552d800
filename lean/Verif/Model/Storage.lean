import Verif.Model.Fmt
/-!
# Model of `crates/musli/src/storage/{en,de}.rs`
-/
namespace Musli.Storage

/-- `encode_bool .. encode_isize`, `en.rs:138-215`. -/
def encPrim [Host] (o : Options) : (p : Prim) → p.Val → Enc
  | .bool, b => .ok [if b then 1#8 else 0#8]
  | .char, c => .ok (Int'.encodeUnsigned o (charCode c))
  | .uint .w8, v => .ok [v]
  | .uint .w16, v => .ok (Int'.encodeUnsigned (w := 16) o v)
  | .uint .w32, v => .ok (Int'.encodeUnsigned (w := 32) o v)
  | .uint .w64, v => .ok (Int'.encodeUnsigned (w := 64) o v)
  | .uint .w128, v => .ok (Int'.encodeUnsigned (w := 128) o v)
  | .sint .w8, v => .ok [v]
  | .sint .w16, v => .ok (Int'.encodeSigned (w := 16) o v)
  | .sint .w32, v => .ok (Int'.encodeSigned (w := 32) o v)
  | .sint .w64, v => .ok (Int'.encodeSigned (w := 64) o v)
  | .sint .w128, v => .ok (Int'.encodeSigned (w := 128) o v)
  | .usize, v => Int'.encodeUsize o v
  | .isize, v => Int'.encodeUsize o v
  | .f32, v => .ok (Int'.encodeUnsigned (w := 32) o v)
  | .f64, v => .ok (Int'.encodeUnsigned (w := 64) o v)

/-- `decode_bool`, `de.rs:191-200`. -/
def decBool : Dec Bool := do
  let b ← Dec.readByte
  if b = 0#8 then pure false
  else if b = 1#8 then pure true
  else Dec.fail .invalid

/-- `decode_char`, `de.rs:203-212`. -/
def decChar [Host] (o : Options) : Dec Char := do
  let n ← Int'.decodeUnsigned o 32
  Dec.ofExcept (charOf n)

/-- `decode_bool .. decode_isize`, `de.rs:191-287`. -/
def decPrim [Host] (o : Options) : (p : Prim) → Dec p.Val
  | .bool => decBool
  | .char => decChar o
  | .uint .w8 => Dec.readByte
  | .uint .w16 => Int'.decodeUnsigned o 16
  | .uint .w32 => Int'.decodeUnsigned o 32
  | .uint .w64 => Int'.decodeUnsigned o 64
  | .uint .w128 => Int'.decodeUnsigned o 128
  | .sint .w8 => Dec.readByte
  | .sint .w16 => Int'.decodeSigned o 16
  | .sint .w32 => Int'.decodeSigned o 32
  | .sint .w64 => Int'.decodeSigned o 64
  | .sint .w128 => Int'.decodeSigned o 128
  | .usize => Int'.decodeUsize o
  | .isize => Int'.decodeUsize o
  | .f32 => Int'.decodeUnsigned o 32
  | .f64 => Int'.decodeUnsigned o 64

/-- `encode_bytes`, `en.rs:110-114`, and `encode_string`, `en.rs:131-135`. -/
def encBytes [Host] (o : Options) (b : Bytes) : Enc := encLen o b.length +> .ok b

/-- `decode_bytes`, `de.rs:136-142`. -/
def decBytes [Host] (o : Options) : Dec Bytes := do
  let n ← decLen o
  Dec.readBytes n

/-- `decode_empty`, `de.rs:107-119`. -/
def decUnit [Host] (o : Options) : Dec Unit := do
  let n ← decLen o
  if n = 0 then pure () else Dec.fail .length

/-- `decode_option`, `de.rs:290-301`. -/
def decOption (pack : Bool) : Dec Bool :=
  if pack then do
    let e ← Dec.isEof
    pure !e
  else do
    let b ← Dec.readByte
    pure (b == 1#8)

/-- The check after the closure of `decode_sequence` and `decode_map`,
`de.rs:379-408`. -/
def endSeq (remaining : Nat) : Dec Unit :=
  if remaining = 0 then pure () else Dec.fail .length

/-- `StorageEncoder<OPT, PACK>` and `StorageDecoder<OPT, PACK>`. `encode_some`,
`encode_none`: `en.rs:218-233`; `encode_sequence`, `encode_map`: `en.rs:270-294`;
`encode_variant`: `en.rs:297-299`; `encode_pack`: `en.rs:97-102`, `decode_pack`:
`de.rs:121-128`; `try_skip` is the default `Ok(Skip::Unsupported)`. -/
def fmt [Host] (pack : Bool) (o : Options) : Fmt where
  native := Opt.isNativeFixed o
  pack := pack
  delimited := false
  encPrim := encPrim o
  decPrim := decPrim o
  encUnit := encLen o 0
  decUnit := decUnit o
  encBytes := encBytes o
  decBytes := decBytes o
  encArr := fun b => .ok b
  decArr := Dec.readBytes
  encStr := encBytes o
  decStr := decBytes o
  encNone := if pack then .ok [] else .ok [0#8]
  encSome := if pack then .ok [] else .ok [1#8]
  decOption := decOption pack
  encSeq := encLen o
  decSeq := decLen o
  endSeq := endSeq
  encMap := encLen o
  decMap := decLen o
  endMap := endSeq
  encVariant := .ok []
  decVariant := pure ()
  encPack := fun b => .ok b
  decPack := fun d => d
  skip := Dec.fail .unsupported

end Musli.Storage
