import Verif.Model.Json.Number
import Verif.Model.Json.Float
/-!
# JSON: the encoder, the decoder and how types use them

`crates/musli/src/json/{en,de}/*.rs` together with the `Encode` and `Decode`
implementations of `Model/Codec.lean` (`crates/musli-core/src/impls/*.rs` and the code
generated by `crates/musli-macros/src/{en,de}.rs`).

Floating point numbers are read as in `Model/Json/Float.lean`. They are written by the crate `ryu`,
which is not a part of this repository: here, writing `f32` and `f64` is unsupported. The encoder with a
parameter for `ryu` is in `Model/Json/FloatCodec.lean`.
-/
namespace Musli.Json
open Musli

/-! ## Encoding -/

/-- Is the integer type signed? -/
def intWidth : Prim → Option (Bool × Nat)
  | .uint w => some (false, w.bits)
  | .sint w => some (true, w.bits)
  | .usize => some (false, 64)
  | .isize => some (true, 64)
  | _ => none

/-- `encode_u8` .. `encode_isize`, `en/mod.rs:103-187`. -/
def fmtInt : (p : Prim) → p.Val → Enc
  | .uint w, v => .ok (fmtUnsigned (w := w.bits) v)
  | .sint w, v => .ok (fmtSigned (w := w.bits) v)
  | .usize, v => .ok (fmtUnsigned (w := 64) v)
  | .isize, v => .ok (fmtSigned (w := 64) v)
  | _, _ => .error .unsupported

/-- `encode_bool`, `encode_char` and the integers, `en/mod.rs:85-181`. -/
def encPrim : (p : Prim) → p.Val → Enc
  | .bool, v => .ok (if v then strTrue else strFalse)
  | .char, v => .ok (encodeString (Utf8.encodeChar v))
  | p, v => fmtInt p v

/-- `format_integer!`: integers as object keys, `object_key_encoder.rs:24-33`. Other
primitives are not supported as keys. -/
def encPrimKey (p : Prim) (v : p.Val) : Enc :=
  match fmtInt p v with
  | .ok b => .ok (0x22#8 :: b ++ [0x22#8])
  | .error e => .error e

/-- A name in the position of a value: the tag of a unit enum. -/
def encNameV : Name → Enc
  | .idx n => .ok (fmtUnsigned n)
  | .str s => .ok (encodeString s.bytes)

/-- A name in the position of a key: a field name or the tag of a variant. -/
def encNameK : Name → Enc
  | .idx n => .ok (0x22#8 :: fmtUnsigned n ++ [0x22#8])
  | .str s => .ok (encodeString s.bytes)

/-- Elements separated by commas: `encode_next` writes a comma unless it is the
first, `array_encoder.rs:63-69`, `object_pair_encoder.rs:52-58`. -/
def sepAll {α} (f : α → Enc) : (first : Bool) → List α → Enc
  | _, [] => .ok []
  | first, a :: l => (if first then .ok [] else .ok [0x2C#8]) +> f a +> sepAll f false l

/-- `encode_bytes`, `en/mod.rs:203-223`: every number but the last is followed by a
comma. -/
def bytesBody : Bytes → Bytes
  | [] => []
  | [b] => fmtUnsigned b
  | b :: c :: l => fmtUnsigned b ++ 0x2C#8 :: bytesBody (c :: l)

/-- `encode_bytes`, `encode_array`, `en/mod.rs:198-223`. -/
def encBytes (b : Bytes) : Enc := .ok (0x5B#8 :: bytesBody b ++ [0x5D#8])

/-- Wrap in brackets, `array_encoder.rs:30-40, 72-74`. -/
def brackets (b : Enc) : Enc := .ok [0x5B#8] +> b +> .ok [0x5D#8]

/-- Wrap in braces, `object_encoder.rs:29-39, 73-75`, `variant_encoder.rs`. -/
def braces (b : Enc) : Enc := .ok [0x7B#8] +> b +> .ok [0x7D#8]

/-- The key of an entry: `Encode::encode` with a `JsonObjectKeyEncoder`,
`object_key_encoder.rs:37-128`. What it does not implement is an error. -/
def encKey : (t : Ty) → t.Val → Enc
  | .prim p, v => encPrimKey p v
  | .nonZero s w, v => encPrimKey (nonZeroPrim s w) (nonZeroRaw s w v.1)
  | .string, v => .ok (encodeString v.bytes)
  | .boxed t, v => encKey t v
  | .wrapping t, v => encKey t v
  | .transparent t, v => encKey t v
  | .unitEnum _ names, v => encNameK names[v]
  | _, _ => .error .unsupported

section
variable (env : Env)

mutual

/-- `Encode::encode` with a `JsonEncoder`. -/
def encJ : (t : Ty) → t.Val → Enc
  | .prim p, v => encPrim p v
  | .nonZero s w, v => encPrim (nonZeroPrim s w) (nonZeroRaw s w v.1)
  | .unit, _ => .ok strNull
  | .bytes, v => encBytes v
  | .string, v => .ok (encodeString v.bytes)
  | .byteArray _, v => encBytes v.1
  | .option t, v =>
    match v with
    | none => .ok strNull
    | some x => encJ t x
  | .array _ t, v => brackets (sepAll (encJ t) true v.1)
  | .vec t, v => brackets (sepAll (encJ t) true v)
  | .set t, v => brackets (sepAll (encJ t) true v)
  | .map k t, v =>
    braces (sepAll (fun x => encKey k x.1 +> .ok [0x3A#8] +> encJ t x.2) true v)
  | .tuple ts, v => brackets (encTysJ ts true v)
  | .result nt t u, v =>
    match v with
    | .inl x => braces (encNameK (resultName nt true) +> .ok [0x3A#8] +> encJ t x)
    | .inr x => braces (encNameK (resultName nt false) +> .ok [0x3A#8] +> encJ u x)
  | .boxed t, v => encJ t v
  | .wrapping t, v => encJ t v
  | .transparent t, v => encJ t v
  | .unitStruct, _ => braces (.ok [])
  | .strct _ fs, v => braces (encFieldsJ fs true v)
  | .packed _ fs, v => brackets (encPackJ fs true v)
  | .unitEnum _ names, v => encNameV names[v]
  | .enm _ vs, v => braces (encVariantsJ vs v)

/-- The elements of a tuple. -/
def encTysJ : (ts : Tys) → (first : Bool) → ts.Val → Enc
  | .nil, _, _ => .ok []
  | .cons t ts, first, v =>
    (if first then .ok [] else .ok [0x2C#8]) +> encJ t v.1 +> encTysJ ts false v.2

/-- The entries of a struct. -/
def encFieldsJ : (fs : Fields) → (first : Bool) → fs.Val → Enc
  | .nil, _, _ => .ok []
  | .cons n _ skip t fs, first, v =>
    if fieldPresent env skip t v.1 then
      (if first then .ok [] else .ok [0x2C#8]) +> encNameK n +> .ok [0x3A#8] +> encJ t v.1 +>
        encFieldsJ fs false v.2
    else encFieldsJ fs first v.2

/-- The fields of a packed struct. -/
def encPackJ : (fs : Fields) → (first : Bool) → fs.Val → Enc
  | .nil, _, _ => .ok []
  | .cons _ _ skip t fs, first, v =>
    if fieldPresent env skip t v.1 then
      (if first then .ok [] else .ok [0x2C#8]) +> encJ t v.1 +> encPackJ fs false v.2
    else encPackJ fs first v.2

/-- The tag and the body of a variant. -/
def encVariantsJ : (vs : Variants) → vs.Val → Enc
  | .nil, v => nomatch v
  | .cons n t vs, v =>
    match v with
    | .inl x => encNameK n +> .ok [0x3A#8] +> encJ t x
    | .inr x => encVariantsJ vs x

end
end

/-! ## Decoding: sequences, objects and skipping -/

/-- `parse_next_value`: is there another element? `sequence_decoder.rs:46-72`. The
loop over whitespace and commas is a recursion over the input. -/
def nextValue (first : Bool) : P Bool
  | [] => .error (.eof, [])
  | b :: s =>
    if isWs b then nextValue first s
    else if (Token.ofByte b).isValue then .ok (true, b :: s)
    else if b == 0x2C#8 && !first then nextValue first s
    else if b == 0x5D#8 then .ok (false, b :: s)
    else .error (.invalid, b :: s)

/-- `parse_map_key`: is there another entry? `object_decoder.rs:57-84`. -/
def nextKey (first : Bool) : P Bool
  | [] => .error (.eof, [])
  | b :: s =>
    if isWs b then nextKey first s
    else if b == 0x22#8 then .ok (true, b :: s)
    else if b == 0x2C#8 && !first then nextKey first s
    else if b == 0x7D#8 then .ok (false, b :: s)
    else .error (.invalid, b :: s)

mutual

/-- `skip_any`, `de/mod.rs:70-90`. The recursion is bounded by `fuel`; every round
consumes input or calls a function which does. -/
def skipVal : (fuel : Nat) → P Unit
  | 0 => P.fail .fuel
  | fuel + 1 => do
    let t ← lex
    match t with
    | .openBrace => do
      P.skip 1
      skipEntries fuel true
    | .openBracket => do
      P.skip 1
      skipElems fuel true
    | .null => parseExact strNull
    | .tru => parseExact strTrue
    | .fals => parseExact strFalse
    | .number => skipNumber
    | .string => do
      P.skip 1
      skipString
    | _ => P.fail .invalid

/-- `skip_sequence_remaining`, `sequence_decoder.rs:73-93`. -/
def skipElems : (fuel : Nat) → (first : Bool) → P Unit
  | 0, _ => P.fail .fuel
  | fuel + 1, first => do
    let more ← nextValue first
    if more then do
      skipVal fuel
      skipElems fuel false
    else expect .closeBracket

/-- `skip_object_remaining`, `object_decoder.rs:88-110`. -/
def skipEntries : (fuel : Nat) → (first : Bool) → P Unit
  | 0, _ => P.fail .fuel
  | fuel + 1, first => do
    let more ← nextKey first
    if more then do
      skipVal fuel
      expect .colon
      skipVal fuel
      skipEntries fuel false
    else expect .closeBrace

end

/-- Enough fuel to skip anything in the input. -/
def skipFuel (s : Bytes) : Nat := 2 * s.length + 2

/-- `Decoder::skip`. -/
def skip : P Unit := fun s => skipVal (skipFuel s) s

/-- Leave a sequence. -/
def endSeq (first : Bool) : P Unit := fun s => skipElems (skipFuel s) first s

/-- Leave an object. -/
def endMap (first : Bool) : P Unit := fun s => skipEntries (skipFuel s) first s

/-- `while let Some(item) = seq.try_decode_next()? { .. }` over all elements,
collecting them. `fuel` bounds the number of rounds; every round consumes
input. -/
def elems {α} (d : P α) : (fuel : Nat) → (first : Bool) → P (List α)
  | 0, _ => P.fail .fuel
  | fuel + 1, first => do
    let more ← nextValue first
    if more then do
      let a ← d
      let l ← elems d fuel false
      pure (a :: l)
    else pure []

/-- `elems` with enough fuel. -/
def allElems {α} (d : P α) : P (List α) := fun s => elems d (s.length + 1) true s

/-- `while let Some(entry) = map.decode_entry()? { .. }`, threading a state. -/
def entries {σ} (body : σ → P σ) : (fuel : Nat) → (first : Bool) → σ → P (σ × Bool)
  | 0, _, _ => P.fail .fuel
  | fuel + 1, first, st => do
    let more ← nextKey first
    if more then do
      let st ← body st
      entries body fuel false st
    else pure (st, false)

/-- `entries` with enough fuel. -/
def allEntries {σ} (body : σ → P σ) (st : σ) : P (σ × Bool) := fun s =>
  entries body (s.length + 1) true st s

/-- `decode_sequence` with a closure that takes all elements, `de/mod.rs:360-367`. -/
def sequence {α} (d : P α) : P (List α) := do
  expect .openBracket
  let l ← allElems d
  endSeq false
  pure l

/-- `decode_map` with a closure that takes all entries, `de/mod.rs:382-390`. -/
def object {σ} (body : σ → P σ) (st : σ) : P σ := do
  expect .openBrace
  let (st, _) ← allEntries body st
  endMap false
  pure st

/-! ## Decoding: primitives -/

/-- The scalar value at the start of well-formed UTF-8, `str::chars`. -/
def firstChar : Bytes → Option (Nat × Bytes)
  | [] => none
  | a :: s =>
    if a < 0x80#8 then some (a.toNat, s)
    else match s with
      | [] => none
      | b :: s =>
        if a < 0xE0#8 then some ((a.toNat % 32) * 64 + b.toNat % 64, s)
        else match s with
          | [] => none
          | c :: s =>
            if a < 0xF0#8 then
              some ((a.toNat % 16) * 4096 + (b.toNat % 64) * 64 + c.toNat % 64, s)
            else match s with
              | [] => none
              | d :: s =>
                some ((a.toNat % 8) * 262144 + (b.toNat % 64) * 4096 + (c.toNat % 64) * 64
                  + d.toNat % 64, s)

/-- A string with a single character, `de/mod.rs:186-202`. -/
def singleChar (b : Bytes) : Except Err Char :=
  match firstChar b with
  | some (n, []) => if h : n.isValidChar then .ok (Char.ofNatAux n h) else .error .invalid
  | _ => .error .invalid

/-- `decode_u8` .. `decode_isize`, `de/mod.rs:205-262`. -/
def parseInt (full : Bool) : (p : Prim) → P p.Val
  | .uint w => parseUnsigned full w.bits
  | .sint w => parseSigned full w.bits
  | .usize => parseUnsigned full 64
  | .isize => parseSigned full 64
  | .bool => P.fail .unsupported
  | .char => P.fail .unsupported
  | .f32 => P.fail .unsupported
  | .f64 => P.fail .unsupported

/-- `decode_bool`, `de/mod.rs:169-183`. -/
def decBool : P Bool := do
  let t ← lex
  match t with
  | .tru => do
    parseExact strTrue
    pure true
  | .fals => do
    parseExact strFalse
    pure false
  | _ => P.fail .invalid

/-- `decode_char`, `de/mod.rs:186-202`. -/
def decChar : P Char := do
  let b ← parseString
  P.ofExcept (singleChar b)

/-- Primitives, `de/mod.rs:166-277`. -/
def decPrim (full : Bool) : (p : Prim) → P p.Val
  | .bool => decBool
  | .char => decChar
  | .uint w => parseInt full (.uint w)
  | .sint w => parseInt full (.sint w)
  | .usize => parseInt full .usize
  | .isize => parseInt full .isize
  | .f32 => decF32
  | .f64 => decF64

/-- Run a parser on a separate buffer and drop what is left of it:
`KeyUnsignedVisitor`, `KeySignedVisitor`, `key_unsigned_visitor.rs:24-40`. -/
def onBuffer {α} (p : P α) (b : Bytes) : Except Err α :=
  match p b with
  | .ok (a, _) => .ok a
  | .error (e, _) => .error e

/-- Integers as object keys, `key_decoder.rs:35-45, 88-145`. Other primitives are
not supported as keys. -/
def decPrimKey (full : Bool) (p : Prim) : P p.Val := do
  match intWidth p with
  | none => P.fail .unsupported
  | some _ => do
    let b ← parseString
    P.ofExcept (onBuffer (parseInt full p) b)

/-- Strings: `decode_string` with the visitor of `String`. The bytes have been
checked segment by segment, so that the check here never fails. -/
def decStr : P Str := do
  let b ← parseString
  P.ofExcept (toStr b)

/-- A name in the position of a value. -/
def decNameV (full : Bool) : NameTy → P Name
  | .idx => do
    let n ← decPrim full .usize
    pure (.idx n)
  | .str => do
    let s ← decStr
    pure (.str s)

/-- A name in the position of a key. -/
def decNameK (full : Bool) : NameTy → P Name
  | .idx => do
    let n ← decPrimKey full .usize
    pure (.idx n)
  | .str => do
    let s ← decStr
    pure (.str s)

/-- `decode_bytes`, `de/mod.rs:305-322`. -/
def decBytes (full : Bool) : P Bytes := sequence (parseUnsigned full 8)

/-- The loop of `decode_array`, `de/mod.rs:283-289`: an element at an index larger
than `N` is neither decoded nor skipped, one at index `N` is stored out of bounds. -/
def arrayLoop (full : Bool) (n : Nat) : (fuel : Nat) → (first : Bool) → (acc : Bytes) →
    (index : Nat) → P (Bytes × Nat)
  | 0, _, _, _ => P.fail .fuel
  | fuel + 1, first, acc, index => do
    let more ← nextValue first
    if more then
      if index ≤ n then do
        let b ← parseUnsigned full 8
        if index < n then arrayLoop full n fuel false (acc ++ [b]) (index + 1)
        else P.fail .panic
      else arrayLoop full n fuel false acc (index + 1)
    else pure (acc, index)

/-- `arrayLoop` with enough fuel. -/
def arrayElems (full : Bool) (n : Nat) : P (Bytes × Nat) := fun s =>
  arrayLoop full n (s.length + 1) true [] 0 s

/-- `decode_array`, `de/mod.rs:275-302`. -/
def decArray (full : Bool) (n : Nat) : P { b : Bytes // b.length = n } := do
  expect .openBracket
  let (b, index) ← arrayElems full n
  if index = n then do
    let b ← P.ofExcept (toArray n b)
    endSeq false
    pure b
  else P.fail .length

/-- The key of an entry: `Decode::decode` with a `JsonKeyDecoder`,
`key_decoder.rs`. -/
def decKey (full : Bool) : (t : Ty) → P t.Val
  | .prim p => decPrimKey full p
  | .nonZero s w => do
    let v ← decPrimKey full (nonZeroPrim s w)
    P.ofExcept (toNonZero w (nonZeroUnraw s w v))
  | .string => decStr
  | .boxed t => decKey full t
  | .wrapping t => decKey full t
  | .transparent t => decKey full t
  | .unitEnum nt names => do
    let n ← decNameK full nt
    match findName n names with
    | some i => pure i
    | none => P.fail .unknown
  | .unit => P.fail .unsupported
  | .bytes => P.fail .unsupported
  | .byteArray _ => P.fail .unsupported
  | .option _ => P.fail .unsupported
  | .array _ _ => P.fail .unsupported
  | .vec _ => P.fail .unsupported
  | .set _ => P.fail .unsupported
  | .map _ _ => P.fail .unsupported
  | .tuple _ => P.fail .unsupported
  | .result _ _ _ => P.fail .unsupported
  | .unitStruct => P.fail .unsupported
  | .strct _ _ => P.fail .unsupported
  | .packed _ _ => P.fail .unsupported
  | .enm _ _ => P.fail .unsupported

/-- `decode_next`, `sequence_decoder.rs:131-137`: fail when there is no other
element. -/
def needNext (first : Bool) : P Unit := do
  let more ← nextValue first
  if more then pure () else P.fail .length

/-! ## Decoding: types -/

section
variable (full : Bool) (env : Env)

mutual

/-- `Decode::decode` with a `JsonDecoder`. The elements of an array are collected
before they are counted, where the code stops at the first one too many. -/
def decJ : (t : Ty) → P t.Val
  | .prim p => decPrim full p
  | .nonZero s w => do
    let v ← decPrim full (nonZeroPrim s w)
    P.ofExcept (toNonZero w (nonZeroUnraw s w v))
  | .unit => skip
  | .bytes => decBytes full
  | .string => decStr
  | .byteArray n => decArray full n
  | .option t => do
    let tok ← lex
    if tok = .null then do
      parseExact strNull
      pure none
    else do
      let x ← decJ t
      pure (some x)
  | .array n t => do
    expect .openBracket
    let l ← allElems (decJ t)
    let l ← P.ofExcept (toArray n l)
    endSeq false
    pure l
  | .vec t => sequence (decJ t)
  | .set t => sequence (decJ t)
  | .map k t => object (fun l => do
      let a ← decKey full k
      expect .colon
      let b ← decJ t
      pure (l ++ [(a, b)])) []
  | .tuple ts => do
    expect .openBracket
    let (v, first) ← decTysJ ts true
    endSeq first
    pure v
  | .result nt t u => do
    expect .openBrace
    let n ← decNameK full nt
    if n = resultName nt true then do
      expect .colon
      let x ← decJ t
      expect .closeBrace
      pure (Sum.inl x)
    else if n = resultName nt false then do
      expect .colon
      let x ← decJ u
      expect .closeBrace
      pure (Sum.inr x)
    else P.fail .unknown
  | .boxed t => decJ t
  | .wrapping t => decJ t
  | .transparent t => decJ t
  | .unitStruct => do
    expect .openBrace
    endMap true
  | .strct nt fs => do
    let p ← object (fun p => do
      let n ← decNameK full nt
      expect .colon
      decEntryJ fs n p) fs.none
    P.ofExcept (fs.finish env p)
  | .packed _ fs => do
    expect .openBracket
    let (v, first) ← decPackJ fs true
    endSeq first
    pure v
  | .unitEnum nt names => do
    let n ← decNameV full nt
    match findName n names with
    | some i => pure i
    | none => P.fail .unknown
  | .enm nt vs => do
    expect .openBrace
    let n ← decNameK full nt
    let v ← decVariantsJ vs n
    expect .closeBrace
    pure v

/-- The elements of a tuple. -/
def decTysJ : (ts : Tys) → (first : Bool) → P (ts.Val × Bool)
  | .nil, first => pure ((), first)
  | .cons t ts, first => do
    needNext first
    let a ← decJ t
    let (b, first) ← decTysJ ts false
    pure ((a, b), first)

/-- The value of an entry of a struct, given its name. An unknown one is skipped. -/
def decEntryJ : (fs : Fields) → Name → fs.Partial → P fs.Partial
  | .nil, _, _ => skip
  | .cons n _ _ t fs, name, p =>
    if n = name then do
      let v ← decJ t
      pure (some v, p.2)
    else do
      let q ← decEntryJ fs name p.2
      pure (p.1, q)

/-- The fields of a packed struct. -/
def decPackJ : (fs : Fields) → (first : Bool) → P (fs.Val × Bool)
  | .nil, first => pure ((), first)
  | .cons _ _ _ t fs, first => do
    needNext first
    let a ← decJ t
    let (b, first) ← decPackJ fs false
    pure ((a, b), first)

/-- The value of a variant, given its tag. -/
def decVariantsJ : (vs : Variants) → Name → P vs.Val
  | .nil, _ => P.fail .unknown
  | .cons n t vs, name =>
    if n = name then do
      expect .colon
      let x ← decJ t
      pure (Sum.inl x)
    else do
      let x ← decVariantsJ vs name
      pure (Sum.inr x)

end
end

/-! ## Entry points -/

/-- `json::to_vec`, `json::to_string` and the like, `json/encoding.rs`. -/
def encode (env : Env) (t : Ty) (v : t.Val) : Enc := encJ env t v

/-- `json::decode`, `json::from_slice`, `json::from_str`, `json/encoding.rs`; returns
what is left of the parser. -/
def decode (full : Bool) (env : Env) (t : Ty) : P t.Val := decJ full env t

end Musli.Json
