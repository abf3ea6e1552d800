import Verif.Model.Codec
/-!
# Model of `crates/musli/src/value/{value,en,de}.rs`

A `Value` holds anything of the data model. Allocation failures are not modelled.
-/
namespace Musli

/-- `enum Number`, `value/value.rs:164-195`. -/
inductive Number where
  | uint (w : IW) (v : BitVec w.bits)
  | sint (w : IW) (v : BitVec w.bits)
  | usize (v : BitVec 64)
  | isize (v : BitVec 64)
  | f32 (v : BitVec 32)
  | f64 (v : BitVec 64)
deriving DecidableEq

/-- `enum Value`, `value/value.rs:23-49`. The two cases of `Value::Option` are two
constructors. -/
inductive Value where
  | unit
  | bool (b : Bool)
  | char (c : Char)
  | number (n : Number)
  | bytes (b : Bytes)
  | string (s : Str)
  | seq (l : List Value)
  | map (l : List (Value × Value))
  | variant (tag data : Value)
  | none
  | some (v : Value)

/-! ## Encoding -/

/-- What an encoder wrote to its output: `ValueOutput::write` is called at most once,
`value/en.rs:15-67`. -/
abbrev Out := Except Err (Option Value)

/-- The output is a slot that starts as `Value::Unit`: `value/en.rs:26-38` with the
initial values in `value/mod.rs:50`, `value/en.rs:564, 615, 682`. -/
def Out.slot : Out → Except Err Value
  | .ok (some v) => .ok v
  | .ok none => .ok .unit
  | .error e => .error e

/-- The output is a `SomeValueWriter`, `value/en.rs:54-72`. -/
def Out.wrap : Out → Out
  | .ok (some v) => .ok (some (.some v))
  | .ok none => .ok none
  | .error e => .error e

/-- The elements of a sequence are pushed to a vector when they are written,
`value/en.rs:40-51, 406-414`. -/
def pushAll {α} (f : α → Out) : List α → Except Err (List Value)
  | [] => .ok []
  | a :: l =>
    match f a with
    | .error e => .error e
    | .ok w => match pushAll f l with
      | .error e => .error e
      | .ok vs => .ok (w.toList ++ vs)

/-- The entries of a map: the key and the value are slots, `value/en.rs:519-552, 602-658`. -/
def pairAll {α} (f g : α → Out) : List α → Except Err (List (Value × Value))
  | [] => .ok []
  | a :: l =>
    match (f a).slot with
    | .error e => .error e
    | .ok k => match (g a).slot with
      | .error e => .error e
      | .ok v => match pairAll f g l with
        | .error e => .error e
        | .ok vs => .ok ((k, v) :: vs)

/-- `encode_bool .. encode_isize`, `value/en.rs:135-229`. -/
def primV : (p : Prim) → p.Val → Value
  | .bool, b => .bool b
  | .char, c => .char c
  | .uint w, v => .number (.uint w v)
  | .sint w, v => .number (.sint w v)
  | .usize, v => .number (.usize v)
  | .isize, v => .number (.isize v)
  | .f32, v => .number (.f32 v)
  | .f64, v => .number (.f64 v)

/-- A field name or variant tag. -/
def nameV : Name → Value
  | .idx n => .number (.usize n)
  | .str s => .string s

/-- `finish_sequence`, `value/en.rs:411-414`. -/
def outSeq : Except Err (List Value) → Out
  | .ok l => .ok (some (.seq l))
  | .error e => .error e

/-- `finish_map`, `value/en.rs:532-535`. -/
def outMap : Except Err (List (Value × Value)) → Out
  | .ok l => .ok (some (.map l))
  | .error e => .error e

/-- `finish_variant`, `value/en.rs:722-726`; the data is a slot. -/
def outVariant (tag : Value) (data : Out) : Out :=
  match data.slot with
  | .ok v => .ok (some (.variant tag v))
  | .error e => .error e

/-- `PackValueEncoder::finish_sequence`, `value/en.rs:470-474`. -/
def outBytes : Enc → Out
  | .ok b => .ok (some (.bytes b))
  | .error e => .error e

/-- Write one value. -/
def wrote (v : Value) : Out := .ok (some v)

section
variable [Host] (o : Options) (env : Env)

mutual

/-- `Encode::encode` with a `ValueEncoder<OPT, O, C, M>`, `value/en.rs:81-354`.
`encode_empty` writes nothing, `value/en.rs:129-132`. The implementations of `Encode`
are those of `encD`. -/
def encV : (t : Ty) → t.Val → Out
  | .prim p, v => wrote (primV p v)
  | .nonZero s w, v => wrote (primV (nonZeroPrim s w) (nonZeroRaw s w v.1))
  | .unit, _ => .ok none
  | .bytes, v => wrote (.bytes v)
  | .string, v => wrote (.string v)
  | .byteArray _, v => wrote (.bytes v.1)
  | .option t, v =>
    match v with
    | none => wrote .none
    | some x => (encV t x).wrap
  | .array _ t, v => outSeq (pushAll (encV t) v.1)
  | .vec t, v => outSeq (pushAll (encV t) v)
  | .set t, v => outSeq (pushAll (encV t) v)
  | .map k t, v => outMap (pairAll (fun x => encV k x.1) (fun x => encV t x.2) v)
  | .tuple ts, v => outSeq (encTysV ts v)
  | .result nt t u, v =>
    match v with
    | .inl x => outVariant (nameV (resultName nt true)) (encV t x)
    | .inr x => outVariant (nameV (resultName nt false)) (encV u x)
  | .boxed t, v => encV t v
  | .wrapping t, v => encV t v
  | .transparent t, v => encV t v
  | .unitStruct, _ => wrote (.map [])
  | .strct _ fs, v => outMap (encFieldsV fs v)
  | .packed _ fs, v => outBytes (encPackFields o env fs .packed v)
  | .unitEnum _ names, v => wrote (nameV names[v])
  | .enm _ vs, v => encVariantsV vs v

/-- The elements of a tuple. -/
def encTysV : (ts : Tys) → ts.Val → Except Err (List Value)
  | .nil, _ => .ok []
  | .cons t ts, v =>
    match encV t v.1 with
    | .error e => .error e
    | .ok w => match encTysV ts v.2 with
      | .error e => .error e
      | .ok vs => .ok (w.toList ++ vs)

/-- The entries of a struct. -/
def encFieldsV : (fs : Fields) → fs.Val → Except Err (List (Value × Value))
  | .nil, _ => .ok []
  | .cons n _ skip t fs, v =>
    if fieldPresent env skip t v.1 then
      match (encV t v.1).slot with
      | .error e => .error e
      | .ok w => match encFieldsV fs v.2 with
        | .error e => .error e
        | .ok vs => .ok ((nameV n, w) :: vs)
    else encFieldsV fs v.2

/-- A variant. -/
def encVariantsV : (vs : Variants) → vs.Val → Out
  | .nil, v => nomatch v
  | .cons n t vs, v =>
    match v with
    | .inl x => outVariant (nameV n) (encV t x)
    | .inr x => encVariantsV vs x

end

/-- `musli::value::encode`, `value/mod.rs:44-54`. -/
def toValue (t : Ty) (v : t.Val) : Except Err Value := (encV o env t v).slot

end

/-! ## Decoding numbers -/

/-- The integer in a `Number`, if it is one. -/
def Number.int? : Number → Option Int
  | .uint _ v => some v.toNat
  | .sint _ v => some v.toInt
  | .usize v => some v.toNat
  | .isize v => some v.toInt
  | .f32 _ => none
  | .f64 _ => none

/-- Sign and width of an integer type. -/
structure IntKind where
  signed : Bool
  bits : Nat
deriving DecidableEq

/-- The smallest value of an integer type. -/
def IntKind.min (k : IntKind) : Int := if k.signed then -2 ^ (k.bits - 1) else 0
/-- The largest value of an integer type. -/
def IntKind.max (k : IntKind) : Int := if k.signed then 2 ^ (k.bits - 1) - 1 else 2 ^ k.bits - 1

/-- `T::try_from(n).ok()` between integer types. -/
def tryFromInt (k : IntKind) (n : Int) : Option Int :=
  if k.min ≤ n ∧ n ≤ k.max then some n else none

/-- `n` clamped to the range of a type. -/
def saturate (k : IntKind) (n : Int) : Int :=
  if n < k.min then k.min else if k.max < n then k.max else n

/-- `v as $ty` for a float with `e` exponent bits and `m` mantissa bits: towards
zero, saturating, and zero for NaN. -/
def floatAs (e m : Nat) {w : Nat} (v : BitVec w) (k : IntKind) : Int :=
  let mant := v.toNat % 2 ^ m
  let exp := v.toNat / 2 ^ m % 2 ^ e
  let neg := v.msb
  if exp = 2 ^ e - 1 then
    if mant = 0 then (if neg then k.min else k.max) else 0
  else
    let full := if exp = 0 then mant else mant + 2 ^ m
    let shift : Int := (if exp = 0 then 1 else (exp : Int)) - (2 ^ (e - 1) - 1) - m
    let mag : Int := if 0 ≤ shift then full * 2 ^ shift.toNat else full / 2 ^ (-shift).toNat
    saturate k (if neg then -mag else mag)

/-- `FromNumber::from_number` for integers, `value/de.rs:714-760`. -/
def fromNumber (k : IntKind) : Number → Option Int
  | .uint _ v => tryFromInt k v.toNat
  | .sint _ v => tryFromInt k v.toInt
  | .usize v => tryFromInt k v.toNat
  | .isize v => tryFromInt k v.toInt
  | .f32 v => some (floatAs 8 23 v k)
  | .f64 v => some (floatAs 11 52 v k)

/-- Decimal digits. -/
def parseDigits : (acc : Nat) → Bytes → Option Nat
  | acc, [] => some acc
  | acc, b :: s =>
    if 0x30#8 ≤ b ∧ b ≤ 0x39#8 then parseDigits (acc * 10 + (b - 0x30#8).toNat) s else none

/-- At least one decimal digit. -/
def parseNat : Bytes → Option Nat
  | [] => none
  | b :: s => parseDigits 0 (b :: s)

/-- `str::parse` for integers of the standard library: an optional sign (a minus only for
signed types), digits, in range. -/
def parseNumber (k : IntKind) (s : Bytes) : Option Int :=
  match s with
  | [] => none
  | b :: r =>
    if b = 0x2B#8 then
      match parseNat r with
      | some n => tryFromInt k n
      | none => none
    else if b = 0x2D#8 ∧ k.signed = true then
      match parseNat r with
      | some n => tryFromInt k (-(n : Int))
      | none => none
    else
      match parseNat s with
      | some n => tryFromInt k n
      | none => none

/-- `ensure_number!`, `value/de.rs:63-83`. `key` says that the value is the key of a
map entry. -/
def readInt (o : Options) (key : Bool) (k : IntKind) : Value → Except Err Int
  | .number n =>
    match fromNumber k n with
    | some i => .ok i
    | none => .error .overflow
  | .string s =>
    if Opt.isMapKeysAsNumbers o && key then
      match parseNumber k s.bytes with
      | some i => .ok i
      | none => .error .invalid
    else .error .invalid
  | _ => .error .invalid

/-- The bits of the integer which was read. -/
def intBits (w : Nat) : Except Err Int → Except Err (BitVec w)
  | .ok i => .ok (BitVec.ofInt w i)
  | .error e => .error e

/-- `decode_bool`, `value/de.rs:153-155`. -/
def readBool : Value → Except Err Bool
  | .bool b => .ok b
  | _ => .error .invalid

/-- `decode_char`, `value/de.rs:158-160`. -/
def readChar : Value → Except Err Char
  | .char c => .ok c
  | _ => .error .invalid

/-- `decode_f32`, `value/de.rs:213-215`. -/
def readF32 : Value → Except Err (BitVec 32)
  | .number (.f32 v) => .ok v
  | _ => .error .invalid

/-- `decode_f64`, `value/de.rs:218-220`. -/
def readF64 : Value → Except Err (BitVec 64)
  | .number (.f64 v) => .ok v
  | _ => .error .invalid

/-- `decode_bool .. decode_isize`, `value/de.rs:153-230`. -/
def readPrim (o : Options) (key : Bool) : (p : Prim) → Value → Except Err p.Val
  | .bool, x => readBool x
  | .char, x => readChar x
  | .uint w, x => intBits w.bits (readInt o key ⟨false, w.bits⟩ x)
  | .sint w, x => intBits w.bits (readInt o key ⟨true, w.bits⟩ x)
  | .usize, x => intBits 64 (readInt o key ⟨false, 64⟩ x)
  | .isize, x => intBits 64 (readInt o key ⟨true, 64⟩ x)
  | .f32, x => readF32 x
  | .f64, x => readF64 x

/-! ## Decoding -/

/-- `decode_string`, `value/de.rs:250-257`. -/
def readStr : Value → Except Err Str
  | .string s => .ok s
  | _ => .error .invalid

/-- `decode_bytes`, `value/de.rs:240-247`; `decode_pack`, `value/de.rs:267-274`. -/
def readBytesV : Value → Except Err Bytes
  | .bytes b => .ok b
  | _ => .error .invalid

/-- `decode_empty`, `value/de.rs:148-150`. -/
def readUnit : Value → Except Err Unit
  | .unit => .ok ()
  | _ => .error .invalid

/-- `decode_option`, `value/de.rs:260-264`. -/
def readOption : Value → Except Err (Option Value)
  | .none => .ok none
  | .some v => .ok (some v)
  | _ => .error .invalid

/-- `decode_sequence`, `value/de.rs:277-294`. -/
def readSeq : Value → Except Err (List Value)
  | .seq l => .ok l
  | _ => .error .invalid

/-- `decode_map`, `value/de.rs:297-312`. -/
def readMap : Value → Except Err (List (Value × Value))
  | .map l => .ok l
  | _ => .error .invalid

/-- `decode_variant`, `value/de.rs:315-322`. -/
def readVariant : Value → Except Err (Value × Value)
  | .variant t d => .ok (t, d)
  | _ => .error .invalid

/-- A field name (`key`) or variant tag. -/
def readName (o : Options) (key : Bool) : NameTy → Value → Except Err Name
  | .idx, x => do
    let n ← readPrim o key .usize x
    pure (.idx n)
  | .str, x => do
    let s ← readStr x
    pure (.str s)

/-- `while let Some(item) = seq.try_decode_next()?`: all elements, `value/de.rs:450-456`. -/
def readAll {α : Type} (d : Value → Except Err α) : List Value → Except Err (List α)
  | [] => .ok []
  | x :: l => do
    let a ← d x
    let r ← readAll d l
    pure (a :: r)

/-- All entries of a map, `value/de.rs:472-481`. -/
def readPairs {α β : Type} (f : Value → Except Err α) (g : Value → Except Err β) :
    List (Value × Value) → Except Err (List (α × β))
  | [] => .ok []
  | x :: l => do
    let a ← f x.1
    let b ← g x.2
    let r ← readPairs f g l
    pure ((a, b) :: r)

/-- All entries of a map, threading a state. -/
def foldPairs {σ : Type} (body : σ → Value × Value → Except Err σ) : List (Value × Value) → σ → Except Err σ
  | [], st => .ok st
  | x :: l, st => do
    let st ← body st x
    foldPairs body l st

/-- Run a decoder over the bytes of a pack; what is left of them is ignored,
`value/de.rs:267-274`. -/
def onPack {α} (d : Dec α) (b : Bytes) : Except Err α :=
  match d b with
  | .ok (a, _) => .ok a
  | .error e => .error e

section
variable [Host] (o : Options) (env : Env)

mutual

/-- `Decode::decode` with a `ValueDecoder<OPT, C, A, M>`; `key` is its field `map_key`,
`value/de.rs:24-61, 97-374`. The implementations of `Decode` are those of `decD`.
Elements which the closure leaves in place are ignored. -/
def decV : (t : Ty) → (key : Bool) → Value → Except Err t.Val
  | .prim p, key, x => readPrim o key p x
  | .nonZero s w, key, x => do
    let v ← readPrim o key (nonZeroPrim s w) x
    toNonZero w (nonZeroUnraw s w v)
  | .unit, _, x => readUnit x
  | .bytes, _, x => readBytesV x
  | .string, _, x => readStr x
  | .byteArray n, _, x => do
    let b ← readBytesV x
    toArray n b
  | .option t, _, x => do
    let y ← readOption x
    match y with
    | none => pure none
    | some y => do
      let v ← decV t false y
      pure (some v)
  | .array n t, _, x => do
    let l ← readSeq x
    let l ← readAll (decV t false) l
    toArray n l
  | .vec t, _, x => do
    let l ← readSeq x
    readAll (decV t false) l
  | .set t, _, x => do
    let l ← readSeq x
    readAll (decV t false) l
  | .map k t, _, x => do
    let l ← readMap x
    readPairs (decV k true) (decV t false) l
  | .tuple ts, _, x => do
    let l ← readSeq x
    decTysV ts l
  | .result nt t u, _, x => do
    let (tag, y) ← readVariant x
    let n ← readName o false nt tag
    if n = resultName nt true then do
      let v ← decV t false y
      pure (Sum.inl v)
    else if n = resultName nt false then do
      let v ← decV u false y
      pure (Sum.inr v)
    else .error .unknown
  | .boxed t, key, x => decV t key x
  | .wrapping t, key, x => decV t key x
  | .transparent t, key, x => decV t key x
  | .unitStruct, _, x => do
    let _ ← readMap x
    pure ()
  | .strct nt fs, _, x => do
    let l ← readMap x
    let p ← foldPairs (fun p e => do
      let n ← readName o true nt e.1
      decEntryV fs n e.2 p) l fs.none
    fs.finish env p
  | .packed _ fs, _, x => do
    let b ← readBytesV x
    onPack (decPackFields o env fs .packed) b
  | .unitEnum nt names, key, x => do
    let n ← readName o key nt x
    match findName n names with
    | some i => pure i
    | none => .error .unknown
  | .enm nt vs, _, x => do
    let (tag, y) ← readVariant x
    let n ← readName o false nt tag
    decVariantsV vs n y

/-- The elements of a tuple; `decode_next` fails when none is left,
`value/de.rs:458-464`. -/
def decTysV : (ts : Tys) → List Value → Except Err ts.Val
  | .nil, _ => .ok ()
  | .cons t ts, l =>
    match l with
    | [] => .error .length
    | x :: l => do
      let a ← decV t false x
      let b ← decTysV ts l
      pure (a, b)

/-- One entry of a struct; an unknown one is skipped, `value/de.rs:133-140`. -/
def decEntryV : (fs : Fields) → Name → Value → fs.Partial → Except Err fs.Partial
  | .nil, _, _, _ => .ok ()
  | .cons n _ _ t fs, name, x, p =>
    if n = name then do
      let v ← decV t false x
      pure (some v, p.2)
    else do
      let q ← decEntryV fs name x p.2
      pure (p.1, q)

/-- The body of a variant. -/
def decVariantsV : (vs : Variants) → Name → Value → Except Err vs.Val
  | .nil, _, _ => .error .unknown
  | .cons n t vs, name, x =>
    if n = name then do
      let v ← decV t false x
      pure (Sum.inl v)
    else do
      let v ← decVariantsV vs name x
      pure (Sum.inr v)

end

/-- `musli::value::decode`, `value/mod.rs:60-67`. -/
def fromValue (t : Ty) (x : Value) : Except Err t.Val := decV o env t false x

end
end Musli
