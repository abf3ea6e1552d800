import Verif.Model.Wire
import Verif.Model.Descriptive
/-!
# Model of the `Encode` and `Decode` implementations

`crates/musli-core/src/impls/*.rs` and the code generated by
`crates/musli-macros/src/{en,de}.rs`, against the methods in `Fmt`.

The code has two ways to (de)code a nested value: directly, by calling
`T::encode(value, encoder)` (`encD`, `decD`), and through `encoder.encode(value)` /
`decoder.decode()` (`encoder.rs:84-92`, `decoder.rs:174-183`), which first tries
a bitwise copy (`viaE`, `viaD`).
-/
namespace Musli

/-- A format: storage (`StorageEncoder<OPT, false>`), packed and the inside of
packs (`StorageEncoder<OPT, true>`), wire, descriptive. -/
inductive Mode where | storage | packed | wire | descriptive
deriving Repr, DecidableEq

/-- The methods of a format. -/
def Mode.fmt [Host] (o : Options) : Mode → Fmt
  | .storage => Storage.fmt false o
  | .packed => Storage.fmt true o
  | .wire => Wire.fmt o
  | .descriptive => Desc.fmt o

/-! ## Bitwise layouts -/

/-- `IS_BITWISE_ENCODE` of primitives is true everywhere, `impls/mod.rs:320, 360, 398`.
`IS_BITWISE_DECODE`: `impls/mod.rs:342, 382, 420`. -/
def Prim.bwD : Prim → Bool
  | .bool => false
  | .char => false
  | _ => true

mutual

/-- `Encode::IS_BITWISE_ENCODE`: `impls/mod.rs`, `impls/alloc.rs`, `impls/tuples.rs`;
for derives `musli-macros/src/internals/packed.rs:36-64`, which is `false` except
for packed structs. `size_of::<T>() % align_of::<T>() == 0` is always true. -/
def Ty.bwE : Ty → Bool
  | .prim _ => true
  | .nonZero _ _ => true
  | .unit => true
  | .array _ t => t.bwE
  | .wrapping t => t.bwE
  | .packed lay fs => lay && fs.bwE
  | _ => false

/-- All fields are bitwise encodable. -/
def Fields.bwE : Fields → Bool
  | .nil => true
  | .cons _ _ _ t fs => t.bwE && fs.bwE

end

mutual

/-- `Decode::IS_BITWISE_DECODE`, as above. -/
def Ty.bwD : Ty → Bool
  | .prim p => p.bwD
  | .unit => true
  | .array _ t => t.bwD
  | .wrapping t => t.bwD
  | .packed lay fs => lay && fs.bwD
  | _ => false

/-- All fields are bitwise decodable. -/
def Fields.bwD : Fields → Bool
  | .nil => true
  | .cons _ _ _ t fs => t.bwD && fs.bwD

end

/-- The bytes of a primitive in memory. -/
def rawPrim [Host] : (p : Prim) → p.Val → Bytes
  | .bool, b => [if b then 1#8 else 0#8]
  | .char, c => Fixed.toNe (charCode c)
  | .uint w, v => Fixed.toNe (w := w.bits) v
  | .sint w, v => Fixed.toNe (w := w.bits) v
  | .usize, v => Fixed.toNe (w := 64) v
  | .isize, v => Fixed.toNe (w := 64) v
  | .f32, v => Fixed.toNe (w := 32) v
  | .f64, v => Fixed.toNe (w := 64) v

/-- Read an integer out of memory. -/
def unrawInt [Host] (w : Nat) : Dec (BitVec w) := do
  let b ← Dec.readBytes (w / 8)
  pure (Fixed.ofNe w b)

/-- Copy bytes into a primitive. Never used for `bool` and `char`, whose
`IS_BITWISE_DECODE` is false. -/
def unrawPrim [Host] : (p : Prim) → Dec p.Val
  | .bool => Dec.fail .invalid
  | .char => Dec.fail .invalid
  | .uint w => unrawInt w.bits
  | .sint w => unrawInt w.bits
  | .usize => unrawInt 64
  | .isize => unrawInt 64
  | .f32 => unrawInt 32
  | .f64 => unrawInt 64

/-- The primitive behind a `NonZero`. -/
def nonZeroPrim (signed : Bool) (w : IW) : Prim := if signed then .sint w else .uint w

/-- `encode` of the primitive behind a `NonZero`. -/
def nonZeroRaw (signed : Bool) (w : IW) (v : BitVec w.bits) : (nonZeroPrim signed w).Val :=
  match signed with
  | true => v
  | false => v

/-- The value read for a `NonZero`. -/
def nonZeroUnraw (signed : Bool) (w : IW) (v : (nonZeroPrim signed w).Val) : BitVec w.bits :=
  match signed, v with
  | true, v => v
  | false, v => v

mutual

/-- The bytes of a value in memory; only used for types with
`IS_BITWISE_ENCODE`. -/
def Ty.rawE [Host] : (t : Ty) → t.Val → Bytes
  | .prim p, v => rawPrim p v
  | .nonZero s w, v => rawPrim (nonZeroPrim s w) (nonZeroRaw s w v.1)
  | .array _ t, v => v.1.flatMap t.rawE
  | .wrapping t, v => t.rawE v
  | .packed _ fs, v => fs.rawE v
  | _, _ => []

/-- The bytes of fields laid out without padding. -/
def Fields.rawE [Host] : (fs : Fields) → fs.Val → Bytes
  | .nil, _ => []
  | .cons _ _ _ t fs, v => t.rawE v.1 ++ fs.rawE v.2

end

/-- Check the number of elements of an array, `impls/mod.rs:258-268`. -/
def toArray {α : Type} (n : Nat) (l : List α) : Except Err { l : List α // l.length = n } :=
  if h : l.length = n then .ok ⟨l, h⟩ else .error .length

mutual

/-- Copy bytes into a value; only used for types with `IS_BITWISE_DECODE`. -/
def Ty.rawD [Host] : (t : Ty) → Dec t.Val
  | .prim p => unrawPrim p
  | .unit => pure ()
  | .array n t => do
    let l ← decN t.rawD n
    Dec.ofExcept (toArray n l)
  | .wrapping t => t.rawD
  | .packed _ fs => fs.rawD
  | .nonZero _ _ => Dec.fail .invalid
  | .bytes => Dec.fail .invalid
  | .string => Dec.fail .invalid
  | .byteArray _ => Dec.fail .invalid
  | .option _ => Dec.fail .invalid
  | .vec _ => Dec.fail .invalid
  | .set _ => Dec.fail .invalid
  | .map _ _ => Dec.fail .invalid
  | .tuple _ => Dec.fail .invalid
  | .result _ _ _ => Dec.fail .invalid
  | .boxed _ => Dec.fail .invalid
  | .transparent _ => Dec.fail .invalid
  | .unitStruct => Dec.fail .invalid
  | .strct _ _ => Dec.fail .invalid
  | .unitEnum _ _ => Dec.fail .invalid
  | .enm _ _ => Dec.fail .invalid

/-- Copy bytes into fields laid out without padding. -/
def Fields.rawD [Host] : (fs : Fields) → Dec fs.Val
  | .nil => pure ()
  | .cons _ _ _ t fs => do
    let a ← t.rawD
    let b ← fs.rawD
    pure (a, b)

end

/-! ## Names -/

/-- A string with the UTF-8 check of `decode_string`,
`impls/mod.rs:440-500`, `str.rs`. -/
def toStr (b : Bytes) : Except Err Str :=
  if h : Utf8.valid b = true then .ok ⟨b, h⟩ else .error .utf8

/-- Encode a field name or variant tag: `Encode::encode` of a `usize` or `str`
constant, `musli-macros/src/en.rs:368-369`. -/
def encName (F : Fmt) : Name → Enc
  | .idx n => F.encPrim .usize n
  | .str s => F.encStr s.bytes

/-- Decode a field name or variant tag, `musli-macros/src/de.rs:1235-1300`. -/
def decName (F : Fmt) : NameTy → Dec Name
  | .idx => do
    let n ← F.decPrim .usize
    pure (.idx n)
  | .str => do
    let b ← F.decStr
    let s ← Dec.ofExcept (toStr b)
    pure (.str s)

/-- The position of the first occurrence of a name. -/
def findName (n : Name) : (l : List Name) → Option (Fin l.length)
  | [] => none
  | m :: l => if m = n then some ⟨0, by simp⟩ else
    match findName n l with
    | some i => some i.succ
    | none => none

/-- `usize::to_ne_bytes` of a length, `storage/en.rs:565`. -/
def neLen [Host] (n : Nat) : Enc :=
  if n < 2 ^ 64 then .ok (Fixed.toNe (BitVec.ofNat 64 n)) else .error .overflow

/-- `usize::from_ne_bytes`, `storage/de.rs:315-316`. -/
def unNeLen [Host] : Dec Nat := do
  let n ← unrawInt 64
  pure n.toNat

/-- The names of the two variants of `ResultTag`, `impls/mod.rs:699-702`: the derive
names variants by index or by identifier. -/
def resultName : NameTy → Bool → Name
  | .idx, true => .idx 0#64
  | .idx, false => .idx 1#64
  | .str, true => .str ⟨[0x4F#8, 0x6B#8], by decide⟩
  | .str, false => .str ⟨[0x45#8, 0x72#8, 0x72#8], by decide⟩

/-- Does the field get encoded? `field_tests`, `musli-macros/src/internals/build.rs:162-177`. -/
def fieldPresent (env : Env) (skip : Option Nat) (t : Ty) (v : t.Val) : Bool :=
  match skip with
  | none => true
  | some k => !env.skipIf k t v

/-- The number of encoded fields, `length_test`, `musli-macros/src/en.rs`. -/
def Fields.count (env : Env) : (fs : Fields) → fs.Val → Nat
  | .nil, _ => 0
  | .cons _ _ skip t fs, v => (if fieldPresent env skip t v.1 then 1 else 0) + fs.count env v.2

/-- The value of a field which did not arrive, `musli-macros/src/de.rs:1166-1180`. -/
def fieldDefault (env : Env) (dflt : Option Nat) (t : Ty) : Except Err t.Val :=
  match dflt with
  | none => .error .missing
  | some k => match env.dflt k t with
    | some v => .ok v
    | none => .error .missing

/-- The value of a field: what arrived last, or its default,
`musli-macros/src/de.rs:1175-1180`. -/
def fieldValue (env : Env) (dflt : Option Nat) (t : Ty) : Option t.Val → Except Err t.Val
  | some v => .ok v
  | none => fieldDefault env dflt t

/-- Put the arrived fields together, `musli-macros/src/de.rs:1175-1185, 1365`. -/
def Fields.finish (env : Env) : (fs : Fields) → fs.Partial → Except Err fs.Val
  | .nil, _ => .ok ()
  | .cons _ dflt _ t fs, p =>
    match fieldValue env dflt t p.1 with
    | .error e => .error e
    | .ok v => match fs.finish env p.2 with
      | .error e => .error e
      | .ok w => .ok (v, w)

/-- `NonZero*::new`, `impls/mod.rs:169-175`. -/
def toNonZero (w : IW) (v : BitVec w.bits) : Except Err (NonZeroVal w) :=
  if h : v ≠ 0 then .ok ⟨v, h⟩ else .error .invalid

/-- `Encoder::encode`: try a bitwise copy first, `musli-core/src/en/encoder.rs:84-92`,
`storage/en.rs:69-91`. -/
def fastE (fast : Bool) (raw : Bytes) (direct : Enc) : Enc := if fast then .ok raw else direct

/-- `Decoder::decode`: try a bitwise copy first, `musli-core/src/de/decoder.rs:174-183`,
`storage/de.rs:86-105`. -/
def fastD {α} (fast : Bool) (raw direct : Dec α) : Dec α := if fast then raw else direct

/-! ## Encoding -/

/-- Do fields have `skip_encoding_if`? `LengthTestKind::Dynamic`, `musli-macros/src/en.rs:813-836`. -/
def Fields.dynamic : Fields → Bool
  | .nil => false
  | .cons _ _ skip _ fs => skip.isSome || fs.dynamic

/-- The body of a variant, with fields which have `skip_encoding_if`: only a body with fields counts them. -/
def Ty.dynamic : Ty → Bool
  | .strct _ fs => fs.dynamic
  | _ => false

section
variable [Host] (o : Options) (env : Env)

mutual

/-- `Encode::encode`. Lines: primitives `impls/mod.rs:319-336, 355-412`, `NonZero`
`impls/mod.rs:135-152`, `()` `impls/mod.rs:33-51`, `str` `impls/mod.rs:446-462`, `#[musli(bytes)]`
`impls/mod.rs:848-884`, `Option` `impls/mod.rs:652-675`, arrays `impls/mod.rs:212-233`, `Vec`
`musli-core/src/internal/macros.rs:1-137`, sets `impls/alloc.rs:283-317`, maps
`impls/alloc.rs:481-511`, tuples `impls/tuples.rs:43-71`, `Result` `impls/mod.rs:704-731`, `Box`
`impls/alloc.rs:686-706`, `Wrapping` `impls/mod.rs:758-778`, derives
`musli-macros/src/en.rs:115-151, 188-242, 398-760`. -/
def encD : (t : Ty) → Mode → t.Val → Enc
  | .prim p, m, v => (m.fmt o).encPrim p v
  | .nonZero s w, m, v => (m.fmt o).encPrim (nonZeroPrim s w) (nonZeroRaw s w v.1)
  | .unit, m, _ => (m.fmt o).encUnit
  | .bytes, m, v => (m.fmt o).encBytes v
  | .string, m, v => (m.fmt o).encStr v.bytes
  | .byteArray _, m, v => (m.fmt o).encArr v.1
  | .option t, m, v =>
    match v with
    | none => (m.fmt o).encNone
    | some x => (m.fmt o).encSome +>
      fastE ((m.fmt o).native && t.bwE) (t.rawE x) (encD t m x)
  | .array _ t, m, v =>
    if (m.fmt o).native && t.bwE then neLen v.1.length +> .ok (v.1.flatMap t.rawE)
    else (m.fmt o).encSeq v.1.length +> Enc.all (encD t m) v.1
  | .vec t, m, v =>
    if (m.fmt o).native && t.bwE then neLen v.length +> .ok (v.flatMap t.rawE)
    else (m.fmt o).encSeq v.length +> Enc.all (encD t m) v
  | .set t, m, v =>
    (m.fmt o).encSeq v.length +>
      Enc.all (fun x => fastE ((m.fmt o).native && t.bwE) (t.rawE x) (encD t m x)) v
  | .map k t, m, v =>
    (m.fmt o).encMap v.length +>
      Enc.all (fun x =>
        fastE ((m.fmt o).native && k.bwE) (k.rawE x.1) (encD k m x.1) +>
        fastE ((m.fmt o).native && t.bwE) (t.rawE x.2) (encD t m x.2)) v
  | .tuple ts, m, v => (m.fmt o).encSeq ts.length +> encTys ts m v
  | .result nt t u, m, v =>
    match v with
    | .inl x => (m.fmt o).encVariant +> encName (m.fmt o) (resultName nt true) +>
      fastE ((m.fmt o).native && t.bwE) (t.rawE x) (encD t m x)
    | .inr x => (m.fmt o).encVariant +> encName (m.fmt o) (resultName nt false) +>
      fastE ((m.fmt o).native && u.bwE) (u.rawE x) (encD u m x)
  | .boxed t, m, v => encD t m v
  | .wrapping t, m, v => encD t m v
  | .transparent t, m, v => encD t m v
  | .unitStruct, m, _ => (m.fmt o).encMap 0
  | .strct _ fs, m, v => (m.fmt o).encMap (fs.count env v) +> encFields fs m v
  | .packed lay fs, m, v =>
    if (m.fmt o).native && (lay && fs.bwE) then .ok (fs.rawE v)
    else match encPackFields fs .packed v with
      | .error e => .error e
      | .ok b => (m.fmt o).encPack b
  | .unitEnum _ names, m, v => encName (m.fmt o) names[v]
  | .enm _ vs, m, v => (m.fmt o).encVariant +> encVariants vs m v

/-- The elements of a tuple, `impls/tuples.rs:53-63`. -/
def encTys : (ts : Tys) → Mode → ts.Val → Enc
  | .nil, _, _ => .ok []
  | .cons t ts, m, v =>
    fastE ((m.fmt o).native && t.bwE) (t.rawE v.1) (encD t m v.1) +> encTys ts m v.2

/-- The entries of a struct, `musli-macros/src/en.rs:363-389`. -/
def encFields : (fs : Fields) → Mode → fs.Val → Enc
  | .nil, _, _ => .ok []
  | .cons n _ skip t fs, m, v =>
    (if fieldPresent env skip t v.1 then encName (m.fmt o) n +> encD t m v.1 else .ok []) +>
      encFields fs m v.2

/-- The fields of a packed struct, `musli-macros/src/en.rs:353-362`. -/
def encPackFields : (fs : Fields) → Mode → fs.Val → Enc
  | .nil, _, _ => .ok []
  | .cons _ _ skip t fs, m, v =>
    (if fieldPresent env skip t v.1 then encD t m v.1 else .ok []) +> encPackFields fs m v.2

/-- The entries of a body with fields, without their number, `musli-macros/src/en.rs:363-389`. -/
def encBodyFields : (t : Ty) → Mode → t.Val → Enc
  | .strct _ fs, m, v => encFields fs m v
  | _, _, _ => .ok []

/-- The tag and the body of a variant, `musli-macros/src/en.rs:431-582`. The number of entries
in the body is a constant, or if fields have `skip_encoding_if` the size hint of the enum,
`build_hint`, `en.rs:780-803`, which is 1, `encode_tagged_variant`, `en.rs:562`. -/
def encVariants : (vs : Variants) → Mode → vs.Val → Enc
  | .nil, _, v => nomatch v
  | .cons n t vs, m, v =>
    match v with
    | .inl x => encName (m.fmt o) n +>
      (if t.dynamic then (m.fmt o).encMap 1 +> encBodyFields t m x else encD t m x)
    | .inr x => encVariants vs m x

end

/-- `encoder.encode(value)`: try a bitwise copy, `musli-core/src/en/encoder.rs:84-92`,
`storage/en.rs:69-91`. -/
def viaE (t : Ty) (m : Mode) (v : t.Val) : Enc :=
  fastE ((m.fmt o).native && t.bwE) (t.rawE v) (encD o env t m v)

/-! ## Decoding -/

mutual

/-- `Decode::decode`. Lines: primitives `impls/mod.rs:338-351, 376-391, 414-429`, `NonZero`
`impls/mod.rs:154-177`, `()` `impls/mod.rs:53-67`, `Option` `impls/mod.rs:677-695`, arrays
`impls/mod.rs:235-271`, `Vec` `musli-core/src/internal/macros.rs:1-137`, sets
`impls/alloc.rs:320-350`, maps `impls/alloc.rs:546-570`, tuples `impls/tuples.rs:73-94`, `Result`
`impls/mod.rs:733-756`, `Box` `impls/alloc.rs:708-722`, `Wrapping` `impls/mod.rs:780-794`; derives
`musli-macros/src/de.rs:143-167, 210-459, 1010-1513`. Sets and maps are given as
the list of what is inserted. The number of elements of an array is checked
before decoding its elements, where the code checks it while pushing. -/
def decD : (t : Ty) → Mode → Dec t.Val
  | .prim p, m => (m.fmt o).decPrim p
  | .nonZero s w, m => do
    let v ← fastD ((m.fmt o).native && (nonZeroPrim s w).bwD) (unrawPrim (nonZeroPrim s w))
      ((m.fmt o).decPrim (nonZeroPrim s w))
    Dec.ofExcept (toNonZero w (nonZeroUnraw s w v))
  | .unit, m => (m.fmt o).decUnit
  | .bytes, m => (m.fmt o).decBytes
  | .string, m => do
    let b ← (m.fmt o).decStr
    Dec.ofExcept (toStr b)
  | .byteArray n, m => do
    let b ← (m.fmt o).decArr n
    Dec.ofExcept (toArray n b)
  | .option t, m => do
    let some? ← (m.fmt o).decOption
    if some? then do
      let x ← fastD ((m.fmt o).native && t.bwD) t.rawD (decD t m)
      pure (some x)
    else pure none
  | .array n t, m => do
    let c ← (m.fmt o).decSeq
    if c = n then do
      let l ← decN (fastD ((m.fmt o).native && t.bwD) t.rawD (decD t m)) n
      let _ ← (m.fmt o).endSeq 0
      Dec.ofExcept (toArray n l)
    else Dec.fail .length
  | .vec t, m =>
    if (m.fmt o).native && t.bwD then do
      let c ← unNeLen
      decN t.rawD c
    else do
      let c ← (m.fmt o).decSeq
      let l ← decN (decD t m) c
      let _ ← (m.fmt o).endSeq 0
      pure l
  | .set t, m => do
    let c ← (m.fmt o).decSeq
    let l ← decN (fastD ((m.fmt o).native && t.bwD) t.rawD (decD t m)) c
    let _ ← (m.fmt o).endSeq 0
    pure l
  | .map k t, m => do
    let c ← (m.fmt o).decMap
    let l ← decN (do
      let a ← fastD ((m.fmt o).native && k.bwD) k.rawD (decD k m)
      let b ← fastD ((m.fmt o).native && t.bwD) t.rawD (decD t m)
      pure (a, b)) c
    let _ ← (m.fmt o).endMap 0
    pure l
  | .tuple ts, m => do
    let c ← (m.fmt o).decSeq
    let (v, left) ← decTys ts m c
    let _ ← (m.fmt o).endSeq left
    pure v
  | .result nt t u, m => do
    let _ ← (m.fmt o).decVariant
    let n ← decName (m.fmt o) nt
    if n = resultName nt true then do
      let x ← fastD ((m.fmt o).native && t.bwD) t.rawD (decD t m)
      pure (Sum.inl x)
    else if n = resultName nt false then do
      let x ← fastD ((m.fmt o).native && u.bwD) u.rawD (decD u m)
      pure (Sum.inr x)
    else Dec.fail .unknown
  | .boxed t, m => fastD ((m.fmt o).native && t.bwD) t.rawD (decD t m)
  | .wrapping t, m => fastD ((m.fmt o).native && t.bwD) t.rawD (decD t m)
  | .transparent t, m => decD t m
  | .unitStruct, m => do
    let c ← (m.fmt o).decMap
    (m.fmt o).endMap c
  | .strct nt fs, m => do
    let c ← (m.fmt o).decMap
    let p ← loopN (fun p => do
      let n ← decName (m.fmt o) nt
      decEntry fs m n p) c fs.none
    let v ← Dec.ofExcept (fs.finish env p)
    let _ ← (m.fmt o).endMap 0
    pure v
  | .packed lay fs, m =>
    if (m.fmt o).native && (lay && fs.bwD) then fs.rawD
    else (m.fmt o).decPack (decPackFields fs .packed)
  | .unitEnum nt names, m => do
    let n ← decName (m.fmt o) nt
    match findName n names with
    | some i => pure i
    | none => Dec.fail .unknown
  | .enm nt vs, m => do
    let _ ← (m.fmt o).decVariant
    let n ← decName (m.fmt o) nt
    decVariants vs m n

/-- The elements of a tuple; `decode_next` fails when none is left. Returns how many
elements are left, `impls/tuples.rs:84-93`. -/
def decTys : (ts : Tys) → Mode → Nat → Dec (ts.Val × Nat)
  | .nil, _, c => pure ((), c)
  | .cons t ts, m, c =>
    match c with
    | 0 => Dec.fail .length
    | c + 1 => do
      let a ← fastD ((m.fmt o).native && t.bwD) t.rawD (decD t m)
      let (b, left) ← decTys ts m c
      pure ((a, b), left)

/-- One entry of a struct: the `match` on the name,
`musli-macros/src/de.rs:1208-1286`. -/
def decEntry : (fs : Fields) → Mode → Name → fs.Partial → Dec fs.Partial
  | .nil, m, _, _ => (m.fmt o).skip
  | .cons n _ _ t fs, m, name, p =>
    if n = name then do
      let v ← decD t m
      pure (some v, p.2)
    else do
      let q ← decEntry fs m name p.2
      pure (p.1, q)

/-- The fields of a packed struct, `musli-macros/src/de.rs:1445-1485`. The branch for
fields with a default cannot be reached: `init_default` is `None` for every field
in `unskipped_fields`, `internals/build.rs:156-158, 339-352`. -/
def decPackFields : (fs : Fields) → Mode → Dec fs.Val
  | .nil, _ => pure ()
  | .cons _ _ _ t fs, m => do
    let a ← decD t m
    let b ← decPackFields fs m
    pure (a, b)

/-- The `match` on the tag of a variant, `musli-macros/src/de.rs:364-459`. -/
def decVariants : (vs : Variants) → Mode → Name → Dec vs.Val
  | .nil, _, _ => Dec.fail .unknown
  | .cons n t vs, m, name =>
    if n = name then do
      let x ← decD t m
      pure (Sum.inl x)
    else do
      let x ← decVariants vs m name
      pure (Sum.inr x)

end

/-- `decoder.decode()`: try a bitwise copy, `musli-core/src/de/decoder.rs:174-183`,
`storage/de.rs:86-105`. -/
def viaD (t : Ty) (m : Mode) : Dec t.Val :=
  fastD ((m.fmt o).native && t.bwD) t.rawD (decD o env t m)

end

/-! ## Entry points -/

/-- `to_vec` and the like of a format: `storage/mod.rs`, `wire/mod.rs`,
`descriptive/mod.rs`, `packed/mod.rs`: `T::encode(value, encoder)`. -/
def encode [Host] (o : Options) (env : Env) (m : Mode) (t : Ty) (v : t.Val) : Enc :=
  encD o env t m v

/-- `decode` of a format: `T::decode(decoder)`, returning what is left of the
reader. -/
def decode [Host] (o : Options) (env : Env) (m : Mode) (t : Ty) : Dec t.Val :=
  decD o env t m

end Musli
