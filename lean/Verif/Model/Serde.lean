import Verif.Model.Codec
/-!
# Model of the serde bridge, `crates/musli/src/serde/{ser,de}.rs`

A field with `#[musli(with = musli::serde)]` is encoded by calling
`T::serialize` with a `Serializer` around the encoder and decoded by calling
`T::deserialize` with a `Deserializer` around the decoder. The types are those
of `Ty`, read as types with `#[derive(Serialize, Deserialize)]`:

* `.unitStruct` is `struct A;` or the body of a unit variant, `.transparent t` a
  newtype struct or the body of a newtype variant, `.tuple ts` a tuple, a tuple
  struct or the body of a tuple variant, `.strct .str fs` a struct with named
  fields or the body of a struct variant, with `#[serde(default = ..)]` and
  `#[serde(skip_serializing_if = ..)]`;
* `.array` is `[T; N]` (a serde tuple), `.vec` and `.set` are sequences of known
  length, `.map` is a map of known length.

What serde's own implementations and derives call is taken from serde's
documentation (`serde` is not part of this repository): `usize` and `isize` are
serialized as `u64` and `i64`; the visitor of a struct rejects a field that comes
twice, ignores unknown fields with `IgnoredAny`, and takes a missing `Option` as
`None`; the visitor of a tuple of `n` elements asks for exactly `n` elements.

Types which serde does not have (`#[musli(bytes)] [u8; N]`, packed structs,
names which are numbers) are errors in the model. `deserialize_any` is
in `Model/Serde/Any.lean`; nothing below calls it.
-/
namespace Musli.Serde

/-- What a serde type calls for a primitive: `usize::serialize` calls
`serialize_u64`, `isize::serialize` calls `serialize_i64`. -/
def wire : Prim → Prim
  | .usize => .uint .w64
  | .isize => .sint .w64
  | p => p

/-- `value as u64`, `value as i64`. -/
def toWire : (p : Prim) → p.Val → (wire p).Val
  | .bool, v => v
  | .char, v => v
  | .uint _, v => v
  | .sint _, v => v
  | .usize, v => v
  | .isize, v => v
  | .f32, v => v
  | .f64, v => v

/-- `value as usize`, `value as isize` on a machine with 64 bits. -/
def ofWire : (p : Prim) → (wire p).Val → p.Val
  | .bool, v => v
  | .char, v => v
  | .uint _, v => v
  | .sint _, v => v
  | .usize, v => v
  | .isize, v => v
  | .f32, v => v
  | .f64, v => v

/-- A name of a field or variant is passed as a `&'static str`; `ser.rs:266-277, 431-454`. -/
def encKey (F : Fmt) : Name → Enc
  | .str s => F.encStr s.bytes
  | .idx _ => .error .unsupported

/-- `deserialize_identifier` is `deserialize_str`, `de.rs:330-335`. -/
def decKey (F : Fmt) : Dec Name := do
  let b ← F.decStr
  let s ← Dec.ofExcept (toStr b)
  pure (.str s)

/-- `serde::private::de::missing_field`: the value of a field which did not arrive
and has no default. The deserializer which is passed to the type answers
`deserialize_option` with `visit_none` and everything else with an error. -/
def missing : (t : Ty) → Option t.Val
  | .option _ => some none
  | .boxed t => missing t
  | .wrapping t => missing t
  | _ => none

/-- The value of a field: what arrived, its default, or `missing_field`. -/
def fieldValue (env : Env) (dflt : Option Nat) (t : Ty) : Option t.Val → Except Err t.Val
  | some v => .ok v
  | none => match dflt with
    | some k => match env.dflt k t with
      | some v => .ok v
      | none => .error .missing
    | none => match missing t with
      | some v => .ok v
      | none => .error .missing

/-- Put the arrived fields together. -/
def finish (env : Env) : (fs : Fields) → fs.Partial → Except Err fs.Val
  | .nil, _ => .ok ()
  | .cons _ dflt _ t fs, p =>
    match fieldValue env dflt t p.1 with
    | .error e => .error e
    | .ok v => match finish env fs p.2 with
      | .error e => .error e
      | .ok w => .ok (v, w)

/-- Ask a sequence of `c` elements for `n` elements: `next_element` returns `None`
when there is none left, which the visitor turns into an error
(`invalid_length`); `de.rs:359-393`. Returns how many are left. -/
def takeN {α} (d : Dec α) : (n c : Nat) → Dec (List α × Nat)
  | 0, c => pure ([], c)
  | _ + 1, 0 => Dec.fail .length
  | n + 1, c + 1 => do
    let a ← d
    let (l, left) ← takeN d n c
    pure (a :: l, left)

section
variable [Host] (o : Options) (env : Env)

mutual

/-- `Serialize::serialize` with `Serializer`, `ser.rs:23-263`. -/
def ser : (t : Ty) → Mode → t.Val → Enc
  | .prim p, m, v => (m.fmt o).encPrim (wire p) (toWire p v)
  | .nonZero s w, m, v => (m.fmt o).encPrim (nonZeroPrim s w) (nonZeroRaw s w v.1)
  | .unit, m, _ => (m.fmt o).encUnit
  | .bytes, m, v => (m.fmt o).encBytes v
  | .string, m, v => (m.fmt o).encStr v.bytes
  | .byteArray _, _, _ => .error .unsupported
  | .option t, m, v =>
    match v with
    | none => (m.fmt o).encNone
    | some x => (m.fmt o).encSome +> ser t m x
  | .array _ t, m, v => (m.fmt o).encSeq v.1.length +> Enc.all (ser t m) v.1
  | .vec t, m, v => (m.fmt o).encSeq v.length +> Enc.all (ser t m) v
  | .set t, m, v => (m.fmt o).encSeq v.length +> Enc.all (ser t m) v
  | .map k t, m, v =>
    (m.fmt o).encMap v.length +> Enc.all (fun x => ser k m x.1 +> ser t m x.2) v
  | .tuple ts, m, v => (m.fmt o).encSeq ts.length +> serTys ts m v
  | .result _ t u, m, v =>
    match v with
    | .inl x => (m.fmt o).encVariant +> encKey (m.fmt o) (resultName .str true) +> ser t m x
    | .inr x => (m.fmt o).encVariant +> encKey (m.fmt o) (resultName .str false) +> ser u m x
  | .boxed t, m, v => ser t m v
  | .wrapping t, m, v => ser t m v
  | .transparent t, m, v => ser t m v
  | .unitStruct, m, _ => (m.fmt o).encUnit
  | .strct _ fs, m, v => (m.fmt o).encMap (fs.count env v) +> serFields fs m v
  | .packed _ _, _, _ => .error .unsupported
  | .unitEnum _ names, m, v =>
    (m.fmt o).encVariant +> encKey (m.fmt o) names[v] +> (m.fmt o).encUnit
  | .enm _ vs, m, v => (m.fmt o).encVariant +> serVariants vs m v

/-- `SerializeTuple`, `ser.rs:334-353`. -/
def serTys : (ts : Tys) → Mode → ts.Val → Enc
  | .nil, _, _ => .ok []
  | .cons t ts, m, v => ser t m v.1 +> serTys ts m v.2

/-- `SerializeStruct`, `ser.rs:431-454`. -/
def serFields : (fs : Fields) → Mode → fs.Val → Enc
  | .nil, _, _ => .ok []
  | .cons n _ skip t fs, m, v =>
    (if fieldPresent env skip t v.1 then encKey (m.fmt o) n +> ser t m v.1 else .ok []) +>
      serFields fs m v.2

/-- `serialize_unit_variant`, `serialize_newtype_variant`, `serialize_tuple_variant`,
`serialize_struct_variant`, `ser.rs:143-179, 204-213, 240-249, 266-277`. -/
def serVariants : (vs : Variants) → Mode → vs.Val → Enc
  | .nil, _, v => nomatch v
  | .cons n t vs, m, v =>
    match v with
    | .inl x => encKey (m.fmt o) n +> ser t m x
    | .inr x => serVariants vs m x

end

mutual

/-- `Deserialize::deserialize` with `Deserializer`, `de.rs:28-350`. -/
def de : (t : Ty) → Mode → Dec t.Val
  | .prim p, m => do
    let v ← (m.fmt o).decPrim (wire p)
    pure (ofWire p v)
  | .nonZero s w, m => do
    let v ← (m.fmt o).decPrim (nonZeroPrim s w)
    Dec.ofExcept (toNonZero w (nonZeroUnraw s w v))
  | .unit, m => (m.fmt o).decUnit
  | .bytes, m => (m.fmt o).decBytes
  | .string, m => do
    let b ← (m.fmt o).decStr
    Dec.ofExcept (toStr b)
  | .byteArray _, _ => Dec.fail .unsupported
  | .option t, m => do
    let some? ← (m.fmt o).decOption
    if some? then do
      let x ← de t m
      pure (some x)
    else pure none
  | .array n t, m => do
    let c ← (m.fmt o).decSeq
    let (l, left) ← takeN (de t m) n c
    let _ ← (m.fmt o).endSeq left
    Dec.ofExcept (toArray n l)
  | .vec t, m => do
    let c ← (m.fmt o).decSeq
    let l ← decN (de t m) c
    let _ ← (m.fmt o).endSeq 0
    pure l
  | .set t, m => do
    let c ← (m.fmt o).decSeq
    let l ← decN (de t m) c
    let _ ← (m.fmt o).endSeq 0
    pure l
  | .map k t, m => do
    let c ← (m.fmt o).decMap
    let l ← decN (do
      let a ← de k m
      let b ← de t m
      pure (a, b)) c
    let _ ← (m.fmt o).endMap 0
    pure l
  | .tuple ts, m => do
    let c ← (m.fmt o).decSeq
    let (v, left) ← deTys ts m c
    let _ ← (m.fmt o).endSeq left
    pure v
  | .result _ t u, m => do
    let _ ← (m.fmt o).decVariant
    let n ← decKey (m.fmt o)
    if n = resultName .str true then do
      let x ← de t m
      pure (Sum.inl x)
    else if n = resultName .str false then do
      let x ← de u m
      pure (Sum.inr x)
    else Dec.fail .unknown
  | .boxed t, m => de t m
  | .wrapping t, m => de t m
  | .transparent t, m => de t m
  | .unitStruct, m => (m.fmt o).decUnit
  | .strct _ fs, m => do
    let c ← (m.fmt o).decMap
    let p ← loopN (fun p => do
      let n ← decKey (m.fmt o)
      deEntry fs m n p) c fs.none
    let v ← Dec.ofExcept (finish env fs p)
    let _ ← (m.fmt o).endMap 0
    pure v
  | .packed _ _, _ => Dec.fail .unsupported
  | .unitEnum _ names, m => do
    let _ ← (m.fmt o).decVariant
    let n ← decKey (m.fmt o)
    match findName n names with
    | some i => do
      let _ ← (m.fmt o).decUnit
      pure i
    | none => Dec.fail .unknown
  | .enm _ vs, m => do
    let _ ← (m.fmt o).decVariant
    let n ← decKey (m.fmt o)
    deVariants vs m n

/-- The visitor of a tuple, with `SequenceAccess`, `de.rs:257-281, 359-393`. -/
def deTys : (ts : Tys) → Mode → Nat → Dec (ts.Val × Nat)
  | .nil, _, c => pure ((), c)
  | .cons t ts, m, c =>
    match c with
    | 0 => Dec.fail .length
    | c + 1 => do
      let a ← de t m
      let (b, left) ← deTys ts m c
      pure ((a, b), left)

/-- One entry of a struct, with `StructAccess`, `de.rs:296-310, 400-443`: a field which
already arrived is an error, an unknown field is skipped
(`deserialize_ignored_any`, `de.rs:338-344`). -/
def deEntry : (fs : Fields) → Mode → Name → fs.Partial → Dec fs.Partial
  | .nil, m, _, _ => (m.fmt o).skip
  | .cons n _ _ t fs, m, name, p =>
    if n = name then
      match p.1 with
      | some _ => Dec.fail .invalid
      | none => do
        let v ← de t m
        pure (some v, p.2)
    else do
      let q ← deEntry fs m name p.2
      pure (p.1, q)

/-- The visitor of an enum, with `EnumAccess`, `de.rs:313-327, 629-709`. -/
def deVariants : (vs : Variants) → Mode → Name → Dec vs.Val
  | .nil, _, _ => Dec.fail .unknown
  | .cons n t vs, m, name =>
    if n = name then do
      let x ← de t m
      pure (Sum.inl x)
    else do
      let x ← deVariants vs m name
      pure (Sum.inr x)

end

end

/-- `musli::serde::encode`, `serde/mod.rs:131-140`. -/
def encode [Host] (o : Options) (env : Env) (m : Mode) (t : Ty) (v : t.Val) : Enc :=
  ser o env t m v

/-- `musli::serde::decode`, `serde/mod.rs:169-178`. -/
def decode [Host] (o : Options) (env : Env) (m : Mode) (t : Ty) : Dec t.Val :=
  de o env t m

end Musli.Serde
