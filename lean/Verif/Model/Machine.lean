import Verif.Model.Pointer
/-!
# The formats on machines with pointers of 32 or 64 bits

`Model/Codec.lean` fixes `usize` to 64 bits. Here the formats are given for either width of pointers. Numbers of
type `usize` and `isize` and lengths are the only things which depend on it, provided that nothing is copied as
bits, that is `is_native_fixed` is false; copies are modelled by `encVecCopy` only. `C114_model_w64` shows that with
64 bits this is the model of `Model/Codec.lean`.

Values of `usize` and `isize` have 64 bits in the model. On a machine of 32 bits those which do not exist there
cannot be written.
-/
namespace Musli.Machine

/-- What depends on the width of pointers: the methods for numbers and lengths. -/
structure Nums where
  /-- `usize::BITS` -/
  bits : Nat
  encLen : Nat → Enc
  decLen : Dec Nat
  encPrim : (p : Prim) → p.Val → Enc
  decPrim : (p : Prim) → Dec p.Val

section
variable [Host] (P : Ptr) (lim : Nat) (o : Options)

/-- `encode_usize` of a length, `int/encoding.rs:96-123`. -/
def encLen (n : Nat) : Enc :=
  if n < 2 ^ lim then P.encodeUsize o (BitVec.ofNat P.bits n) else .error .overflow

/-- `decode_usize` of a length, `int/encoding.rs:127-156`. -/
def decLen : Dec Nat := do
  let n ← P.decodeUsize o
  pure n.toNat

/-- `encode_bool .. encode_isize`: as in `Model/{Storage,Wire,Descriptive}.lean`, except for `usize` and `isize`,
`storage/en.rs:208-215`, `wire/en.rs:250-261`, `descriptive/en.rs:229-236`. -/
def encPrim (m : Mode) : (p : Prim) → p.Val → Enc
  | .usize, v => if v.toNat < 2 ^ lim then P.encUsize o m (v.setWidth P.bits) else .error .overflow
  | .isize, v =>
    if -2 ^ (lim - 1) ≤ v.toInt ∧ v.toInt < 2 ^ (lim - 1) then P.encIsize o m (v.setWidth P.bits)
    else .error .overflow
  | p, v => (m.fmt o).encPrim p v

/-- `decode_bool .. decode_isize`: as in `Model/{Storage,Wire,Descriptive}.lean`, except for `usize` and `isize`,
`storage/de.rs:280-287`, `wire/de.rs:443-450`, `descriptive/de.rs:541-548`. -/
def decPrim (m : Mode) : (p : Prim) → Dec p.Val
  | .usize => do
    let v ← P.decUsize o m
    pure (v.setWidth 64)
  | .isize => do
    let v ← P.decIsize o m
    pure (v.signExtend 64)
  | p => (m.fmt o).decPrim p

/-- The methods of machine `P`, restricted to what is below `2 ^ lim`. -/
def nums (m : Mode) : Nums where
  bits := lim
  encLen := encLen P lim o
  decLen := decLen P o
  encPrim := encPrim P lim o m
  decPrim := decPrim P o m

end

/-! ## Storage: `Model/Storage.lean` -/

/-- `encode_bytes`, `storage/en.rs:110-114`, and `encode_string`, `storage/en.rs:131-135`. -/
def sEncBytes (N : Nums) (b : Bytes) : Enc := N.encLen b.length +> .ok b

/-- `decode_bytes`, `storage/de.rs:136-142`. -/
def sDecBytes (N : Nums) : Dec Bytes := do
  let n ← N.decLen
  Dec.readBytes n

/-- `decode_empty`, `storage/de.rs:107-119`. -/
def sDecUnit (N : Nums) : Dec Unit := do
  let n ← N.decLen
  if n = 0 then pure () else Dec.fail .length

/-- `StorageEncoder` and `StorageDecoder`, as `Storage.fmt`. -/
def storage (native pack : Bool) (N : Nums) : Fmt where
  native := native
  pack := pack
  delimited := false
  encPrim := N.encPrim
  decPrim := N.decPrim
  encUnit := N.encLen 0
  decUnit := sDecUnit N
  encBytes := sEncBytes N
  decBytes := sDecBytes N
  encArr := fun b => .ok b
  decArr := Dec.readBytes
  encStr := sEncBytes N
  decStr := sDecBytes N
  encNone := if pack then .ok [] else .ok [0#8]
  encSome := if pack then .ok [] else .ok [1#8]
  decOption := Storage.decOption pack
  encSeq := N.encLen
  decSeq := N.decLen
  endSeq := Storage.endSeq
  encMap := N.encLen
  decMap := N.decLen
  endMap := Storage.endSeq
  encVariant := .ok []
  decVariant := pure ()
  encPack := fun b => .ok b
  decPack := fun d => d
  skip := Dec.fail .unsupported

/-! ## Wire: `Model/Wire.lean` -/

/-- `Tag::with_len` with what follows it: `wire/en.rs:56-66, 548-562`, `wire/tag.rs:117-123`. -/
def wEncTagLen (N : Nums) (kind : Byte) (n : Nat) : Enc :=
  if n < 63 then .ok [Wire.tag kind (BitVec.ofNat 8 n)]
  else .ok [Wire.tag kind Wire.DATA_MASK] +> N.encLen n

/-- The length belonging to a tag, `wire/de.rs:75-79, 113-117, 147-151`. -/
def wTagLen (N : Nums) (t : Byte) : Dec Nat :=
  match Wire.data t with
  | some d => pure d.toNat
  | none => N.decLen

/-- `decode_sequence_len` and `decode_len`, `wire/de.rs:109-123, 143-156`. -/
def wDecTagLen (N : Nums) (k : Byte) : Dec Nat := do
  let t ← Dec.readByte
  if Wire.kind t = k then wTagLen N t else Dec.fail .invalid

/-- The body of the loop of `skip_any`, `wire/de.rs:65-106`. -/
def wStep (N : Nums) : Dec Nat := do
  let t ← Dec.readByte
  if Wire.kind t = Wire.PREFIX then do
    let n ← wTagLen N t
    let _ ← Dec.skip n
    pure 0
  else if Wire.kind t = Wire.SEQUENCE then wTagLen N t
  else if Wire.kind t = Wire.CONTINUATION then
    match Wire.data t with
    | some _ => pure 0
    | none => do
      let _ ← Varint.decode 128
      pure 0
  else Dec.fail .invalid

/-- `skip_any`, `wire/de.rs:65-106`; the counter is a natural number. -/
def wSkip (N : Nums) : Dec Unit := skipAny (wStep N)

/-- `encode_bytes`, `encode_string`, `encode_array`, `wire/en.rs:145-174`, and packs, `362-367`. -/
def wEncBytes (N : Nums) (b : Bytes) : Enc := wEncTagLen N Wire.PREFIX b.length +> .ok b

/-- `decode_bytes`, `wire/de.rs:296-303`. -/
def wDecBytes (N : Nums) : Dec Bytes := do
  let n ← wDecTagLen N Wire.PREFIX
  Dec.readBytes n

/-- `decode_array`, `wire/de.rs:278-293`. -/
def wDecArr (N : Nums) (n : Nat) : Dec Bytes := do
  let m ← wDecTagLen N Wire.PREFIX
  if m = n then Dec.readBytes n else Dec.fail .length

/-- `encode_map_len`, `wire/en.rs:41-54`: `checked_mul(2)` of a `usize`. -/
def wEncMapLen (N : Nums) (n : Nat) : Enc :=
  if n * 2 < 2 ^ N.bits then wEncTagLen N Wire.SEQUENCE (n * 2) else .error .overflow

/-- `skip_sequence_remaining`, `wire/de.rs:187-197`. -/
def wEndSeq (N : Nums) : Nat → Dec Unit
  | 0 => pure ()
  | n + 1 => do
    let _ ← wSkip N
    wEndSeq N n

/-- `skip_remaining_entries`, `wire/de.rs:200-211`. -/
def wEndMap (N : Nums) : Nat → Dec Unit
  | 0 => pure ()
  | n + 1 => do
    let _ ← wSkip N
    let _ ← wSkip N
    wEndMap N n

/-- `shared_decode_pair_sequence`, `wire/de.rs:127-132`. -/
def wDecMapLen (N : Nums) : Dec Nat := do
  let n ← wDecTagLen N Wire.SEQUENCE
  pure (n / 2)

/-- `decode_pack`, `wire/de.rs:265-275`. -/
def wDecPack (N : Nums) {α} (d : Dec α) : Dec α := do
  let n ← wDecTagLen N Wire.PREFIX
  limited n d

/-- `WireEncoder` and `WireDecoder`, as `Wire.fmt`. -/
def wire (N : Nums) : Fmt where
  native := false
  pack := false
  delimited := true
  encPrim := N.encPrim
  decPrim := N.decPrim
  encUnit := .ok [Wire.tag Wire.SEQUENCE 0#8]
  decUnit := wSkip N
  encBytes := wEncBytes N
  decBytes := wDecBytes N
  encArr := wEncBytes N
  decArr := wDecArr N
  encStr := wEncBytes N
  decStr := wDecBytes N
  encNone := .ok [Wire.tag Wire.SEQUENCE 0#8]
  encSome := .ok [Wire.tag Wire.SEQUENCE 1#8]
  decOption := Wire.decOption
  encSeq := wEncTagLen N Wire.SEQUENCE
  decSeq := wDecTagLen N Wire.SEQUENCE
  endSeq := wEndSeq N
  encMap := wEncMapLen N
  decMap := wDecMapLen N
  endMap := wEndMap N
  encVariant := .ok [Wire.tag Wire.SEQUENCE 2#8]
  decVariant := Wire.decVariant
  encPack := wEncBytes N
  decPack := wDecPack N
  skip := wSkip N

/-! ## Descriptive: `Model/Descriptive.lean` -/

/-- `encode_prefix`, `descriptive/en.rs:536-556`, with `Tag::with_len`, `descriptive/tag.rs:251-257`. -/
def dEncTagLen (N : Nums) (kind : Byte) (n : Nat) : Enc :=
  if n < 31 then .ok [Desc.tag kind (BitVec.ofNat 8 n)]
  else .ok [Desc.tag kind Desc.DATA_MASK] +> N.encLen n

/-- `decode_len`, `descriptive/de.rs:152-158`. -/
def dTagLen (N : Nums) (t : Byte) : Dec Nat :=
  match Desc.data t with
  | some d => pure d.toNat
  | none => N.decLen

/-- `decode_prefix`, `descriptive/de.rs:135-149`; `decode_pack_length`, `162-169`. -/
def dDecTagLen (N : Nums) (k : Byte) : Dec Nat := do
  let t ← Dec.readByte
  if Desc.kind t = k then dTagLen N t else Dec.fail .invalid

/-- The body of the loop of `skip_any`, `descriptive/de.rs:65-115`. -/
def dStep (N : Nums) : Dec Nat := do
  let t ← Dec.readByte
  if Desc.kind t = Desc.NUMBER then do
    let _ ← Varint.decode 128
    pure 0
  else if Desc.kind t = Desc.MARK then
    if Desc.mark t = Desc.mVariant then pure 2
    else if Desc.mark t = Desc.mSome then pure 1
    else if Desc.mark t = Desc.mChar then do
      let _ ← Varint.decode 32
      pure 0
    else pure 0
  else if Desc.kind t = Desc.BYTES ∨ Desc.kind t = Desc.STRING then do
    let n ← dTagLen N t
    let _ ← Dec.skip n
    pure 0
  else if Desc.kind t = Desc.SEQUENCE then dTagLen N t
  else if Desc.kind t = Desc.MAP then do
    let n ← dTagLen N t
    pure (n * 2)
  else Dec.fail .invalid

/-- `skip_any`, `descriptive/de.rs:65-115`; the counter is a natural number. -/
def dSkip (N : Nums) : Dec Unit := skipAny (dStep N)

/-- `encode_bytes`, `encode_string`, `descriptive/en.rs:109-138`. -/
def dEncBytes (N : Nums) (kind : Byte) (b : Bytes) : Enc := dEncTagLen N kind b.length +> .ok b

/-- `decode_bytes`, `descriptive/de.rs:312-319`, `decode_string`, `322-367`. -/
def dDecBytes (N : Nums) (kind : Byte) : Dec Bytes := do
  let n ← dDecTagLen N kind
  Dec.readBytes n

/-- `decode_array`, `descriptive/de.rs:295-309`. -/
def dDecArr (N : Nums) (n : Nat) : Dec Bytes := do
  let m ← dDecTagLen N Desc.BYTES
  if m = n then Dec.readBytes n else Dec.fail .length

/-- `skip_sequence_remaining`, `descriptive/de.rs:200-206`. -/
def dEndSeq (N : Nums) : Nat → Dec Unit
  | 0 => pure ()
  | _ + 1 => dSkip N

/-- `skip_map_remaining`, `descriptive/de.rs:209-220`. -/
def dEndMap (N : Nums) : Nat → Dec Unit
  | 0 => pure ()
  | n + 1 => do
    let _ ← dSkip N
    let _ ← dSkip N
    dEndMap N n

/-- `decode_pack`, `descriptive/de.rs:282-292`. -/
def dDecPack (N : Nums) {α} (d : Dec α) : Dec α := do
  let n ← dDecTagLen N Desc.BYTES
  limited n d

/-- `SelfEncoder` and `SelfDecoder`, as `Desc.fmt`. -/
def desc (N : Nums) : Fmt where
  native := false
  pack := false
  delimited := true
  encPrim := N.encPrim
  decPrim := N.decPrim
  encUnit := .ok [Desc.tag Desc.MARK Desc.mUnit]
  decUnit := dSkip N
  encBytes := dEncBytes N Desc.BYTES
  decBytes := dDecBytes N Desc.BYTES
  encArr := dEncBytes N Desc.BYTES
  decArr := dDecArr N
  encStr := dEncBytes N Desc.STRING
  decStr := dDecBytes N Desc.STRING
  encNone := .ok [Desc.tag Desc.MARK Desc.mNone]
  encSome := .ok [Desc.tag Desc.MARK Desc.mSome]
  decOption := Desc.decOption
  encSeq := dEncTagLen N Desc.SEQUENCE
  decSeq := dDecTagLen N Desc.SEQUENCE
  endSeq := dEndSeq N
  encMap := dEncTagLen N Desc.MAP
  decMap := dDecTagLen N Desc.MAP
  endMap := dEndMap N
  encVariant := .ok [Desc.tag Desc.MARK Desc.mVariant]
  decVariant := Desc.decVariant
  encPack := dEncBytes N Desc.BYTES
  decPack := dDecPack N
  skip := dSkip N

/-- The methods of a format for given numbers. -/
def ofNums (native : Bool) (N : Mode → Nums) : Mode → Fmt
  | .storage => storage native false (N .storage)
  | .packed => storage native true (N .packed)
  | .wire => wire (N .wire)
  | .descriptive => desc (N .descriptive)

/-- The methods of a format on a machine with pointers as `P`, for what is below `2 ^ lim`. -/
def fmtBelow [Host] (P : Ptr) (lim : Nat) (o : Options) : Mode → Fmt :=
  ofNums (Opt.isNativeFixed o) (nums P lim o)

/-- The methods of a format on a machine with pointers as `P`. -/
def fmt [Host] (P : Ptr) (o : Options) : Mode → Fmt := fmtBelow P P.bits o

/-! ## Encoding -/

section
/-! The definitions are those of `Model/Codec.lean` for any methods `F`, without the branches for `is_native_fixed`. -/

variable (F : Mode → Fmt) (env : Env)

mutual

/-- `Encode::encode` without copies of bits. Lines: primitives `impls/mod.rs:319-336, 355-412`, `NonZero`
`impls/mod.rs:135-152`, `()` `impls/mod.rs:33-51`, `str` `impls/mod.rs:446-462`, `#[musli(bytes)]`
`impls/mod.rs:848-884`, `Option` `impls/mod.rs:652-675`, arrays `impls/mod.rs:212-233`, `Vec`
`musli-core/src/internal/macros.rs:1-137`, sets `impls/alloc.rs:283-317`, maps
`impls/alloc.rs:481-511`, tuples `impls/tuples.rs:43-71`, `Result` `impls/mod.rs:704-731`, `Box`
`impls/alloc.rs:686-706`, `Wrapping` `impls/mod.rs:758-778`, derives
`musli-macros/src/en.rs:115-151, 188-242, 398-760`. -/
def encG : (t : Ty) → Mode → t.Val → Enc
  | .prim p, m, v => (F m).encPrim p v
  | .nonZero s w, m, v => (F m).encPrim (nonZeroPrim s w) (nonZeroRaw s w v.1)
  | .unit, m, _ => (F m).encUnit
  | .bytes, m, v => (F m).encBytes v
  | .string, m, v => (F m).encStr v.bytes
  | .byteArray _, m, v => (F m).encArr v.1
  | .option t, m, v =>
    match v with
    | none => (F m).encNone
    | some x => (F m).encSome +>
      encG t m x
  | .array _ t, m, v =>
    (F m).encSeq v.1.length +> Enc.all (encG t m) v.1
  | .vec t, m, v =>
    (F m).encSeq v.length +> Enc.all (encG t m) v
  | .set t, m, v =>
    (F m).encSeq v.length +>
      Enc.all (fun x => encG t m x) v
  | .map k t, m, v =>
    (F m).encMap v.length +>
      Enc.all (fun x =>
        encG k m x.1 +>
        encG t m x.2) v
  | .tuple ts, m, v => (F m).encSeq ts.length +> encTysG ts m v
  | .result nt t u, m, v =>
    match v with
    | .inl x => (F m).encVariant +> encName (F m) (resultName nt true) +>
      encG t m x
    | .inr x => (F m).encVariant +> encName (F m) (resultName nt false) +>
      encG u m x
  | .boxed t, m, v => encG t m v
  | .wrapping t, m, v => encG t m v
  | .transparent t, m, v => encG t m v
  | .unitStruct, m, _ => (F m).encMap 0
  | .strct _ fs, m, v => (F m).encMap (fs.count env v) +> encFieldsG fs m v
  | .packed _ fs, m, v =>
    match encPackFieldsG fs .packed v with
      | .error e => .error e
      | .ok b => (F m).encPack b
  | .unitEnum _ names, m, v => encName (F m) names[v]
  | .enm _ vs, m, v => (F m).encVariant +> encVariantsG vs m v

/-- The elements of a tuple, `impls/tuples.rs:53-63`. -/
def encTysG : (ts : Tys) → Mode → ts.Val → Enc
  | .nil, _, _ => .ok []
  | .cons t ts, m, v =>
    encG t m v.1 +> encTysG ts m v.2

/-- The entries of a struct, `musli-macros/src/en.rs:363-389`. -/
def encFieldsG : (fs : Fields) → Mode → fs.Val → Enc
  | .nil, _, _ => .ok []
  | .cons n _ skip t fs, m, v =>
    (if fieldPresent env skip t v.1 then encName (F m) n +> encG t m v.1 else .ok []) +>
      encFieldsG fs m v.2

/-- The fields of a packed struct, `musli-macros/src/en.rs:353-362`. -/
def encPackFieldsG : (fs : Fields) → Mode → fs.Val → Enc
  | .nil, _, _ => .ok []
  | .cons _ _ skip t fs, m, v =>
    (if fieldPresent env skip t v.1 then encG t m v.1 else .ok []) +> encPackFieldsG fs m v.2

/-- The entries of a body with fields, without their number, `musli-macros/src/en.rs:363-389`. -/
def encBodyFieldsG : (t : Ty) → Mode → t.Val → Enc
  | .strct _ fs, m, v => encFieldsG fs m v
  | _, _, _ => .ok []

/-- The tag and the body of a variant, `musli-macros/src/en.rs:431-582`, with the number of entries
as in `encVariants`. -/
def encVariantsG : (vs : Variants) → Mode → vs.Val → Enc
  | .nil, _, v => nomatch v
  | .cons n t vs, m, v =>
    match v with
    | .inl x => encName (F m) n +>
      (if t.dynamic then (F m).encMap 1 +> encBodyFieldsG t m x else encG t m x)
    | .inr x => encVariantsG vs m x

end

/-! ## Decoding -/

mutual

/-- `Decode::decode` without copies of bits. Lines: primitives `impls/mod.rs:338-351, 376-391, 414-429`, `NonZero`
`impls/mod.rs:154-177`, `()` `impls/mod.rs:53-67`, `Option` `impls/mod.rs:677-695`, arrays
`impls/mod.rs:235-271`, `Vec` `musli-core/src/internal/macros.rs:1-137`, sets
`impls/alloc.rs:320-350`, maps `impls/alloc.rs:546-570`, tuples `impls/tuples.rs:73-94`, `Result`
`impls/mod.rs:733-756`, `Box` `impls/alloc.rs:708-722`, `Wrapping` `impls/mod.rs:780-794`; derives
`musli-macros/src/de.rs:143-167, 210-459, 1010-1513`. Sets and maps are given as
the list of what is inserted. The number of elements of an array is checked
before decoding its elements, where the code checks it while pushing. -/
def decG : (t : Ty) → Mode → Dec t.Val
  | .prim p, m => (F m).decPrim p
  | .nonZero s w, m => do
    let v ← (F m).decPrim (nonZeroPrim s w)
    Dec.ofExcept (toNonZero w (nonZeroUnraw s w v))
  | .unit, m => (F m).decUnit
  | .bytes, m => (F m).decBytes
  | .string, m => do
    let b ← (F m).decStr
    Dec.ofExcept (toStr b)
  | .byteArray n, m => do
    let b ← (F m).decArr n
    Dec.ofExcept (toArray n b)
  | .option t, m => do
    let some? ← (F m).decOption
    if some? then do
      let x ← decG t m
      pure (some x)
    else pure none
  | .array n t, m => do
    let c ← (F m).decSeq
    if c = n then do
      let l ← decN (decG t m) n
      let _ ← (F m).endSeq 0
      Dec.ofExcept (toArray n l)
    else Dec.fail .length
  | .vec t, m => do
    let c ← (F m).decSeq
    let l ← decN (decG t m) c
    let _ ← (F m).endSeq 0
    pure l
  | .set t, m => do
    let c ← (F m).decSeq
    let l ← decN (decG t m) c
    let _ ← (F m).endSeq 0
    pure l
  | .map k t, m => do
    let c ← (F m).decMap
    let l ← decN (do
      let a ← decG k m
      let b ← decG t m
      pure (a, b)) c
    let _ ← (F m).endMap 0
    pure l
  | .tuple ts, m => do
    let c ← (F m).decSeq
    let (v, left) ← decTysG ts m c
    let _ ← (F m).endSeq left
    pure v
  | .result nt t u, m => do
    let _ ← (F m).decVariant
    let n ← decName (F m) nt
    if n = resultName nt true then do
      let x ← decG t m
      pure (Sum.inl x)
    else if n = resultName nt false then do
      let x ← decG u m
      pure (Sum.inr x)
    else Dec.fail .unknown
  | .boxed t, m => decG t m
  | .wrapping t, m => decG t m
  | .transparent t, m => decG t m
  | .unitStruct, m => do
    let c ← (F m).decMap
    (F m).endMap c
  | .strct nt fs, m => do
    let c ← (F m).decMap
    let p ← loopN (fun p => do
      let n ← decName (F m) nt
      decEntryG fs m n p) c fs.none
    let v ← Dec.ofExcept (fs.finish env p)
    let _ ← (F m).endMap 0
    pure v
  | .packed _ fs, m =>
    (F m).decPack (decPackFieldsG fs .packed)
  | .unitEnum nt names, m => do
    let n ← decName (F m) nt
    match findName n names with
    | some i => pure i
    | none => Dec.fail .unknown
  | .enm nt vs, m => do
    let _ ← (F m).decVariant
    let n ← decName (F m) nt
    decVariantsG vs m n

/-- The elements of a tuple; `decode_next` fails when none is left. Returns how many
elements are left, `impls/tuples.rs:84-93`. -/
def decTysG : (ts : Tys) → Mode → Nat → Dec (ts.Val × Nat)
  | .nil, _, c => pure ((), c)
  | .cons t ts, m, c =>
    match c with
    | 0 => Dec.fail .length
    | c + 1 => do
      let a ← decG t m
      let (b, left) ← decTysG ts m c
      pure ((a, b), left)

/-- One entry of a struct: the `match` on the name,
`musli-macros/src/de.rs:1208-1286`. -/
def decEntryG : (fs : Fields) → Mode → Name → fs.Partial → Dec fs.Partial
  | .nil, m, _, _ => (F m).skip
  | .cons n _ _ t fs, m, name, p =>
    if n = name then do
      let v ← decG t m
      pure (some v, p.2)
    else do
      let q ← decEntryG fs m name p.2
      pure (p.1, q)

/-- The fields of a packed struct, `musli-macros/src/de.rs:1445-1485`. The branch for
fields with a default cannot be reached: `init_default` is `None` for every field
in `unskipped_fields`, `internals/build.rs:156-158, 339-352`. -/
def decPackFieldsG : (fs : Fields) → Mode → Dec fs.Val
  | .nil, _ => pure ()
  | .cons _ _ _ t fs, m => do
    let a ← decG t m
    let b ← decPackFieldsG fs m
    pure (a, b)

/-- The `match` on the tag of a variant, `musli-macros/src/de.rs:364-459`. -/
def decVariantsG : (vs : Variants) → Mode → Name → Dec vs.Val
  | .nil, _, _ => Dec.fail .unknown
  | .cons n t vs, m, name =>
    if n = name then do
      let x ← decG t m
      pure (Sum.inl x)
    else do
      let x ← decVariantsG vs m name
      pure (Sum.inr x)

end

end


/-! ## Entry points -/

/-- `to_vec` and the like on a machine with pointers as `P`, if `is_native_fixed` is false. -/
def encode [Host] (P : Ptr) (o : Options) (env : Env) (m : Mode) (t : Ty) (v : t.Val) : Enc :=
  encG (fmt P o) env t m v

/-- `decode` on a machine with pointers as `P`, if `is_native_fixed` is false. -/
def decode [Host] (P : Ptr) (o : Options) (env : Env) (m : Mode) (t : Ty) : Dec t.Val :=
  decG (fmt P o) env t m

/-- `usize::to_ne_bytes` of the length of a slice which is copied, `storage/en.rs:565`. -/
def neLen [Host] (P : Ptr) (n : Nat) : Enc :=
  if n < 2 ^ P.bits then .ok (Fixed.toNe (BitVec.ofNat P.bits n)) else .error .overflow

/-- `encode_slice` of a type with `IS_BITWISE_ENCODE` if `is_native_fixed`, `storage/en.rs:547-578`, for elements
whose bytes in memory do not depend on the width of pointers. -/
def encVecCopy [Host] (P : Ptr) (t : Ty) (v : List t.Val) : Enc :=
  neLen P v.length +> .ok (v.flatMap t.rawE)

end Musli.Machine
