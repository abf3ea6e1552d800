import Verif.Model.Value.Any
/-!
# Enums that are not tagged by a variant

`#[musli(tag = .., content = ..)]`, `#[musli(tag = ..)]`, `#[musli(untagged)]` and the fallback variant
`#[musli(default)]`: the code generated by `crates/musli-macros/src/en.rs:437-760` and
`crates/musli-macros/src/de.rs:210-362, 461-878`, in the binary formats. The variants are
those of `Ty.enm`.
-/
namespace Musli

/-- The name of the variant of a value, `musli-macros/src/en.rs:437-470`. -/
def Variants.nameOf : (vs : Variants) → vs.Val → Name
  | .nil, v => nomatch v
  | .cons n _ vs, v =>
    match v with
    | .inl _ => n
    | .inr x => vs.nameOf x

/-- Is this the last variant? -/
def Variants.isNil : Variants → Bool
  | .nil => true
  | .cons _ _ _ => false

section
variable [Host] (o : Options) (env : Env)

/-- `encoder.encode(NAME)`: a bitwise copy if the format does those and the name is a `usize`,
`musli-core/src/en/entry_encoder.rs:38-46`, `encoder.rs:84-92`. -/
def viaName (F : Fmt) (n : Name) : Enc :=
  match n with
  | .idx i => fastE F.native (Fixed.toNe i) (encName F (.idx i))
  | .str s => encName F (.str s)

/-- `insert_entry(TAG, NAME)`, `musli-core/src/en/map_encoder.rs:42-49`. -/
def encTag (F : Fmt) (tag name : Name) : Enc := viaName F tag +> viaName F name

/-- The body of a variant of an untagged enum, `musli-macros/src/en.rs:505-533`. The size hint of the enum
is that of the body there. -/
def encBody : (vs : Variants) → Mode → vs.Val → Enc
  | .nil, _, v => nomatch v
  | .cons _ t vs, m, v =>
    match v with
    | .inl x => encD o env t m x
    | .inr x => encBody vs m x

/-! ## Adjacently tagged: `#[musli(tag = .., content = ..)]` -/

/-- The content, `musli-macros/src/en.rs:363-389`. If fields have `skip_encoding_if`, the number of entries is the
size hint of the enum, `build_hint`, `en.rs:780-803`, which is 2, `en.rs:762`. -/
def encContent : (vs : Variants) → Mode → vs.Val → Enc
  | .nil, _, v => nomatch v
  | .cons _ t vs, m, v =>
    match v with
    | .inl x => if t.dynamic then (m.fmt o).encMap 2 +> encBodyFields o env t m x else encD o env t m x
    | .inr x => encContent vs m x

/-- `encode_adjacent_variant`, `musli-macros/src/en.rs:695-760`. -/
def encAdjacent (tag content : Name) (vs : Variants) (m : Mode) (v : vs.Val) : Enc :=
  (m.fmt o).encMap 2 +> encTag (m.fmt o) tag (vs.nameOf v) +> encName (m.fmt o) content +>
    encContent o env vs m v

/-- The loop over the entries, `musli-macros/src/de.rs:742-831, 859-874`: `c` entries are left, `name` is
the tag if it has been seen. The loop ends at the content. Returns the number of entries left.
-/
def adjLoop (tag content : Name) (nt : NameTy) (vs : Variants) (m : Mode) :
    (c : Nat) → (name : Option Name) → Dec (vs.Val × Nat)
  | 0, _ => Dec.fail .missing
  | c + 1, name => do
    let k ← decName (m.fmt o) tag.ty
    if k = tag then do
      let n ← decName (m.fmt o) nt
      adjLoop tag content nt vs m c (some n)
    else if k = content then
      match name with
      | none => Dec.fail .missing
      | some n => do
        let v ← decVariants o env vs m n
        pure (v, c)
    else do
      let _ ← (m.fmt o).skip
      adjLoop tag content nt vs m c name

/-- `decode_adjacent`, `musli-macros/src/de.rs:659-878`. -/
def decAdjacent (tag content : Name) (nt : NameTy) (vs : Variants) (m : Mode) : Dec vs.Val := do
  let c ← (m.fmt o).decMap
  let (v, left) ← adjLoop o env tag content nt vs m c none
  let _ ← (m.fmt o).endMap left
  pure v

/-! ## Internally tagged: `#[musli(tag = ..)]` -/

/-- `Encode::size_hint`: derived (`default_size_hint`, `musli-macros/src/en.rs:237-282`) or the
default `None` (`musli-core/src/en/encode.rs:71-73`). -/
def sizeHint : (t : Ty) → t.Val → Option Nat
  | .strct _ fs, v => some (fs.count env v)
  | .unitStruct, _ => some 0
  | .transparent t, v => sizeHint t v
  | .unitEnum _ _, _ => some 1
  | .enm _ _, _ => some 1
  | _, _ => none

/-- The entries of the body of a variant: the fields of a struct, or what a
transparent field writes with an `AsEncoder`, which only takes maps,
`musli-macros/src/en.rs:616-673`, `musli-core/src/en/map_encoder.rs:65-133`. -/
def encEntries : (t : Ty) → Mode → t.Val → Enc
  | .strct _ fs, m, v => encFields o env fs m v
  | .unitStruct, _, _ => .ok []
  | .transparent t, m, v => encEntries t m v
  | .boxed t, m, v => encEntries t m v
  | .wrapping t, m, v => encEntries t m v
  | .map k t, m, v => Enc.all (fun x => viaE o env k m x.1 +> viaE o env t m x.2) v
  | _, _, _ => .error .unsupported

/-- The size hint of the body of the variant. -/
def bodyHint : (vs : Variants) → vs.Val → Option Nat
  | .nil, v => nomatch v
  | .cons _ t vs, v =>
    match v with
    | .inl x => sizeHint env t x
    | .inr x => bodyHint vs x

/-- The entries of the body of the variant. -/
def bodyEntries : (vs : Variants) → Mode → vs.Val → Enc
  | .nil, _, v => nomatch v
  | .cons _ t vs, m, v =>
    match v with
    | .inl x => encEntries o env t m x
    | .inr x => bodyEntries vs m x

/-- `encode_internal_variant`, `musli-macros/src/en.rs:584-697`. The binary formats require a
size hint, `descriptive/en.rs:263-267`. -/
def encInternal (tag : Name) (vs : Variants) (m : Mode) (v : vs.Val) : Enc :=
  match bodyHint env vs v with
  | none => .error .unsupported
  | some n => (m.fmt o).encMap (1 + n) +> encTag (m.fmt o) tag (vs.nameOf v) +> bodyEntries o env vs m v

/-- The loop which looks for the tag in the buffer, `musli-macros/src/de.rs:543-606, 633-645`. -/
def findTag (bo : Options) (tag : Name) (nt : NameTy) : List (Value × Value) → Except Err Name
  | [] => .error .missing
  | e :: l => do
    let k ← readName bo true tag.ty e.1
    if k = tag then readName bo false nt e.2
    else findTag bo tag nt l

/-- Decoding of a buffered internally tagged enum, `musli-macros/src/de.rs:462-664`: first the tag, and then
the body from the start. -/
def internalV (bo : Options) (tag : Name) (nt : NameTy) (vs : Variants) (x : Value) : Except Err vs.Val := do
  let l ← readMap x
  let n ← findTag bo tag nt l
  decVariantsV bo env vs n x

/-- The same in the descriptive format: `decode_buffer` first, `descriptive/de.rs:45, 270-276`. In storage and
wire there is no `decode_buffer`. -/
def decInternal (tag : Name) (nt : NameTy) (vs : Variants) : Dec vs.Val := do
  let x ← Desc.readValue o
  Dec.ofExcept (internalV env Desc.bufferOptions tag nt vs x)

/-! ## `#[musli(untagged)]` -/

/-- `decode_untagged_enum`, `musli-macros/src/de.rs:270-365`: all but the last variant are decoded from a clone of
the decoder. -/
def decUntagged : (vs : Variants) → Mode → Dec vs.Val
  | .nil, _ => Dec.fail .unknown
  | .cons _ t vs, m => fun s =>
    if vs.isNil then
      match decD o env t m s with
      | .ok (x, s') => .ok (.inl x, s')
      | .error _ => .error .unknown
    else
      match decD o env t m s with
      | .ok (x, _) => .ok (.inl x, s)
      | .error _ =>
        match decUntagged vs m s with
        | .ok (x, s') => .ok (.inr x, s')
        | .error e => .error e

/-! ## `#[musli(default)]` on a variant -/

/-- `decode_default_enum` with a fallback, `musli-macros/src/de.rs:367-460, 905-925`: the body of
a variant which is not known is skipped. -/
def decFallback (nt : NameTy) (vs : Variants) (fallback : vs.Val) (m : Mode) : Dec vs.Val := do
  let _ ← (m.fmt o).decVariant
  let n ← decName (m.fmt o) nt
  if n ∈ vs.names then decVariants o env vs m n
  else do
    let _ ← (m.fmt o).skip
    pure fallback

/-- `decode_empty_enum` with a fallback, `musli-macros/src/de.rs:210-271`. -/
def decUnitFallback (nt : NameTy) (names : List Name) (fallback : Fin names.length) (m : Mode) :
    Dec (Fin names.length) := do
  let n ← decName (m.fmt o) nt
  match findName n names with
  | some i => pure i
  | none => pure fallback

end
end Musli
