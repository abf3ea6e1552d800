import Verif.Model.Json.Codec
/-!
# Fields with `#[musli(skip)]`

The derived code for structs, and variants and transparent structs, some of whose fields are skipped:
`crates/musli-macros/src/internals/build.rs:154-158, 337-352`, `en.rs`, `de.rs`. A packed struct
with a skipped field does not compile, since `decode_packed` (`de.rs:1446-1500`) gives no value to it. -/
namespace Musli

/-- `Body::all_fields`: the declared fields of a struct, `internals/build.rs:145-151`. -/
inductive AllFields
  | nil
  /-- A field which is not skipped, as in `Fields`. -/
  | field (name : Name) (dflt skipIf : Option Nat) (t : Ty) (fs : AllFields)
  /-- `#[musli(skip)]`, with the function which makes its value: `#[musli(default = path)]`, or
  `Default::default` of the type. -/
  | skipped (init : Nat) (t : Ty) (fs : AllFields)

/-- The values of the struct. -/
def AllFields.Val : AllFields → Type
  | .nil => Unit
  | .field _ _ _ t fs => t.Val × fs.Val
  | .skipped _ t fs => t.Val × fs.Val

/-- `Body::unskipped_fields`, `internals/build.rs:154-158`. -/
def AllFields.unskipped : AllFields → Fields
  | .nil => .nil
  | .field n d s t fs => .cons n d s t fs.unskipped
  | .skipped _ _ fs => fs.unskipped

section
variable [Host] (o : Options) (env : Env)

/-- `length_test(st.unskipped_fields())`, `en.rs:223, 813-836`. -/
def AllFields.count : (fs : AllFields) → fs.Val → Nat
  | .nil, _ => 0
  | .field _ _ s t fs, v => (if fieldPresent env s t v.1 then 1 else 0) + fs.count v.2
  | .skipped _ _ fs, v => fs.count v.2

/-- `make_encoders`, `en.rs:309-389`: the loop passes over skipped fields. -/
def AllFields.encFields : (fs : AllFields) → Mode → fs.Val → Enc
  | .nil, _, _ => .ok []
  | .field n _ s t fs, m, v =>
    (if fieldPresent env s t v.1 then encName (m.fmt o) n +> encD o env t m v.1 else .ok []) +>
      fs.encFields m v.2
  | .skipped _ _ fs, m, v => fs.encFields m v.2

/-- The derived `Encode::encode` of the struct, `en.rs:219-237`. -/
def AllFields.encode (fs : AllFields) (m : Mode) (v : fs.Val) : Enc :=
  (m.fmt o).encMap (fs.count env v) +> fs.encFields o env m v

/-- The values of the fields, in the order of declaration, `de.rs:1122-1185`: a skipped field gets its
initial value, `init_default`, `internals/build.rs:337-352`. A function for it which does not return is
an error here. Only fields which are not skipped have a variable, `de.rs:1330-1332`. -/
def AllFields.finish : (fs : AllFields) → fs.unskipped.Partial → Except Err fs.Val
  | .nil, _ => .ok ()
  | .field _ d _ t fs, p =>
    match fieldValue env d t p.1 with
    | .error e => .error e
    | .ok v => match fs.finish p.2 with
      | .error e => .error e
      | .ok w => .ok (v, w)
  | .skipped i t fs, p =>
    match fieldDefault env (some i) t with
    | .error e => .error e
    | .ok v => match fs.finish p with
      | .error e => .error e
      | .ok w => .ok (v, w)

/-- The derived `Decode::decode` of the struct, `decode_tagged`, `de.rs:1085-1367`: only names of fields
which are not skipped are matched, `de.rs:1135-1165`. -/
def AllFields.decode (nt : NameTy) (fs : AllFields) (m : Mode) : Dec fs.Val := do
  let c ← (m.fmt o).decMap
  let p ← loopN (fun p => do
    let n ← decName (m.fmt o) nt
    decEntry o env fs.unskipped m n p) c fs.unskipped.none
  let v ← Dec.ofExcept (fs.finish env p)
  let _ ← (m.fmt o).endMap 0
  pure v

/-- The same with a transparent field, `transparent_field`, `internals/build.rs:180-190`, `en.rs:199-208`: the only
one which is not skipped. Other structs do not compile. -/
def AllFields.encTransparent : (fs : AllFields) → Mode → fs.Val → Enc
  | .nil, _, _ => .error .unsupported
  | .field _ _ _ t _, m, v => encD o env t m v.1
  | .skipped _ _ fs, m, v => fs.encTransparent m v.2

/-- Only skipped fields: their initial values. -/
def AllFields.initAll : (fs : AllFields) → Dec fs.Val
  | .nil => pure ()
  | .field _ _ _ _ _ => Dec.fail .unsupported
  | .skipped i t fs => do
    let v ← Dec.ofExcept (fieldDefault env (some i) t)
    let w ← fs.initAll
    pure (v, w)

/-- `decode_transparent`, `de.rs:1370-1425`. -/
def AllFields.decTransparent : (fs : AllFields) → Mode → Dec fs.Val
  | .nil, _ => Dec.fail .unsupported
  | .field _ _ _ t fs, m => do
    let v ← decD o env t m
    let w ← fs.initAll env
    pure (v, w)
  | .skipped i t fs, m => do
    let v ← Dec.ofExcept (fieldDefault env (some i) t)
    let w ← fs.decTransparent m
    pure (v, w)

end

namespace Json
variable (full : Bool) (env : Env)

/-- `make_encoders`, in JSON. -/
def encAllJ : (fs : AllFields) → (first : Bool) → fs.Val → Enc
  | .nil, _, _ => .ok []
  | .field n _ s t fs, first, v =>
    if fieldPresent env s t v.1 then
      (if first then .ok [] else .ok [0x2C#8]) +> encNameK n +> .ok [0x3A#8] +> encJ env t v.1 +>
        encAllJ fs false v.2
    else encAllJ fs first v.2
  | .skipped _ _ fs, first, v => encAllJ fs first v.2

/-- The derived `Encode::encode` in JSON. -/
def encodeAll (fs : AllFields) (v : fs.Val) : Enc := braces (encAllJ env fs true v)

/-- The derived `Decode::decode` in JSON. -/
def decodeAllJ (nt : NameTy) (fs : AllFields) : P fs.Val := do
  let p ← object (fun p => do
    let n ← decNameK full nt
    expect .colon
    decEntryJ full env fs.unskipped n p) fs.unskipped.none
  P.ofExcept (fs.finish env p)

end Json
end Musli
