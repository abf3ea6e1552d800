import Verif.Model.Value.Value
/-!
# An encoder of `musli::value` that writes units

`ValueEncoder::encode_empty`, `value/en.rs:129-132`, writes nothing into its output, so a `()`
in an option or a sequence is lost. Here it writes `Value::Unit`, as `encode_unit` would; all
else is `encV` of `Model/Value/Value.lean`.
-/
set_option linter.unusedSectionVars false
namespace Musli

section
variable [Host] (o : Options) (env : Env)

mutual

/-- `Encode::encode` with a `ValueEncoder<OPT, O, C, M>`, `value/en.rs:81-354`.
Corrected: `encode_empty`, `value/en.rs:129-132`, writes `Value::Unit` where the code writes
nothing. The rest is `encV`. -/
def encVC : (t : Ty) → t.Val → Out
  | .prim p, v => wrote (primV p v)
  | .nonZero s w, v => wrote (primV (nonZeroPrim s w) (nonZeroRaw s w v.1))
  | .unit, _ => wrote .unit
  | .bytes, v => wrote (.bytes v)
  | .string, v => wrote (.string v)
  | .byteArray _, v => wrote (.bytes v.1)
  | .option t, v =>
    match v with
    | none => wrote .none
    | some x => (encVC t x).wrap
  | .array _ t, v => outSeq (pushAll (encVC t) v.1)
  | .vec t, v => outSeq (pushAll (encVC t) v)
  | .set t, v => outSeq (pushAll (encVC t) v)
  | .map k t, v => outMap (pairAll (fun x => encVC k x.1) (fun x => encVC t x.2) v)
  | .tuple ts, v => outSeq (encTysVC ts v)
  | .result nt t u, v =>
    match v with
    | .inl x => outVariant (nameV (resultName nt true)) (encVC t x)
    | .inr x => outVariant (nameV (resultName nt false)) (encVC u x)
  | .boxed t, v => encVC t v
  | .wrapping t, v => encVC t v
  | .transparent t, v => encVC t v
  | .unitStruct, _ => wrote (.map [])
  | .strct _ fs, v => outMap (encFieldsVC fs v)
  | .packed _ fs, v => outBytes (encPackFields o env fs .packed v)
  | .unitEnum _ names, v => wrote (nameV names[v])
  | .enm _ vs, v => encVariantsVC vs v

/-- The elements of a tuple, `encTysV`. -/
def encTysVC : (ts : Tys) → ts.Val → Except Err (List Value)
  | .nil, _ => .ok []
  | .cons t ts, v =>
    match encVC t v.1 with
    | .error e => .error e
    | .ok w => match encTysVC ts v.2 with
      | .error e => .error e
      | .ok vs => .ok (w.toList ++ vs)

/-- The entries of a struct, `encFieldsV`. -/
def encFieldsVC : (fs : Fields) → fs.Val → Except Err (List (Value × Value))
  | .nil, _ => .ok []
  | .cons n _ skip t fs, v =>
    if fieldPresent env skip t v.1 then
      match (encVC t v.1).slot with
      | .error e => .error e
      | .ok w => match encFieldsVC fs v.2 with
        | .error e => .error e
        | .ok vs => .ok ((nameV n, w) :: vs)
    else encFieldsVC fs v.2

/-- A variant, `encVariantsV`. -/
def encVariantsVC : (vs : Variants) → vs.Val → Out
  | .nil, v => nomatch v
  | .cons n t vs, v =>
    match v with
    | .inl x => outVariant (nameV n) (encVC t x)
    | .inr x => encVariantsVC vs x

end

/-- `musli::value::encode`, `value/mod.rs:44-54`. -/
def toValueC (t : Ty) (v : t.Val) : Except Err Value := (encVC o env t v).slot

end

end Musli
