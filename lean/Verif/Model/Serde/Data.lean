import Verif.Model.Serde
import Verif.Spec.SerdeData
/-!
# What the types of `Ty` tell the serializer

serde's own implementations of `Serialize` and its derive, as in `Model/Serde.lean`.
-/
namespace Musli.Serde

/-- What a primitive calls. -/
def primData : (p : Prim) → p.Val → SData
  | .bool, v => .bool v
  | .char, v => .char v
  | .uint w, v => .uint w v
  | .sint w, v => .sint w v
  | .usize, v => .uint .w64 v
  | .isize, v => .sint .w64 v
  | .f32, v => .f32 v
  | .f64, v => .f64 v

/-- Names are strings in serde. -/
def nameData : Name → Option Str
  | .str n => some n
  | .idx _ => none

/-- Apply to all elements. -/
def dataAll {α β} (f : α → Option β) : List α → Option (List β)
  | [] => some []
  | a :: l => (f a).bind fun b => (dataAll f l).map (b :: ·)

/-- The body of a variant named `n`: a unit struct, newtype, tuple or struct in the place of
the body stands for the variant of that kind. -/
def variantData (n : Name) (d : Option SData) : Option SData :=
  match n, d with
  | .str n, some .unitStruct => some (.unitVariant n)
  | .str n, some (.tuple l) => some (.tupleVariant n l)
  | .str n, some (.struct l) => some (.structVariant n l)
  | .str n, some (.newtypeStruct d) => some (.newtypeVariant n d)
  | .str n, some d => some (.newtypeVariant n d)
  | _, _ => none

section
variable (env : Env)

mutual

/-- The calls which `Serialize::serialize` of a value makes: serde's own implementations and
what its derive generates. -/
def dataOf : (t : Ty) → t.Val → Option SData
  | .prim p, v => some (primData p v)
  | .nonZero s w, v => some (primData (nonZeroPrim s w) (nonZeroRaw s w v.1))
  | .unit, _ => some .unit
  | .bytes, v => some (.bytes v)
  | .string, v => some (.str v)
  | .byteArray _, _ => none
  | .option t, v =>
    match v with
    | none => some .none
    | some x => (dataOf t x).map .some
  | .array _ t, v => (dataAll (dataOf t) v.1).map .tuple
  | .vec t, v => (dataAll (dataOf t) v).map (.seq true)
  | .set t, v => (dataAll (dataOf t) v).map (.seq true)
  | .map k t, v =>
    (dataAll (fun x => (dataOf k x.1).bind fun a => (dataOf t x.2).map (a, ·)) v).map (.map true)
  | .tuple ts, v => (dataTys ts v).map .tuple
  | .result _ t u, v =>
    match v with
    | .inl x => (dataOf t x).bind fun d => match resultName .str true with
      | .str n => some (.newtypeVariant n d)
      | .idx _ => none
    | .inr x => (dataOf u x).bind fun d => match resultName .str false with
      | .str n => some (.newtypeVariant n d)
      | .idx _ => none
  | .boxed t, v => dataOf t v
  | .wrapping t, v => dataOf t v
  | .transparent t, v => (dataOf t v).map .newtypeStruct
  | .unitStruct, _ => some .unitStruct
  | .strct _ fs, v => (dataFields fs v).map .struct
  | .packed _ _, _ => none
  | .unitEnum _ names, v => match names[v] with
    | .str n => some (.unitVariant n)
    | .idx _ => none
  | .enm _ vs, v => dataVariants vs v

@[inherit_doc dataOf]
def dataTys : (ts : Tys) → ts.Val → Option (List SData)
  | .nil, _ => some []
  | .cons t ts, v => (dataOf t v.1).bind fun d => (dataTys ts v.2).map (d :: ·)

@[inherit_doc dataOf]
def dataFields : (fs : Fields) → fs.Val → Option (List (Str × SData))
  | .nil, _ => some []
  | .cons n _ skip t fs, v =>
    if fieldPresent env skip t v.1 then
      (nameData n).bind fun n => (dataOf t v.1).bind fun d => (dataFields fs v.2).map ((n, d) :: ·)
    else dataFields fs v.2

@[inherit_doc dataOf]
def dataVariants : (vs : Variants) → vs.Val → Option SData
  | .nil, v => nomatch v
  | .cons n t vs, v =>
    match v with
    | .inl x => variantData n (dataOf t x)
    | .inr x => dataVariants vs x

end
end

end Musli.Serde
