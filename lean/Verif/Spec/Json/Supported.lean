import Verif.Spec.Supported
/-!
# Which types JSON can round-trip

Computable conditions on types. `Ty.jsonNames` is enforced by the derive macros and
the compiler. `Ty.jsonOk` asks that `null` is unambiguous and that fields which can
be left out have a default.
-/
namespace Musli

/-- A value can be encoded as `null`. -/
def Ty.nullable : Ty → Bool
  | .unit => true
  | .option _ => true
  | .boxed t => t.nullable
  | .wrapping t => t.nullable
  | .transparent t => t.nullable
  | _ => false

mutual

/-- The names of fields and variants are distinct and of the declared type. -/
def Ty.jsonNames : Ty → Bool
  | .option t => t.jsonNames
  | .array _ t => t.jsonNames
  | .vec t => t.jsonNames
  | .set t => t.jsonNames
  | .map k t => k.jsonNames && t.jsonNames
  | .tuple ts => ts.jsonNames
  | .result _ t u => t.jsonNames && u.jsonNames
  | .boxed t => t.jsonNames
  | .wrapping t => t.jsonNames
  | .transparent t => t.jsonNames
  | .strct nt fs => namesOk nt fs.names && fs.jsonNames
  | .packed _ fs => fs.jsonNames
  | .unitEnum nt names => namesOk nt names
  | .enm nt vs => namesOk nt vs.names && vs.jsonNames
  | _ => true

/-- As above. -/
def Tys.jsonNames : Tys → Bool
  | .nil => true
  | .cons t ts => t.jsonNames && ts.jsonNames

/-- As above. -/
def Fields.jsonNames : Fields → Bool
  | .nil => true
  | .cons _ _ _ t fs => t.jsonNames && fs.jsonNames

/-- As above. -/
def Variants.jsonNames : Variants → Bool
  | .nil => true
  | .cons _ t vs => t.jsonNames && vs.jsonNames

end

mutual

/-- The payload of an option is not encoded as `null`; fields of structs which can
be left out have a default; fields of packed structs cannot be left out. -/
def Ty.jsonOk : Ty → Bool
  | .option t => !t.nullable && t.jsonOk
  | .array _ t => t.jsonOk
  | .vec t => t.jsonOk
  | .set t => t.jsonOk
  | .map _ t => t.jsonOk
  | .tuple ts => ts.jsonOk
  | .result _ t u => t.jsonOk && u.jsonOk
  | .boxed t => t.jsonOk
  | .wrapping t => t.jsonOk
  | .transparent t => t.jsonOk
  | .strct _ fs => fs.skipOk && fs.jsonOk
  | .packed _ fs => fs.neverSkip && fs.jsonOk
  | .enm _ vs => vs.jsonOk
  | _ => true

/-- As above. -/
def Tys.jsonOk : Tys → Bool
  | .nil => true
  | .cons t ts => t.jsonOk && ts.jsonOk

/-- As above. -/
def Fields.jsonOk : Fields → Bool
  | .nil => true
  | .cons _ _ _ t fs => t.jsonOk && fs.jsonOk

/-- As above. -/
def Variants.jsonOk : Variants → Bool
  | .nil => true
  | .cons _ t vs => t.jsonOk && vs.jsonOk

end

end Musli
