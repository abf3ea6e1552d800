import Verif.Model.Ty
/-!
# Types without `isize`
-/
namespace Musli

mutual

/-- `isize` does not occur in the type, unless `iz`. -/
def Ty.isizeOk (iz : Bool) : Ty → Bool
  | .prim .isize => iz
  | .prim _ => true
  | .option t => t.isizeOk iz
  | .array _ t => t.isizeOk iz
  | .vec t => t.isizeOk iz
  | .set t => t.isizeOk iz
  | .map k t => k.isizeOk iz && t.isizeOk iz
  | .tuple ts => ts.isizeOk iz
  | .result _ t u => t.isizeOk iz && u.isizeOk iz
  | .boxed t => t.isizeOk iz
  | .wrapping t => t.isizeOk iz
  | .transparent t => t.isizeOk iz
  | .strct _ fs => fs.isizeOk iz
  | .packed _ fs => fs.isizeOk iz
  | .enm _ vs => vs.isizeOk iz
  | .nonZero _ _ => true
  | .unit => true
  | .bytes => true
  | .string => true
  | .byteArray _ => true
  | .unitStruct => true
  | .unitEnum _ _ => true

/-- As above. -/
def Tys.isizeOk (iz : Bool) : Tys → Bool
  | .nil => true
  | .cons t ts => t.isizeOk iz && ts.isizeOk iz

/-- As above. -/
def Fields.isizeOk (iz : Bool) : Fields → Bool
  | .nil => true
  | .cons _ _ _ t fs => t.isizeOk iz && fs.isizeOk iz

/-- As above. -/
def Variants.isizeOk (iz : Bool) : Variants → Bool
  | .nil => true
  | .cons _ t vs => t.isizeOk iz && vs.isizeOk iz

end

/-- `isize` occurs nowhere in the type. -/
def Ty.noIsize (t : Ty) : Bool := t.isizeOk false

end Musli
