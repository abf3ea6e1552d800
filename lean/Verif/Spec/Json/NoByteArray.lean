import Verif.Model.Ty
/-!
# Types without fixed-size byte arrays
-/
namespace Musli

mutual

/-- The type does not contain `[u8; N]`. -/
def Ty.noByteArray : Ty → Bool
  | .byteArray _ => false
  | .option t => t.noByteArray
  | .array _ t => t.noByteArray
  | .vec t => t.noByteArray
  | .set t => t.noByteArray
  | .map k t => k.noByteArray && t.noByteArray
  | .tuple ts => ts.noByteArray
  | .result _ t u => t.noByteArray && u.noByteArray
  | .boxed t => t.noByteArray
  | .wrapping t => t.noByteArray
  | .transparent t => t.noByteArray
  | .strct _ fs => fs.noByteArray
  | .packed _ fs => fs.noByteArray
  | .enm _ vs => vs.noByteArray
  | _ => true

/-- As above. -/
def Tys.noByteArray : Tys → Bool
  | .nil => true
  | .cons t ts => t.noByteArray && ts.noByteArray

/-- As above. -/
def Fields.noByteArray : Fields → Bool
  | .nil => true
  | .cons _ _ _ t fs => t.noByteArray && fs.noByteArray

/-- As above. -/
def Variants.noByteArray : Variants → Bool
  | .nil => true
  | .cons _ t vs => t.noByteArray && vs.noByteArray

end

end Musli
