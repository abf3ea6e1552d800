import Verif.Model.Codec
/-!
# Types without packed structs
-/
namespace Musli
mutual

/-- No part is a `#[musli(packed)]` struct. -/
def Ty.noPack : Ty → Bool
  | .packed _ _ => false
  | .option t => t.noPack
  | .array _ t => t.noPack
  | .vec t => t.noPack
  | .set t => t.noPack
  | .map k t => k.noPack && t.noPack
  | .tuple ts => ts.noPack
  | .result _ t u => t.noPack && u.noPack
  | .boxed t => t.noPack
  | .wrapping t => t.noPack
  | .transparent t => t.noPack
  | .strct _ fs => fs.noPack
  | .enm _ vs => vs.noPack
  | _ => true

@[inherit_doc Ty.noPack]
def Tys.noPack : Tys → Bool
  | .nil => true
  | .cons t ts => t.noPack && ts.noPack

@[inherit_doc Ty.noPack]
def Fields.noPack : Fields → Bool
  | .nil => true
  | .cons _ _ _ t fs => t.noPack && fs.noPack

@[inherit_doc Ty.noPack]
def Variants.noPack : Variants → Bool
  | .nil => true
  | .cons _ t vs => t.noPack && vs.noPack

end
end Musli
