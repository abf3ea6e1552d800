import Verif.Model.Ty
/-!
# Depth of types and nesting of documents
-/
namespace Musli

mutual

/-- How many types are nested within each other, counting the outermost. -/
def Ty.depth : Ty → Nat
  | .option t => t.depth + 1
  | .array _ t => t.depth + 1
  | .vec t => t.depth + 1
  | .set t => t.depth + 1
  | .map k t => max k.depth t.depth + 1
  | .tuple ts => ts.depth + 1
  | .result _ t u => max t.depth u.depth + 1
  | .boxed t => t.depth + 1
  | .wrapping t => t.depth + 1
  | .transparent t => t.depth + 1
  | .strct _ fs => fs.depth + 1
  | .packed _ fs => fs.depth + 1
  | .enm _ vs => vs.depth + 1
  | _ => 1

/-- The deepest of the elements. -/
def Tys.depth : Tys → Nat
  | .nil => 0
  | .cons t ts => max t.depth ts.depth

/-- The deepest of the fields. -/
def Fields.depth : Fields → Nat
  | .nil => 0
  | .cons _ _ _ t fs => max t.depth fs.depth

/-- The deepest of the variants. -/
def Variants.depth : Variants → Nat
  | .nil => 0
  | .cons _ t vs => max t.depth vs.depth

end

/-- `Box<Box<..<T>>>`. -/
def boxes (t : Ty) : Nat → Ty
  | 0 => t
  | n + 1 => .boxed (boxes t n)

namespace Json

/-- How many opening brackets and braces there are in a text. -/
def opens : Bytes → Nat
  | [] => 0
  | b :: s => (if b = 0x5B#8 ∨ b = 0x7B#8 then 1 else 0) + opens s

/-- `[[[..]]]` with `n` opening brackets. -/
def nest (n : Nat) : Bytes := List.replicate n 0x5B#8 ++ List.replicate n 0x5D#8

end Json
end Musli
