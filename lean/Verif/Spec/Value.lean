import Verif.Model.Value.Any
/-!
# Specification for `Value`
-/
namespace Musli

/-- Encoding a value of the type writes something. `()` is the only type for which nothing
is written. -/
def Ty.writes : Ty → Bool
  | .unit => false
  | .boxed t => t.writes
  | .wrapping t => t.writes
  | .transparent t => t.writes
  | _ => true

mutual

/-- `()` occurs neither as the payload of an option nor as an element of a sequence, array,
set or tuple. (It may be a field, a key or value of a map, or the body of a variant.) -/
def Ty.unitFree : Ty → Bool
  | .option t => t.writes && t.unitFree
  | .array _ t => t.writes && t.unitFree
  | .vec t => t.writes && t.unitFree
  | .set t => t.writes && t.unitFree
  | .map k t => k.unitFree && t.unitFree
  | .tuple ts => ts.unitFree
  | .result _ t u => t.unitFree && u.unitFree
  | .boxed t => t.unitFree
  | .wrapping t => t.unitFree
  | .transparent t => t.unitFree
  | .strct _ fs => fs.unitFree
  | .enm _ vs => vs.unitFree
  | _ => true

/-- As above. -/
def Tys.unitFree : Tys → Bool
  | .nil => true
  | .cons t ts => t.writes && t.unitFree && ts.unitFree

/-- As above. -/
def Fields.unitFree : Fields → Bool
  | .nil => true
  | .cons _ _ _ t fs => t.unitFree && fs.unitFree

/-- As above. -/
def Variants.unitFree : Variants → Bool
  | .nil => true
  | .cons _ t vs => t.unitFree && vs.unitFree

end

mutual

/-- No byte arrays of fixed size and no packed structs. -/
def Ty.plain : Ty → Bool
  | .byteArray _ => false
  | .packed _ _ => false
  | .option t => t.plain
  | .array _ t => t.plain
  | .vec t => t.plain
  | .set t => t.plain
  | .map k t => k.plain && t.plain
  | .tuple ts => ts.plain
  | .result _ t u => t.plain && u.plain
  | .boxed t => t.plain
  | .wrapping t => t.plain
  | .transparent t => t.plain
  | .strct _ fs => fs.plain
  | .enm _ vs => vs.plain
  | _ => true

/-- As above. -/
def Tys.plain : Tys → Bool
  | .nil => true
  | .cons t ts => t.plain && ts.plain

/-- As above. -/
def Fields.plain : Fields → Bool
  | .nil => true
  | .cons _ _ _ t fs => t.plain && fs.plain

/-- As above. -/
def Variants.plain : Variants → Bool
  | .nil => true
  | .cons _ t vs => t.plain && vs.plain

end

mutual

/-- No packed structs. -/
def Ty.unpacked : Ty → Bool
  | .packed _ _ => false
  | .option t => t.unpacked
  | .array _ t => t.unpacked
  | .vec t => t.unpacked
  | .set t => t.unpacked
  | .map k t => k.unpacked && t.unpacked
  | .tuple ts => ts.unpacked
  | .result _ t u => t.unpacked && u.unpacked
  | .boxed t => t.unpacked
  | .wrapping t => t.unpacked
  | .transparent t => t.unpacked
  | .strct _ fs => fs.unpacked
  | .enm _ vs => vs.unpacked
  | _ => true

/-- As above. -/
def Tys.unpacked : Tys → Bool
  | .nil => true
  | .cons t ts => t.unpacked && ts.unpacked

/-- As above. -/
def Fields.unpacked : Fields → Bool
  | .nil => true
  | .cons _ _ _ t fs => t.unpacked && fs.unpacked

/-- As above. -/
def Variants.unpacked : Variants → Bool
  | .nil => true
  | .cons _ t vs => t.unpacked && vs.unpacked

end

/-- `usize` and `isize` as 64 bit numbers. -/
def Number.fixedWidth : Number → Number
  | .usize v => .uint .w64 v
  | .isize v => .sint .w64 v
  | n => n

mutual

/-- The value in which every `usize` and `isize` is a 64 bit number. -/
def Value.fixedWidth : Value → Value
  | .unit => .unit
  | .bool b => .bool b
  | .char c => .char c
  | .number n => .number n.fixedWidth
  | .bytes b => .bytes b
  | .string s => .string s
  | .seq l => .seq (fixedWidths l)
  | .map l => .map (fixedPairs l)
  | .variant t d => .variant t.fixedWidth d.fixedWidth
  | .none => .none
  | .some v => .some v.fixedWidth

/-- As above. -/
def fixedWidths : List Value → List Value
  | [] => []
  | v :: l => v.fixedWidth :: fixedWidths l

/-- As above. -/
def fixedPairs : List (Value × Value) → List (Value × Value)
  | [] => []
  | p :: l => fixedPair p :: fixedPairs l

/-- As above. -/
def fixedPair : Value × Value → Value × Value
  | (k, v) => (k.fixedWidth, v.fixedWidth)

end

mutual

/-- `Value::Unit` occurs neither under `Value::Option` nor in a `Value::Sequence`. -/
def Value.unitFree : Value → Bool
  | .seq l => unitFreeList l
  | .map l => unitFreePairs l
  | .variant t d => t.unitFree && d.unitFree
  | .some v => v.notUnit && v.unitFree
  | _ => true

/-- Not `Value::Unit`. -/
def Value.notUnit : Value → Bool
  | .unit => false
  | _ => true

/-- As above. -/
def unitFreeList : List Value → Bool
  | [] => true
  | v :: l => v.notUnit && v.unitFree && unitFreeList l

/-- As above. -/
def unitFreePairs : List (Value × Value) → Bool
  | [] => true
  | p :: l => unitFreePair p && unitFreePairs l

/-- As above. -/
def unitFreePair : Value × Value → Bool
  | (k, v) => k.unitFree && v.unitFree

end

end Musli
