import Verif.Model.BytesField
/-!
# What is in a field of bytes
-/
namespace Musli

/-- The bytes which are in a value, in order. -/
def BytesTy.contents : (k : BytesTy) → k.Val → Bytes
  | .vec, b => b
  | .boxed, b => b
  | .deque, d => d.first ++ d.second
  | .cow, .borrowed b => b
  | .cow, .owned b => b
  | .slice, b => b
  | .array _, b => b.1

/-- Whether a value of the type can hold these bytes: arrays have a fixed length. -/
def BytesTy.Holds : BytesTy → Bytes → Prop
  | .array n, b => b.length = n
  | _, _ => True

/-- Whether the type is an array, whose length both sides know. -/
def BytesTy.isArray : BytesTy → Bool
  | .array _ => true
  | _ => false

/-- Whether the format writes the length of arrays. -/
def Mode.delimited : Mode → Bool
  | .wire => true
  | .descriptive => true
  | _ => false

end Musli
