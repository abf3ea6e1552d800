import Verif.Model.Bitwise
/-!
# Specification: which memory is a value
-/
namespace Musli.Mem

mutual

/-- Memory which holds a value of the type: the Rust reference, "behavior considered
undefined": integers and floats must be initialised, `bool` is 0 or 1, a `char` is a
scalar value, `NonZero` is not zero. The padding of a struct may be anything. -/
def MTy.valid [Host] : MTy → List MByte → Prop
  | .num n, m => m.length = n ∧ none ∉ m
  | .bool, m => m = [some 0#8] ∨ m = [some 1#8]
  | .char, m => ∃ b : Bytes, m = b.map some ∧ b.length = 4 ∧ (Fixed.ofNe 32 b).toNat.isValidChar
  | .nonZero n, m => m.length = n ∧ none ∉ m ∧ ∃ b ∈ m, b ≠ some 0#8
  | .atomicNum n, m => m.length = n ∧ none ∉ m
  | .atomicBool, m => m = [some 0#8] ∨ m = [some 1#8]
  | .empty, m => m = []
  | .array n t, m => m.length = n * t.size ∧ ∀ i < n, t.valid ((m.drop (i * t.size)).take t.size)
  | .wrapping t, m => t.valid m
  | .strct _ _ size fs, m => m.length = size ∧ fs.valid m
  | .other n ok, m => m.length = n ∧ ok m

/-- Every field holds a value. -/
def MFields.valid [Host] : MFields → List MByte → Prop
  | .nil, _ => True
  | .cons off t _ _ _ fs, m => t.valid ((m.drop off).take t.size) ∧ fs.valid m

end

mutual

/-- What the compiler guarantees about layouts: fields lie within the struct. -/
def MTy.legal : MTy → Prop
  | .array _ t => t.legal
  | .wrapping t => t.legal
  | .strct _ _ size fs => fs.legal size
  | _ => True

/-- Every field lies within a struct of this size. -/
def MFields.legal (size : Nat) : MFields → Prop
  | .nil => True
  | .cons off t _ _ _ fs => off + t.size ≤ size ∧ t.legal ∧ fs.legal size

end

mutual

/-- Is there an `AtomicBool` in every value? -/
def MTy.hasAtomicBool : MTy → Bool
  | .atomicBool => true
  | .array n t => n != 0 && t.hasAtomicBool
  | .wrapping t => t.hasAtomicBool
  | .strct _ _ _ fs => fs.hasAtomicBool
  | _ => false

/-- Is there an `AtomicBool` in one of the fields? -/
def MFields.hasAtomicBool : MFields → Bool
  | .nil => false
  | .cons _ t _ _ _ fs => t.hasAtomicBool || fs.hasAtomicBool

end

/-- The memory of the fields, in the order in which they are declared. -/
def MFields.parts : MFields → List MByte → List MByte
  | .nil, _ => []
  | .cons off t _ _ _ fs, m => (m.drop off).take t.size ++ fs.parts m

end Musli.Mem
