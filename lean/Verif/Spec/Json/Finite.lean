import Verif.Model.Json.FloatCodec
import Verif.Spec.Json.Denotes
/-!
# What is expected of `ryu`, and values without infinities and NaNs
-/
namespace Musli.Json.Spec
open Musli

/-- The number is neither infinite nor a NaN: the bits without the sign are below those of infinity. -/
def FiniteBits (F : Musli.Spec.Float.Format) (v : Nat) : Prop := v % F.sign < F.inf

/-- Not a float which is infinite or a NaN. -/
def FinitePrim : (p : Prim) → p.Val → Prop
  | .f32, v => FiniteBits Musli.Spec.Float.f32 (BitVec.toNat (w := 32) v)
  | .f64, v => FiniteBits Musli.Spec.Float.f64 (BitVec.toNat (w := 64) v)
  | _, _ => True

/-- What the documentation of `ryu` says: a finite number is written as a JSON number from which the same
bits are read back, the others as `NaN`, `inf` and `-inf`. -/
structure RyuLawful (R : Ryu) : Prop where
  finite32 : ∀ v : BitVec 32, FiniteBits Musli.Spec.Float.f32 v.toNat → FloatText Musli.Spec.Float.f32 v.toNat (R.f32 v)
  finite64 : ∀ v : BitVec 64, FiniteBits Musli.Spec.Float.f64 v.toNat → FloatText Musli.Spec.Float.f64 v.toNat (R.f64 v)
  /-- `NaN` -/
  nan32 : ∀ v : BitVec 32, Musli.Spec.Float.f32.inf < v.toNat % Musli.Spec.Float.f32.sign → R.f32 v = [0x4E#8, 0x61#8, 0x4E#8]
  nan64 : ∀ v : BitVec 64, Musli.Spec.Float.f64.inf < v.toNat % Musli.Spec.Float.f64.sign → R.f64 v = [0x4E#8, 0x61#8, 0x4E#8]
  /-- `inf` and `-inf` -/
  inf32 : ∀ v : BitVec 32, v.toNat % Musli.Spec.Float.f32.sign = Musli.Spec.Float.f32.inf →
    R.f32 v = (if Musli.Spec.Float.f32.sign ≤ v.toNat then [0x2D#8] else []) ++ [0x69#8, 0x6E#8, 0x66#8]
  inf64 : ∀ v : BitVec 64, v.toNat % Musli.Spec.Float.f64.sign = Musli.Spec.Float.f64.inf →
    R.f64 v = (if Musli.Spec.Float.f64.sign ≤ v.toNat then [0x2D#8] else []) ++ [0x69#8, 0x6E#8, 0x66#8]

mutual

/-- No float in the value is infinite or a NaN. (Keys of maps cannot be floats.) -/
def AllFinite : (t : Ty) → t.Val → Prop
  | .prim p, v => FinitePrim p v
  | .option t, v =>
    match v with
    | none => True
    | some x => AllFinite t x
  | .array _ t, v => ∀ x ∈ v.1, AllFinite t x
  | .vec t, v => ∀ x ∈ v, AllFinite t x
  | .set t, v => ∀ x ∈ v, AllFinite t x
  | .map _ t, v => ∀ x ∈ v, AllFinite t x.2
  | .tuple ts, v => FiniteTys ts v
  | .result _ t u, v =>
    match v with
    | .inl x => AllFinite t x
    | .inr x => AllFinite u x
  | .boxed t, v => AllFinite t v
  | .wrapping t, v => AllFinite t v
  | .transparent t, v => AllFinite t v
  | .strct _ fs, v => FiniteFields fs v
  | .packed _ fs, v => FiniteFields fs v
  | .enm _ vs, v => FiniteVariants vs v
  | _, _ => True

/-- The elements of a tuple. -/
def FiniteTys : (ts : Tys) → ts.Val → Prop
  | .nil, _ => True
  | .cons t ts, v => AllFinite t v.1 ∧ FiniteTys ts v.2

/-- The fields of a struct. -/
def FiniteFields : (fs : Fields) → fs.Val → Prop
  | .nil, _ => True
  | .cons _ _ _ t fs, v => AllFinite t v.1 ∧ FiniteFields fs v.2

/-- The fields of a variant. -/
def FiniteVariants : (vs : Variants) → vs.Val → Prop
  | .nil, v => nomatch v
  | .cons _ t vs, v =>
    match v with
    | .inl x => AllFinite t x
    | .inr x => FiniteVariants vs x

end

end Musli.Json.Spec
