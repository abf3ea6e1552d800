import Verif.Spec.Supported
/-!
# When a value can be encoded

Lengths and values of type `usize` and `isize` are written with the configured width. A value can be encoded
if each of them fits. There is no other condition.
-/
namespace Musli

/-- Numbers below this can be written as a length with the options. -/
def limit (o : Options) : Nat :=
  match Opt.length o with
  | .u8 => 2 ^ 8
  | .u16 => 2 ^ 16
  | .u32 => 2 ^ 32
  | _ => 2 ^ 64

/-- The number written for a map with `n` entries: wire counts keys and values. -/
def mapCount : Mode → Nat → Nat
  | .wire, n => n * 2
  | _, n => n

/-- `usize` and `isize` are written like lengths, except by descriptive, which writes 64-bit integers. -/
def Prim.Fits (o : Options) (m : Mode) : (p : Prim) → p.Val → Prop
  | .usize, v => m = .descriptive ∨ v.toNat < limit o
  | .isize, v => m = .descriptive ∨ v.toNat < limit o
  | _, _ => True

/-- A name is a `usize` or a string. -/
def Name.Fits (o : Options) (m : Mode) : Name → Prop
  | .idx n => m = .descriptive ∨ n.toNat < limit o
  | .str s => s.bytes.length < limit o

section
variable [Host] (o : Options) (env : Env)

/-- The value is copied from memory instead of being encoded. -/
def Ty.copied (t : Ty) (m : Mode) : Prop := m.fast (Opt.isNativeFixed o) = true ∧ t.bwE = true

mutual

/-- Everything in the value that is written as a length fits. -/
def Ty.Fits : (t : Ty) → Mode → t.Val → Prop
  | .prim p, m, v => p.Fits o m v
  | .nonZero _ _, _, _ => True
  | .unit, _, _ => True
  | .bytes, _, v => v.length < limit o
  | .string, _, v => v.bytes.length < limit o
  | .byteArray n, m, _ => m = .storage ∨ m = .packed ∨ n < limit o
  | .option t, m, v => ∀ x, v = some x → t.copied o m ∨ t.Fits m x
  | .array n t, m, v => (t.copied o m ∧ n < 2 ^ 64) ∨ (¬t.copied o m ∧ n < limit o ∧ ∀ x ∈ v.1, t.Fits m x)
  | .vec t, m, v =>
    (t.copied o m ∧ v.length < 2 ^ 64) ∨ (¬t.copied o m ∧ v.length < limit o ∧ ∀ x ∈ v, t.Fits m x)
  | .set t, m, v => v.length < limit o ∧ ∀ x ∈ v, t.copied o m ∨ t.Fits m x
  | .map k t, m, v => mapCount m v.length < limit o ∧
    ∀ x ∈ v, (k.copied o m ∨ k.Fits m x.1) ∧ (t.copied o m ∨ t.Fits m x.2)
  | .tuple ts, m, v => ts.length < limit o ∧ ts.Fits m v
  | .result _ t u, m, v =>
    (∀ x, v = .inl x → t.copied o m ∨ t.Fits m x) ∧ (∀ x, v = .inr x → u.copied o m ∨ u.Fits m x)
  | .boxed t, m, v => t.Fits m v
  | .wrapping t, m, v => t.Fits m v
  | .transparent t, m, v => t.Fits m v
  | .unitStruct, _, _ => True
  | .strct _ fs, m, v => mapCount m (fs.count env v) < limit o ∧ fs.Fits m v
  | .packed lay fs, m, v => (Ty.packed lay fs).copied o m ∨
    (fs.PackFits v ∧ (m = .storage ∨ m = .packed ∨
      ∀ b, encPackFields o env fs .packed v = .ok b → b.length < limit o))
  | .unitEnum _ names, m, v => names[v].Fits o m
  | .enm _ vs, m, v => vs.Fits m v

/-- The elements of a tuple. -/
def Tys.Fits : (ts : Tys) → Mode → ts.Val → Prop
  | .nil, _, _ => True
  | .cons t ts, m, v => (t.copied o m ∨ t.Fits m v.1) ∧ ts.Fits m v.2

/-- The fields of a struct; those which are left out do not count. -/
def Fields.Fits : (fs : Fields) → Mode → fs.Val → Prop
  | .nil, _, _ => True
  | .cons n _ skip t fs, m, v =>
    (fieldPresent env skip t v.1 = true → n.Fits o m ∧ t.Fits m v.1) ∧ fs.Fits m v.2

/-- The fields of a packed struct. -/
def Fields.PackFits : (fs : Fields) → fs.Val → Prop
  | .nil, _ => True
  | .cons _ _ skip t fs, v => (fieldPresent env skip t v.1 = true → t.Fits .packed v.1) ∧ fs.PackFits v.2

/-- The fields of a body. -/
def Ty.BodyFits : (t : Ty) → Mode → t.Val → Prop
  | .strct _ fs, m, v => fs.Fits m v
  | _, _, _ => True

/-- The variant of an enum; if fields have `skip_encoding_if`, their number is not written (C121). -/
def Variants.Fits : (vs : Variants) → Mode → vs.Val → Prop
  | .nil, _, v => nomatch v
  | .cons n t vs, m, v =>
    (∀ x, v = .inl x → n.Fits o m ∧ if t.dynamic then t.BodyFits m x else t.Fits m x) ∧
      (∀ x, v = .inr x → vs.Fits m x)

end
end

end Musli
