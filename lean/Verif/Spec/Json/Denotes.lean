import Verif.Spec.Json.Text
import Verif.Spec.Evolution
import Verif.Spec.Float
import Verif.Spec.FloatText
/-!
# Which JSON texts represent a value of a type

The correspondence between values and JSON texts, independent of the encoder and of
the decoder: whitespace, escapes and the order of members are free, and objects
for structs may have members which the struct does not have. There is one restriction to
whitespace, which is a defect of the decoder (C86): a float directly follows the colon (`Lead`).
-/
namespace Musli.Json.Spec
open Musli

/-- More elements, each of which is preceded by a comma. `ps` says what the elements
are. -/
def More : (ps : List (Bytes → Prop)) → Bytes → Prop
  | [], s => Ws s
  | p :: ps, s => ∃ a b x r, Ws a ∧ Ws b ∧ p x ∧ More ps r ∧ s = a ++ 0x2C#8 :: (b ++ (x ++ r))

/-- Elements separated by commas. -/
def Separated : (ps : List (Bytes → Prop)) → Bytes → Prop
  | [], s => Ws s
  | p :: ps, s => ∃ b x r, Ws b ∧ p x ∧ More ps r ∧ s = b ++ (x ++ r)

/-- An array with the given elements. -/
def Arr (ps : List (Bytes → Prop)) (s : Bytes) : Prop :=
  ∃ e, Separated ps e ∧ s = 0x5B#8 :: e ++ [0x5D#8]

/-- An object with the given members. -/
def Obj (ps : List (Bytes → Prop)) (s : Bytes) : Prop :=
  ∃ e, Separated ps e ∧ s = 0x7B#8 :: e ++ [0x7D#8]

/-- A member: a key and a value. `lead` says what is allowed between the colon and the value. -/
def MemberL (key lead val : Bytes → Prop) (s : Bytes) : Prop :=
  ∃ k a b v, key k ∧ Ws a ∧ lead b ∧ val v ∧ s = k ++ (a ++ 0x3A#8 :: (b ++ v))

/-- A member, with any whitespace. -/
def Member (key val : Bytes → Prop) (s : Bytes) : Prop := MemberL key Ws val s

/-- A string literal that denotes `cs`. -/
def StrText (cs : List Char) (s : Bytes) : Prop := ∃ l, Lit l cs ∧ s = 0x22#8 :: l ++ [0x22#8]

/-- A numeral that denotes `n`. -/
def NatText (n : Nat) (s : Bytes) : Prop := Numeral s ∧ value s = n

/-- A numeral with an optional minus sign that denotes `n`. -/
def IntText (n : Int) (s : Bytes) : Prop :=
  ∃ neg num, Numeral num ∧ signedValue neg (value num) = n ∧ s = sign neg ++ num

/-- A JSON number for which the float with the bits `v` is the nearest one, ties to even. For
numbers with more than 65000 digits and a large exponent nothing is said (C83). -/
def FloatText (F : Musli.Spec.Float.Format) (v : Nat) (s : Bytes) : Prop :=
  Number s ∧ ∃ l : Musli.Spec.Float.Signed, s = l.text ∧
    (l.lit.exponent.natAbs < 655360 ∨ l.lit.digits.length ≤ 65000) ∧
    ∃ b, F.Nearest l.lit.value b ∧ v = if l.sign = some true then F.sign + b else b

/-- A value of a primitive type. -/
def PrimText : (p : Prim) → p.Val → Bytes → Prop
  | .bool, v, s => s = if v then [0x74#8, 0x72#8, 0x75#8, 0x65#8]
      else [0x66#8, 0x61#8, 0x6C#8, 0x73#8, 0x65#8]
  | .char, v, s => StrText [v] s
  | .uint w, v, s => NatText (BitVec.toNat (w := w.bits) v) s
  | .sint w, v, s => IntText (BitVec.toInt (n := w.bits) v) s
  | .usize, v, s => NatText (BitVec.toNat (w := 64) v) s
  | .isize, v, s => IntText (BitVec.toInt (n := 64) v) s
  | .f32, v, s => FloatText Musli.Spec.Float.f32 (BitVec.toNat (w := 32) v) s
  | .f64, v, s => FloatText Musli.Spec.Float.f64 (BitVec.toNat (w := 64) v) s

/-- An integer inside of quotes. -/
def PrimKey : (p : Prim) → p.Val → Bytes → Prop
  | .bool, _, _ => False
  | .char, _, _ => False
  | .f32, _, _ => False
  | .f64, _, _ => False
  | p, v, s => ∃ cs, PrimText p v (Utf8.encode cs) ∧ StrText cs s

/-- A name, in the position of a value. -/
def NameText : Name → Bytes → Prop
  | .idx n, s => NatText n.toNat s
  | .str n, s => ∃ cs, n.bytes = Utf8.encode cs ∧ StrText cs s

/-- A name, in the position of a key. -/
def NameKey : Name → Bytes → Prop
  | .idx n, s => ∃ cs, NatText n.toNat (Utf8.encode cs) ∧ StrText cs s
  | .str n, s => ∃ cs, n.bytes = Utf8.encode cs ∧ StrText cs s

/-- A value of a type that can be a key. -/
def KeyText : (t : Ty) → t.Val → Bytes → Prop
  | .prim p, v, s => PrimKey p v s
  | .nonZero signed w, v, s => PrimKey (nonZeroPrim signed w) (nonZeroRaw signed w v.1) s
  | .string, v, s => ∃ cs, v.bytes = Utf8.encode cs ∧ StrText cs s
  | .boxed t, v, s => KeyText t v s
  | .wrapping t, v, s => KeyText t v s
  | .transparent t, v, s => KeyText t v s
  | .unitEnum _ names, v, s => NameKey names[v] s
  | _, _, _ => False

/-- A float, which is read without skipping whitespace. -/
def _root_.Musli.Ty.isFloat : Ty → Bool
  | .prim .f32 => true
  | .prim .f64 => true
  | .boxed t => t.isFloat
  | .wrapping t => t.isFloat
  | .transparent t => t.isFloat
  | _ => false

/-- What can be in front of a value of the type: whitespace, except in front of a float. -/
def Lead (t : Ty) (s : Bytes) : Prop := Ws s ∧ (t.isFloat = true → s = [])

/-- What can be in front of the value of a field. -/
def leadKnown : (fs : Fields) → fs.Known → Bytes → Prop
  | .nil, k, _ => nomatch k
  | .cons _ _ _ t fs, k, s =>
    match k with
    | .inl _ => Lead t s
    | .inr k => leadKnown fs k s

/-- A member of the object for a struct: a field, whose value is as in `known`, or
something else. -/
def reprEntry (fs : Fields) (known : fs.Known → Bytes → Prop) : fs.Known ⊕ Name → Bytes → Prop
  | .inl k => MemberL (NameKey (fs.keyOf k)) (leadKnown fs k) (known k)
  | .inr n => Member (NameKey n) IsValue

section
variable (env : Env)

mutual

/-- `s` represents the value `v`. -/
def Denotes : (t : Ty) → t.Val → Bytes → Prop
  | .prim p, v, s => PrimText p v s
  | .nonZero signed w, v, s => PrimText (nonZeroPrim signed w) (nonZeroRaw signed w v.1) s
  /- any value is `()` -/
  | .unit, _, s => IsValue s
  | .bytes, v, s => Arr (v.map (fun b => NatText b.toNat)) s
  | .string, v, s => ∃ cs, v.bytes = Utf8.encode cs ∧ StrText cs s
  | .byteArray _, v, s => Arr (v.1.map (fun b => NatText b.toNat)) s
  /- `null` is `None` even if the payload could be `null` -/
  | .option t, v, s =>
    match v with
    | none => s = [0x6E#8, 0x75#8, 0x6C#8, 0x6C#8]
    | some x => Denotes t x s ∧ s ≠ [0x6E#8, 0x75#8, 0x6C#8, 0x6C#8]
  | .array _ t, v, s => Arr (v.1.map (Denotes t)) s
  | .vec t, v, s => Arr (v.map (Denotes t)) s
  | .set t, v, s => Arr (v.map (Denotes t)) s
  | .map k t, v, s => Obj (v.map (fun x => MemberL (KeyText k x.1) (Lead t) (Denotes t x.2))) s
  /- there may be more elements -/
  | .tuple ts, v, s => ∃ n, Arr (reprTys ts v ++ List.replicate n IsValue) s
  | .result nt t u, v, s =>
    match v with
    | .inl x => Obj [MemberL (NameKey (resultName nt true)) (Lead t) (Denotes t x)] s
    | .inr x => Obj [MemberL (NameKey (resultName nt false)) (Lead u) (Denotes u x)] s
  | .boxed t, v, s => Denotes t v s
  | .wrapping t, v, s => Denotes t v s
  | .transparent t, v, s => Denotes t v s
  /- any object is a struct without fields -/
  | .unitStruct, _, s => IsValue s ∧ ∃ r, s = 0x7B#8 :: r
  /- members for the fields in any order, the last one of which counts, together
  with members that are not for a field -/
  | .strct nt fs, v, s => ∃ es : List (fs.Known ⊕ Name),
      (∀ n, .inr n ∈ es → n ∉ fs.names ∧ n.ty = nt) ∧
      fs.assemble env (es.filterMap Sum.getLeft?) = .ok v ∧
      Obj (es.map (reprEntry fs (reprKnown fs))) s
  | .packed _ fs, v, s => ∃ n, Arr (reprFields fs v ++ List.replicate n IsValue) s
  | .unitEnum _ names, v, s => NameText names[v] s
  | .enm _ vs, v, s => Obj [reprVariant vs v] s

/-- The elements of a tuple. -/
def reprTys : (ts : Tys) → ts.Val → List (Bytes → Prop)
  | .nil, _ => []
  | .cons t ts, v => Denotes t v.1 :: reprTys ts v.2

/-- The value of a field. -/
def reprKnown : (fs : Fields) → fs.Known → Bytes → Prop
  | .nil, k, _ => nomatch k
  | .cons _ _ _ t fs, k, s =>
    match k with
    | .inl v => Denotes t v s
    | .inr k => reprKnown fs k s

/-- The fields of a packed struct. -/
def reprFields : (fs : Fields) → fs.Val → List (Bytes → Prop)
  | .nil, _ => []
  | .cons _ _ _ t fs, v => Denotes t v.1 :: reprFields fs v.2

/-- The tag and the body of a variant. -/
def reprVariant : (vs : Variants) → vs.Val → Bytes → Prop
  | .nil, v, _ => nomatch v
  | .cons n t vs, v, s =>
    match v with
    | .inl x => MemberL (NameKey n) (Lead t) (Denotes t x) s
    | .inr x => reprVariant vs x s

end
end

end Musli.Json.Spec
