import Verif.Spec.Json.Denotes
import Verif.Spec.Json.Decimals
import Verif.Spec.Float
import Verif.Spec.FloatText
/-!
# Which texts the JSON decoder may accept

A grammar that is independent of the decoder. It is the one of `Spec/Json/Denotes.lean` (RFC 8259)
with the following liberties, which are those of the decoder:

* between and after elements and members there may be any number of commas (`Gap`);
* digits may be missing after a decimal point and in an exponent (`Lenient`);
* skipped strings need not be UTF-8 (`RawLit`);
* a key which is an integer may have anything after the integer (`LPrimKey`);
* a float may have leading zeros, a plus sign and no digits on one of the sides of the decimal point, and may be
  one of the words `inf`, `infinity` and `nan` in any mix of cases (`LFloat`).
-/
namespace Musli.Json.Spec
open Musli

/-- What is between elements: whitespace and, except before the first one, commas. -/
def Gap (first : Bool) (s : Bytes) : Prop :=
  ∀ b ∈ s, b = 0x20#8 ∨ b = 0x09#8 ∨ b = 0x0A#8 ∨ b = 0x0D#8 ∨ (first = false ∧ b = 0x2C#8)

/-- The bytes between the quotes of a string that is skipped. -/
inductive RawLit : Bytes → Prop
  | nil : RawLit []
  | plain {b : Byte} {l : Bytes} : 0x20 ≤ b.toNat → b ≠ 0x22#8 → b ≠ 0x5C#8 → RawLit l → RawLit (b :: l)
  | escape {e : Bytes} {c : Char} {l : Bytes} : Escape e c → RawLit l → RawLit (0x5C#8 :: e ++ l)

/-- A value; elements up to a closing bracket; members up to a closing brace. -/
inductive LoosePart where
  | value | elements (first : Bool) | members (first : Bool)

/-- Texts that are skipped. -/
inductive LooseText : LoosePart → Bytes → Prop
  | null : LooseText .value [0x6E#8, 0x75#8, 0x6C#8, 0x6C#8]
  | tru : LooseText .value [0x74#8, 0x72#8, 0x75#8, 0x65#8]
  | fals : LooseText .value [0x66#8, 0x61#8, 0x6C#8, 0x73#8, 0x65#8]
  | number (neg : Bool) {d : Decimal} : Lenient d → LooseText .value (sign neg ++ d.text)
  | string {l : Bytes} : RawLit l → LooseText .value (0x22#8 :: l ++ [0x22#8])
  | array {e : Bytes} : LooseText (.elements true) e → LooseText .value (0x5B#8 :: e ++ [0x5D#8])
  | object {e : Bytes} : LooseText (.members true) e → LooseText .value (0x7B#8 :: e ++ [0x7D#8])
  | noElement {first : Bool} {g : Bytes} : Gap first g → LooseText (.elements first) g
  | element {first : Bool} {g v e : Bytes} : Gap first g → LooseText .value v →
      LooseText (.elements false) e → LooseText (.elements first) (g ++ (v ++ e))
  | noMember {first : Bool} {g : Bytes} : Gap first g → LooseText (.members first) g
  | member {first : Bool} {g l a b v e : Bytes} : Gap first g → RawLit l → Ws a → Ws b →
      LooseText .value v → LooseText (.members false) e →
      LooseText (.members first) (g ++ ((0x22#8 :: l ++ [0x22#8]) ++ (a ++ 0x3A#8 :: (b ++ (v ++ e)))))

/-- A value that is skipped. -/
def LooseValue (s : Bytes) : Prop := LooseText .value s

/-- Elements (or members), and what follows them. -/
def Loosely : (first : Bool) → (ps : List (Bytes → Prop)) → (rest : Bool → Bytes → Prop) → Bytes → Prop
  | first, [], rest, s => rest first s
  | first, p :: ps, rest, s => ∃ g x e, Gap first g ∧ p x ∧ Loosely false ps rest e ∧ s = g ++ (x ++ e)

/-- An array with exactly these elements. -/
def LArr (ps : List (Bytes → Prop)) (s : Bytes) : Prop :=
  ∃ e, Loosely true ps Gap e ∧ s = 0x5B#8 :: e ++ [0x5D#8]

/-- An array which starts with these elements. -/
def LArrMore (ps : List (Bytes → Prop)) (s : Bytes) : Prop :=
  ∃ e, Loosely true ps (fun first => LooseText (.elements first)) e ∧ s = 0x5B#8 :: e ++ [0x5D#8]

/-- An object with exactly these members. -/
def LObj (ps : List (Bytes → Prop)) (s : Bytes) : Prop :=
  ∃ e, Loosely true ps Gap e ∧ s = 0x7B#8 :: e ++ [0x7D#8]

/-- An object with a single member, without further commas. -/
def Single (p : Bytes → Prop) (s : Bytes) : Prop :=
  ∃ a x b, Ws a ∧ p x ∧ Ws b ∧ s = 0x7B#8 :: (a ++ (x ++ b)) ++ [0x7D#8]

/-- None of the prefixes of the digits exceeds `2 ^ w - 1` by less than five. For others, the
result is wrong (C27, C41). -/
def Safe (w : Nat) (l : Bytes) : Prop := ∀ p r, l = p ++ r → ¬ (2 ^ w ≤ value p ∧ value p < 2 ^ w + 4)

/-- A number for the natural number `n` of `w` bits. `full` says whether fractions and exponents are
allowed. -/
def LNat (full : Bool) (w n : Nat) (s : Bytes) : Prop :=
  ∃ d, Lenient d ∧ (full = false → d.frac = none ∧ d.exp = none) ∧ s = d.text ∧
    (Safe w d.int → Safe w d.fracDigits → Safe 32 d.expDigits → d.Denotes n)

/-- A number for the integer `n` of `w` bits. -/
def LInt (full : Bool) (w : Nat) (n : Int) (s : Bytes) : Prop :=
  ∃ neg x m, s = sign neg ++ x ∧ n = signedValue neg m ∧ LNat full w m x

/-- An integer of a primitive type. -/
def LIntPrim (full : Bool) : (p : Prim) → p.Val → Bytes → Prop
  | .uint w, v, s => LNat full w.bits (BitVec.toNat (w := w.bits) v) s
  | .sint w, v, s => LInt full w.bits (BitVec.toInt (n := w.bits) v) s
  | .usize, v, s => LNat full 64 (BitVec.toNat (w := 64) v) s
  | .isize, v, s => LInt full 64 (BitVec.toInt (n := 64) v) s
  | _, _, _ => False

open Musli.Spec.Float in
/-- A text for the float with the bits `v`: a literal whose nearest float it is, or one of the words. For literals with
more than 65000 digits and a large exponent, the result may be wrong (C83). -/
def LFloat (F : Format) (v : Nat) (s : Bytes) : Prop :=
  (∃ l : Signed, s = l.text ∧
    (l.lit.exponent.natAbs < 655360 ∨ l.lit.digits.length ≤ 65000 →
      ∃ b, F.Nearest l.lit.value b ∧ v = if l.sign = some true then F.sign + b else b)) ∨
  (∃ sign w, s = Signed.signText sign ++ w ∧
    ((isInf w ∧ v = if sign = some true then F.sign + F.inf else F.inf) ∨
     (isNan w ∧ v = if sign = some true then F.sign + F.nan else F.nan)))

/-- A value of a primitive type. -/
def LPrim (full : Bool) : (p : Prim) → p.Val → Bytes → Prop
  | .bool, v, s => s = if v then [0x74#8, 0x72#8, 0x75#8, 0x65#8]
      else [0x66#8, 0x61#8, 0x6C#8, 0x73#8, 0x65#8]
  | .char, v, s => StrText [v] s
  | .f32, v, s => LFloat Musli.Spec.Float.f32 (BitVec.toNat (w := 32) v) s
  | .f64, v, s => LFloat Musli.Spec.Float.f64 (BitVec.toNat (w := 64) v) s
  | p, v, s => LIntPrim full p v s

/-- An integer in quotes, where anything may follow the integer. -/
def LPrimKey (full : Bool) (p : Prim) (v : p.Val) (s : Bytes) : Prop :=
  ∃ cs ws x y, StrText cs s ∧ Utf8.encode cs = ws ++ (x ++ y) ∧ Ws ws ∧ LIntPrim full p v x

/-- A name, in the position of a value. -/
def LName (full : Bool) : Name → Bytes → Prop
  | .idx n, s => LNat full 64 n.toNat s
  | .str n, s => ∃ cs, n.bytes = Utf8.encode cs ∧ StrText cs s

/-- A name, in the position of a key. -/
def LNameKey (full : Bool) : Name → Bytes → Prop
  | .idx n, s => LPrimKey full .usize n s
  | .str n, s => ∃ cs, n.bytes = Utf8.encode cs ∧ StrText cs s

/-- A value of a type that can be a key. -/
def LKey (full : Bool) : (t : Ty) → t.Val → Bytes → Prop
  | .prim p, v, s => LPrimKey full p v s
  | .nonZero signed w, v, s => LPrimKey full (nonZeroPrim signed w) (nonZeroRaw signed w v.1) s
  | .string, v, s => ∃ cs, v.bytes = Utf8.encode cs ∧ StrText cs s
  | .boxed t, v, s => LKey full t v s
  | .wrapping t, v, s => LKey full t v s
  | .transparent t, v, s => LKey full t v s
  | .unitEnum _ names, v, s => LNameKey full names[v] s
  | _, _, _ => False

/-- A member of the object for a struct. -/
def looseEntry (full : Bool) (fs : Fields) (known : fs.Known → Bytes → Prop) :
    fs.Known ⊕ Name → Bytes → Prop
  | .inl k => Member (LNameKey full (fs.keyOf k)) (known k)
  | .inr n => Member (LNameKey full n) LooseValue

section
variable (full : Bool) (env : Env)

mutual

/-- `s` is a text which may be accepted as the value `v`. -/
def LDenotes : (t : Ty) → t.Val → Bytes → Prop
  | .prim p, v, s => LPrim full p v s
  | .nonZero signed w, v, s => LPrim full (nonZeroPrim signed w) (nonZeroRaw signed w v.1) s
  | .unit, _, s => LooseValue s
  | .bytes, v, s => LArr (v.map (fun b => LNat full 8 b.toNat)) s
  | .string, v, s => ∃ cs, v.bytes = Utf8.encode cs ∧ StrText cs s
  | .byteArray _, v, s => LArr (v.1.map (fun b => LNat full 8 b.toNat)) s
  | .option t, v, s =>
    match v with
    | none => s = [0x6E#8, 0x75#8, 0x6C#8, 0x6C#8]
    | some x => LDenotes t x s ∧ s.head? ≠ some 0x6E#8
  | .array _ t, v, s => LArr (v.1.map (LDenotes t)) s
  | .vec t, v, s => LArr (v.map (LDenotes t)) s
  | .set t, v, s => LArr (v.map (LDenotes t)) s
  | .map k t, v, s => LObj (v.map (fun x => Member (LKey full k x.1) (LDenotes t x.2))) s
  | .tuple ts, v, s => LArrMore (looseTys ts v) s
  | .result nt t u, v, s =>
    match v with
    | .inl x => Single (Member (LNameKey full (resultName nt true)) (LDenotes t x)) s
    | .inr x => Single (Member (LNameKey full (resultName nt false)) (LDenotes u x)) s
  | .boxed t, v, s => LDenotes t v s
  | .wrapping t, v, s => LDenotes t v s
  | .transparent t, v, s => LDenotes t v s
  | .unitStruct, _, s => LooseValue s ∧ ∃ r, s = 0x7B#8 :: r
  | .strct nt fs, v, s => ∃ es : List (fs.Known ⊕ Name),
      (∀ n, .inr n ∈ es → n ∉ fs.names ∧ n.ty = nt) ∧
      fs.assemble env (es.filterMap Sum.getLeft?) = .ok v ∧
      LObj (es.map (looseEntry full fs (looseKnown fs))) s
  | .packed _ fs, v, s => LArrMore (looseFields fs v) s
  | .unitEnum _ names, v, s => LName full names[v] s
  | .enm _ vs, v, s => Single (looseVariant vs v) s

/-- The elements of a tuple. -/
def looseTys : (ts : Tys) → ts.Val → List (Bytes → Prop)
  | .nil, _ => []
  | .cons t ts, v => LDenotes t v.1 :: looseTys ts v.2

/-- The value of a field. -/
def looseKnown : (fs : Fields) → fs.Known → Bytes → Prop
  | .nil, k, _ => nomatch k
  | .cons _ _ _ t fs, k, s =>
    match k with
    | .inl v => LDenotes t v s
    | .inr k => looseKnown fs k s

/-- The fields of a packed struct. -/
def looseFields : (fs : Fields) → fs.Val → List (Bytes → Prop)
  | .nil, _ => []
  | .cons _ _ _ t fs, v => LDenotes t v.1 :: looseFields fs v.2

/-- The tag and the body of a variant. -/
def looseVariant : (vs : Variants) → vs.Val → Bytes → Prop
  | .nil, v, _ => nomatch v
  | .cons n t vs, v, s =>
    match v with
    | .inl x => Member (LNameKey full n) (LDenotes t x) s
    | .inr x => looseVariant vs x s

end
end

end Musli.Json.Spec
