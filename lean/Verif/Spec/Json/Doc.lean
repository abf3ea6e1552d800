import Verif.Model.Value.Value
import Verif.Spec.Json.Denotes
/-!
# JSON documents

What a JSON text says, independent of how it is written: whitespace, escapes. Numbers are
integers.
-/
namespace Musli.Json.Spec
open Musli

/-- A document. -/
inductive Doc where
  | null
  | bool (b : Bool)
  /-- `-n` if `neg` and `n` otherwise. (`-0` is a number.) -/
  | num (neg : Bool) (n : Nat)
  | str (s : Str)
  | arr (l : List Doc)
  | obj (l : List (Str × Doc))

/-- A string literal for `v`. -/
def StringText (v : Str) (s : Bytes) : Prop := ∃ cs, v.bytes = Utf8.encode cs ∧ StrText cs s

mutual

/-- `s` is a text for the document. -/
def Doc.text : Doc → Bytes → Prop
  | .null, s => s = [0x6E#8, 0x75#8, 0x6C#8, 0x6C#8]
  | .bool b, s => s = if b then [0x74#8, 0x72#8, 0x75#8, 0x65#8]
      else [0x66#8, 0x61#8, 0x6C#8, 0x73#8, 0x65#8]
  | .num neg n, s => ∃ num, Numeral num ∧ value num = n ∧ s = sign neg ++ num
  | .str v, s => StringText v s
  | .arr l, s => Arr (texts l) s
  | .obj l, s => Obj (memberTexts l) s

/-- The elements. -/
def texts : List Doc → List (Bytes → Prop)
  | [] => []
  | d :: l => d.text :: texts l

/-- The members. -/
def memberTexts : List (Str × Doc) → List (Bytes → Prop)
  | [] => []
  | p :: l => memberText p :: memberTexts l

/-- A member. -/
def memberText : Str × Doc → Bytes → Prop
  | (k, d) => Member (StringText k) d.text

end

mutual

/-- The integers are those of `i128` and `u128`. -/
def Doc.small : Doc → Prop
  | .num neg n => if neg then n ≤ 2 ^ 127 else n < 2 ^ 128
  | .arr l => smalls l
  | .obj l => smallMembers l
  | _ => True

/-- As above. -/
def smalls : List Doc → Prop
  | [] => True
  | d :: l => d.small ∧ smalls l

/-- As above. -/
def smallMembers : List (Str × Doc) → Prop
  | [] => True
  | p :: l => smallMember p ∧ smallMembers l

/-- As above. -/
def smallMember : Str × Doc → Prop
  | (_, d) => d.small

end

/-- The smallest type for an integer: signed if there is a minus sign, unsigned otherwise. -/
def Fits (neg : Bool) (n : Nat) (w : IW) : Prop :=
  if neg then n ≤ 2 ^ (w.bits - 1) else n < 2 ^ w.bits

instance (neg : Bool) (n : Nat) (w : IW) : Decidable (Fits neg n w) := by
  unfold Fits; infer_instance

/-- The narrowest width in which an integer fits. -/
def narrowest (neg : Bool) (n : Nat) : IW :=
  if Fits neg n .w8 then .w8 else if Fits neg n .w16 then .w16 else if Fits neg n .w32 then .w32
  else if Fits neg n .w64 then .w64 else .w128

/-- The number of a document, as a `Number`. -/
def toNumber (neg : Bool) (n : Nat) : Musli.Number :=
  if neg then .sint (narrowest neg n) (BitVec.ofInt _ (-(n : Int)))
  else .uint (narrowest neg n) (BitVec.ofNat _ n)

mutual

/-- The document as a `Value`. -/
def Doc.toValue : Doc → Value
  | .null => .unit
  | .bool b => .bool b
  | .num neg n => .number (toNumber neg n)
  | .str s => .string s
  | .arr l => .seq (toValues l)
  | .obj l => .map (toPairs l)

/-- The elements. -/
def toValues : List Doc → List Value
  | [] => []
  | d :: l => d.toValue :: toValues l

/-- The members. -/
def toPairs : List (Str × Doc) → List (Value × Value)
  | [] => []
  | p :: l => toPair p :: toPairs l

/-- A member. -/
def toPair : Str × Doc → Value × Value
  | (k, d) => (.string k, d.toValue)

end

/-! ## Values as documents -/

/-- The integer of a primitive type. -/
def primInt : (p : Prim) → p.Val → Option Int
  | .uint w, v => some (BitVec.toNat (w := w.bits) v)
  | .sint w, v => some (BitVec.toInt (n := w.bits) v)
  | .usize, v => some (BitVec.toNat (w := 64) v)
  | .isize, v => some (BitVec.toInt (n := 64) v)
  | _, _ => none

/-- A number for an integer. -/
def IntDoc (i : Int) (d : Doc) : Prop := ∃ neg n, d = .num neg n ∧ signedValue neg n = i

/-- A string for an integer: its digits, with a minus sign if it is negative. -/
def IntKey (i : Int) (k : Str) : Prop :=
  ∃ num, Numeral num ∧ value num = i.natAbs ∧ k.bytes = sign (decide (i < 0)) ++ num

/-- A document for a value of a primitive type. -/
def PrimDoc (p : Prim) (v : p.Val) (d : Doc) : Prop := ∃ i, primInt p v = some i ∧ IntDoc i d

/-- A key for a value of a primitive type. -/
def PrimKeyDoc (p : Prim) (v : p.Val) (k : Str) : Prop := ∃ i, primInt p v = some i ∧ IntKey i k

/-- A name, in the position of a value. -/
def NameDoc : Name → Doc → Prop
  | .idx n, d => IntDoc n.toNat d
  | .str s, d => d = .str s

/-- A name, in the position of a key. -/
def NameKeyDoc : Name → Str → Prop
  | .idx n, k => IntKey n.toNat k
  | .str s, k => k = s

/-- A key for a value. -/
def KeyDoc : (t : Ty) → t.Val → Str → Prop
  | .prim p, v, k => PrimKeyDoc p v k
  | .nonZero signed w, v, k => PrimKeyDoc (nonZeroPrim signed w) (nonZeroRaw signed w v.1) k
  | .string, v, k => k = v
  | .boxed t, v, k => KeyDoc t v k
  | .wrapping t, v, k => KeyDoc t v k
  | .transparent t, v, k => KeyDoc t v k
  | .unitEnum _ names, v, k => NameKeyDoc names[v] k
  | _, _, _ => False

/-- Two lists of the same length, related element by element. -/
def AllRel {α β : Type} (r : α → β → Prop) : List α → List β → Prop
  | [], [] => True
  | a :: l, b :: m => r a b ∧ AllRel r l m
  | _, _ => False

/-- A member of the object for a struct: a field, or something which is not a field. -/
def EntryDoc (fs : Fields) (known : fs.Known → Doc → Prop) : fs.Known ⊕ Name → Str × Doc → Prop
  | .inl f, m => NameKeyDoc (fs.keyOf f) m.1 ∧ known f m.2
  | .inr n, m => NameKeyDoc n m.1

section
variable (env : Env)

mutual

/-- The document represents the value, for types without `char`, floats, bytes, byte arrays,
options, results, packed structs and enums with data. -/
def DocOf : (t : Ty) → t.Val → Doc → Prop
  | .prim .bool, v, d => d = .bool v
  | .prim p, v, d => PrimDoc p v d
  | .nonZero signed w, v, d => PrimDoc (nonZeroPrim signed w) (nonZeroRaw signed w v.1) d
  | .unit, _, d => d = .null
  | .string, v, d => d = .str v
  | .array _ t, v, d => ∃ l, d = .arr l ∧ AllRel (DocOf t) v.1 l
  | .vec t, v, d => ∃ l, d = .arr l ∧ AllRel (DocOf t) v l
  | .set t, v, d => ∃ l, d = .arr l ∧ AllRel (DocOf t) v l
  | .map k t, v, d => ∃ l, d = .obj l ∧ AllRel (fun x m => KeyDoc k x.1 m.1 ∧ DocOf t x.2 m.2) v l
  /- there may be more elements -/
  | .tuple ts, v, d => ∃ l m, d = .arr (l ++ m) ∧ tysDoc ts v l
  | .boxed t, v, d => DocOf t v d
  | .wrapping t, v, d => DocOf t v d
  | .transparent t, v, d => DocOf t v d
  | .unitStruct, _, d => ∃ l, d = .obj l
  /- members for the fields in any order, the last one of which counts, together with members
  that are not for a field -/
  | .strct nt fs, v, d => ∃ (es : List (fs.Known ⊕ Name)) (l : List (Str × Doc)), d = .obj l ∧
      (∀ n, .inr n ∈ es → n ∉ fs.names ∧ n.ty = nt) ∧
      fs.assemble env (es.filterMap Sum.getLeft?) = .ok v ∧
      AllRel (EntryDoc fs (knownDoc fs)) es l
  | .unitEnum _ names, v, d => NameDoc names[v] d
  | _, _, _ => False

/-- The elements of a tuple. -/
def tysDoc : (ts : Tys) → ts.Val → List Doc → Prop
  | .nil, _, l => l = []
  | .cons t ts, v, l => ∃ d m, l = d :: m ∧ DocOf t v.1 d ∧ tysDoc ts v.2 m

/-- The value of a field. -/
def knownDoc : (fs : Fields) → fs.Known → Doc → Prop
  | .nil, k, _ => nomatch k
  | .cons _ _ _ t fs, k, d =>
    match k with
    | .inl v => DocOf t v d
    | .inr k => knownDoc fs k d

end
end

mutual

/-- Types for which a buffer holds what their decoder asks for: no `char`, floats, bytes, byte
arrays, options, results, packed structs or enums with data. -/
def _root_.Musli.Ty.bufferable : Ty → Bool
  | .prim p => match p with
    | .char => false
    | .f32 => false
    | .f64 => false
    | _ => true
  | .nonZero _ _ => true
  | .unit => true
  | .string => true
  | .array _ t => t.bufferable
  | .vec t => t.bufferable
  | .set t => t.bufferable
  | .map _ t => t.bufferable
  | .tuple ts => ts.bufferable
  | .boxed t => t.bufferable
  | .wrapping t => t.bufferable
  | .transparent t => t.bufferable
  | .unitStruct => true
  | .strct _ fs => fs.bufferable
  | .unitEnum _ _ => true
  | .bytes => false
  | .byteArray _ => false
  | .option _ => false
  | .result _ _ _ => false
  | .packed _ _ => false
  | .enm _ _ => false

/-- As above. -/
def _root_.Musli.Tys.bufferable : Tys → Bool
  | .nil => true
  | .cons t ts => t.bufferable && ts.bufferable

/-- As above. -/
def _root_.Musli.Fields.bufferable : Fields → Bool
  | .nil => true
  | .cons _ _ _ t fs => t.bufferable && fs.bufferable

end

end Musli.Json.Spec
