import Verif.Spec.SerdeData
import Verif.Spec.Serde
import Verif.Spec.Json.Doc
/-!
# Serde data as JSON

This file does not refer to the bridge. It says what JSON document serde data stands for, and which JSON texts stand for
a value of a serde type.
-/
namespace Musli.Serde
open Musli.Json.Spec

/-! ## Data and documents -/

/-- The string which stands for a key: strings are themselves, integers are written in decimal. -/
def SData.KeyIs : SData → Str → Prop
  | .uint _ v, k => IntKey v.toNat k
  | .sint _ v, k => IntKey v.toInt k
  | .str s, k => k = s
  | .newtypeStruct d, k => d.KeyIs k
  | _, _ => False

mutual

/-- The document which stands for the data. `None` and units are `null`, `Some` is what it contains, a character is a
string, bytes are an array of numbers, structs and maps are objects, and a variant is an object whose only
member is named after the variant. -/
def SData.Is : SData → Doc → Prop
  | .bool b, d => d = .bool b
  | .char c, d => ∃ s : Str, s.bytes = Utf8.encode [c] ∧ d = .str s
  | .uint _ v, d => d = .num false v.toNat
  | .sint _ v, d => d = .num (decide (v.toInt < 0)) v.toInt.natAbs
  | .f32 _, _ => False
  | .f64 _, _ => False
  | .str s, d => d = .str s
  | .bytes b, d => d = .arr (b.map fun x => .num false x.toNat)
  | .none, d => d = .null
  | .some x, d => x.Is d
  | .unit, d => d = .null
  | .unitStruct, d => d = .null
  | .unitVariant n, d => d = .obj [(n, .null)]
  | .newtypeStruct x, d => x.Is d
  | .newtypeVariant n x, d => ∃ e, x.Is e ∧ d = .obj [(n, e)]
  | .seq _ l, d => ∃ ds, SData.Are l ds ∧ d = .arr ds
  | .tuple l, d => ∃ ds, SData.Are l ds ∧ d = .arr ds
  | .tupleStruct l, d => ∃ ds, SData.Are l ds ∧ d = .arr ds
  | .tupleVariant n l, d => ∃ ds, SData.Are l ds ∧ d = .obj [(n, .arr ds)]
  | .map _ l, d => ∃ ds, SData.PairsAre l ds ∧ d = .obj ds
  | .struct l, d => ∃ ds, SData.FieldsAre l ds ∧ d = .obj ds
  | .structVariant n l, d => ∃ ds, SData.FieldsAre l ds ∧ d = .obj [(n, .obj ds)]

/-- The elements, in order. -/
def SData.Are : List SData → List Doc → Prop
  | [], ds => ds = []
  | x :: l, ds => ∃ e m, ds = e :: m ∧ x.Is e ∧ SData.Are l m

/-- The entries, in order. -/
def SData.PairsAre : List (SData × SData) → List (Str × Doc) → Prop
  | [], ds => ds = []
  | p :: l, ds => ∃ e m, ds = e :: m ∧ SData.PairIs p e ∧ SData.PairsAre l m

/-- An entry. -/
def SData.PairIs : SData × SData → Str × Doc → Prop
  | (k, x), (n, e) => k.KeyIs n ∧ x.Is e

/-- The fields, in order. -/
def SData.FieldsAre : List (Str × SData) → List (Str × Doc) → Prop
  | [], ds => ds = []
  | p :: l, ds => ∃ e m, ds = e :: m ∧ SData.FieldIs p e ∧ SData.FieldsAre l m

/-- A field. -/
def SData.FieldIs : Str × SData → Str × Doc → Prop
  | (k, x), (n, e) => n = k ∧ x.Is e

end

/-- The data can be a key. -/
def SData.isKey : SData → Bool
  | .uint _ _ => true
  | .sint _ _ => true
  | .str _ => true
  | .newtypeStruct d => d.isKey
  | _ => false

mutual

/-- Data for which the bridge writes JSON: the length of maps is announced, keys are strings and integers, or newtypes
of these. (Floats are not modelled.) -/
def SData.writable : SData → Bool
  | .f32 _ => false
  | .f64 _ => false
  | .some d => d.writable
  | .newtypeStruct d => d.writable
  | .newtypeVariant _ d => d.writable
  | .seq _ l => SData.writables l
  | .tuple l => SData.writables l
  | .tupleStruct l => SData.writables l
  | .tupleVariant _ l => SData.writables l
  | .map known l => known && SData.writablePairs l
  | .struct l => SData.writableFields l
  | .structVariant _ l => SData.writableFields l
  | _ => true

@[inherit_doc SData.writable]
def SData.writables : List SData → Bool
  | [] => true
  | d :: l => d.writable && SData.writables l

@[inherit_doc SData.writable]
def SData.writablePairs : List (SData × SData) → Bool
  | [] => true
  | p :: l => SData.writablePair p && SData.writablePairs l

@[inherit_doc SData.writable]
def SData.writablePair : SData × SData → Bool
  | (k, d) => k.isKey && d.writable

@[inherit_doc SData.writable]
def SData.writableFields : List (Str × SData) → Bool
  | [] => true
  | p :: l => SData.writableField p && SData.writableFields l

@[inherit_doc SData.writable]
def SData.writableField : Str × SData → Bool
  | (_, d) => d.writable

end

/-- A string, or a newtype of one. -/
def SData.isStr : SData → Bool
  | .str _ => true
  | .newtypeStruct d => d.isStr
  | _ => false

mutual

/-- Data of which JSON keeps everything: no floats, characters, bytes and options, and keys are strings. -/
def SData.kept : SData → Bool
  | .bool _ => true
  | .char _ => false
  | .uint _ _ => true
  | .sint _ _ => true
  | .f32 _ => false
  | .f64 _ => false
  | .str _ => true
  | .bytes _ => false
  | .none => false
  | .some _ => false
  | .unit => true
  | .unitStruct => true
  | .unitVariant _ => true
  | .newtypeStruct d => d.kept
  | .newtypeVariant _ d => d.kept
  | .seq _ l => SData.kepts l
  | .tuple l => SData.kepts l
  | .tupleStruct l => SData.kepts l
  | .tupleVariant _ l => SData.kepts l
  | .map _ l => SData.keptPairs l
  | .struct l => SData.keptFields l
  | .structVariant _ l => SData.keptFields l

@[inherit_doc SData.kept]
def SData.kepts : List SData → Bool
  | [] => true
  | d :: l => d.kept && SData.kepts l

@[inherit_doc SData.kept]
def SData.keptPairs : List (SData × SData) → Bool
  | [] => true
  | p :: l => SData.keptPair p && SData.keptPairs l

@[inherit_doc SData.kept]
def SData.keptPair : SData × SData → Bool
  | (k, d) => k.isStr && d.kept

@[inherit_doc SData.kept]
def SData.keptFields : List (Str × SData) → Bool
  | [] => true
  | p :: l => SData.keptField p && SData.keptFields l

@[inherit_doc SData.kept]
def SData.keptField : Str × SData → Bool
  | (_, d) => d.kept

end

mutual

/-- What a document says. -/
def docPlain : Doc → Plain
  | .null => .unit
  | .bool b => .bool b
  | .num neg n => .int (signedValue neg n)
  | .str s => .text s
  | .arr l => .seq (docPlains l)
  | .obj l => .map (docPlainMembers l)

@[inherit_doc docPlain]
def docPlains : List Doc → List Plain
  | [] => []
  | d :: l => docPlain d :: docPlains l

@[inherit_doc docPlain]
def docPlainMembers : List (Str × Doc) → List (Plain × Plain)
  | [] => []
  | p :: l => docPlainMember p :: docPlainMembers l

@[inherit_doc docPlain]
def docPlainMember : Str × Doc → Plain × Plain
  | (k, d) => (.text k, docPlain d)

end

/-! ## Texts for values of serde types -/

/-- A key for a value. -/
def SKey : (t : Ty) → t.Val → Bytes → Prop
  | .prim p, v, s => PrimKey p v s
  | .nonZero signed w, v, s => PrimKey (nonZeroPrim signed w) (nonZeroRaw signed w v.1) s
  | .string, v, s => NameKey (.str v) s
  | .boxed t, v, s => SKey t v s
  | .wrapping t, v, s => SKey t v s
  | .transparent t, v, s => SKey t v s
  | _, _, _ => False

section
variable (env : Env)

mutual

/-- `s` stands for the value `v` of a serde type. -/
def SText : (t : Ty) → t.Val → Bytes → Prop
  | .prim p, v, s => PrimText p v s
  | .nonZero signed w, v, s => PrimText (nonZeroPrim signed w) (nonZeroRaw signed w v.1) s
  /- any value is a unit -/
  | .unit, _, s => IsValue s
  | .unitStruct, _, s => IsValue s
  | .bytes, v, s => Arr (v.map (fun b => NatText b.toNat)) s
  | .string, v, s => NameText (.str v) s
  | .option t, v, s =>
    match v with
    | none => s = [0x6E#8, 0x75#8, 0x6C#8, 0x6C#8]
    | some x => SText t x s ∧ s ≠ [0x6E#8, 0x75#8, 0x6C#8, 0x6C#8]
  /- there may be more elements -/
  | .array _ t, v, s => ∃ n, Arr (v.1.map (SText t) ++ List.replicate n IsValue) s
  | .vec t, v, s => Arr (v.map (SText t)) s
  | .set t, v, s => Arr (v.map (SText t)) s
  | .map k t, v, s => Obj (v.map (fun x => MemberL (SKey k x.1) (Lead t) (SText t x.2))) s
  | .tuple ts, v, s => ∃ n, Arr (sTys ts v ++ List.replicate n IsValue) s
  | .result _ t u, v, s =>
    match v with
    | .inl x => Obj [MemberL (NameKey (resultName .str true)) (Lead t) (SText t x)] s
    | .inr x => Obj [MemberL (NameKey (resultName .str false)) (Lead u) (SText u x)] s
  | .boxed t, v, s => SText t v s
  | .wrapping t, v, s => SText t v s
  | .transparent t, v, s => SText t v s
  /- members for the fields in any order, at most one for each, together with members that are not for a field -/
  | .strct _ fs, v, s => ∃ es : List (fs.Known ⊕ Name),
      (∀ n, .inr n ∈ es → n ∉ fs.names ∧ n.ty = .str) ∧
      ((es.filterMap Sum.getLeft?).map fs.keyOf).Nodup ∧
      Assembled env fs (es.filterMap Sum.getLeft?) v ∧
      Obj (es.map (reprEntry fs (sKnown fs))) s
  /- an object with the variant and any value -/
  | .unitEnum _ names, v, s => Obj [Member (NameKey names[v]) IsValue] s
  | .enm _ vs, v, s => Obj [sVariant vs v] s
  | .byteArray _, _, _ => False
  | .packed _ _, _, _ => False

/-- The elements of a tuple. -/
def sTys : (ts : Tys) → ts.Val → List (Bytes → Prop)
  | .nil, _ => []
  | .cons t ts, v => SText t v.1 :: sTys ts v.2

/-- The value of a field. -/
def sKnown : (fs : Fields) → fs.Known → Bytes → Prop
  | .nil, k, _ => nomatch k
  | .cons _ _ _ t fs, k, s =>
    match k with
    | .inl v => SText t v s
    | .inr k => sKnown fs k s

/-- The tag and the body of a variant. -/
def sVariant : (vs : Variants) → vs.Val → Bytes → Prop
  | .nil, v, _ => nomatch v
  | .cons n t vs, v, s =>
    match v with
    | .inl x => MemberL (NameKey n) (Lead t) (SText t x) s
    | .inr x => sVariant vs x s

end
end

/-- A value can be written as `null`. -/
def nullable : Ty → Bool
  | .unit => true
  | .unitStruct => true
  | .option _ => true
  | .boxed t => nullable t
  | .wrapping t => nullable t
  | .transparent t => nullable t
  | _ => false

mutual

/-- The names of fields and variants are distinct strings. -/
def names : Ty → Bool
  | .option t => names t
  | .array _ t => names t
  | .vec t => names t
  | .set t => names t
  | .map k t => names k && names t
  | .tuple ts => namesTys ts
  | .result _ t u => names t && names u
  | .boxed t => names t
  | .wrapping t => names t
  | .transparent t => names t
  | .strct _ fs => namesOk .str fs.names && namesFields fs
  | .unitEnum _ ns => namesOk .str ns
  | .enm _ vs => namesOk .str vs.names && namesVariants vs
  | _ => true

@[inherit_doc names]
def namesTys : Tys → Bool
  | .nil => true
  | .cons t ts => names t && namesTys ts

@[inherit_doc names]
def namesFields : Fields → Bool
  | .nil => true
  | .cons _ _ _ t fs => names t && namesFields fs

@[inherit_doc names]
def namesVariants : Variants → Bool
  | .nil => true
  | .cons _ t vs => names t && namesVariants vs

end

mutual

/-- What is in an option is not written as `null`. -/
def clearNull : Ty → Bool
  | .option t => !nullable t && clearNull t
  | .array _ t => clearNull t
  | .vec t => clearNull t
  | .set t => clearNull t
  | .map k t => clearNull k && clearNull t
  | .tuple ts => clearNullTys ts
  | .result _ t u => clearNull t && clearNull u
  | .boxed t => clearNull t
  | .wrapping t => clearNull t
  | .transparent t => clearNull t
  | .strct _ fs => clearNullFields fs
  | .enm _ vs => clearNullVariants vs
  | _ => true

@[inherit_doc clearNull]
def clearNullTys : Tys → Bool
  | .nil => true
  | .cons t ts => clearNull t && clearNullTys ts

@[inherit_doc clearNull]
def clearNullFields : Fields → Bool
  | .nil => true
  | .cons _ _ _ t fs => clearNull t && clearNullFields fs

@[inherit_doc clearNull]
def clearNullVariants : Variants → Bool
  | .nil => true
  | .cons _ t vs => clearNull t && clearNullVariants vs

end

end Musli.Serde
