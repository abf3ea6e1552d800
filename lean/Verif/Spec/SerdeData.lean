import Verif.Model.Ty
/-!
# What a serde type tells its serializer, and what it means

This file does not refer to the code. `SData` is what an implementation of `Serialize` calls, by
serde's data model (<https://serde.rs/data-model.html>); `Plain` is what a visitor
learns from a deserializer which describes its content itself.
-/
namespace Musli.Serde

/-- The calls of one `Serialize::serialize`. Lengths which are announced are right. -/
inductive SData where
  | bool (b : Bool)
  | char (c : Char)
  | uint (w : IW) (v : BitVec w.bits)
  | sint (w : IW) (v : BitVec w.bits)
  | f32 (v : BitVec 32)
  | f64 (v : BitVec 64)
  | str (s : Str)
  | bytes (b : Bytes)
  | none
  | some (d : SData)
  | unit
  | unitStruct
  | unitVariant (name : Str)
  | newtypeStruct (d : SData)
  | newtypeVariant (name : Str) (d : SData)
  /-- `serialize_seq(len)`; `known` tells whether `len` is `Some`. -/
  | seq (known : Bool) (l : List SData)
  | tuple (l : List SData)
  | tupleStruct (l : List SData)
  | tupleVariant (name : Str) (l : List SData)
  /-- `serialize_map(len)`; `known` tells whether `len` is `Some`. -/
  | map (known : Bool) (l : List (SData × SData))
  | struct (l : List (Str × SData))
  | structVariant (name : Str) (l : List (Str × SData))

/-- Content without the types of its integers. -/
inductive Plain where
  | unit
  | bool (b : Bool)
  | char (c : Char)
  | int (z : Int)
  | f32 (v : BitVec 32)
  | f64 (v : BitVec 64)
  | text (s : Str)
  | bytes (b : Bytes)
  | absent
  | present (p : Plain)
  | seq (l : List Plain)
  | map (l : List (Plain × Plain))

mutual

/-- The content of what was serialized: the names of structs are dropped, newtypes are what they
contain, tuples are sequences, structs are maps from the names of their fields, and a variant is
a map from its name to what it contains, as everywhere in serde. -/
def SData.plain : SData → Plain
  | .bool b => .bool b
  | .char c => .char c
  | .uint _ v => .int v.toNat
  | .sint _ v => .int v.toInt
  | .f32 v => .f32 v
  | .f64 v => .f64 v
  | .str s => .text s
  | .bytes b => .bytes b
  | .none => .absent
  | .some d => .present d.plain
  | .unit => .unit
  | .unitStruct => .unit
  | .unitVariant n => .map [(.text n, .unit)]
  | .newtypeStruct d => d.plain
  | .newtypeVariant n d => .map [(.text n, d.plain)]
  | .seq _ l => .seq (SData.plains l)
  | .tuple l => .seq (SData.plains l)
  | .tupleStruct l => .seq (SData.plains l)
  | .tupleVariant n l => .map [(.text n, .seq (SData.plains l))]
  | .map _ l => .map (SData.plainPairs l)
  | .struct l => .map (SData.plainFields l)
  | .structVariant n l => .map [(.text n, .map (SData.plainFields l))]

@[inherit_doc SData.plain]
def SData.plains : List SData → List Plain
  | [] => []
  | d :: l => d.plain :: SData.plains l

@[inherit_doc SData.plain]
def SData.plainPairs : List (SData × SData) → List (Plain × Plain)
  | [] => []
  | p :: l => SData.plainPair p :: SData.plainPairs l

@[inherit_doc SData.plain]
def SData.plainPair : SData × SData → Plain × Plain
  | (k, d) => (k.plain, d.plain)

@[inherit_doc SData.plain]
def SData.plainFields : List (Str × SData) → List (Plain × Plain)
  | [] => []
  | p :: l => SData.plainField p :: SData.plainFields l

@[inherit_doc SData.plain]
def SData.plainField : Str × SData → Plain × Plain
  | (n, d) => (.text n, d.plain)

end

mutual

/-- No variant of an enum anywhere. -/
def SData.noVariant : SData → Bool
  | .some d => d.noVariant
  | .newtypeStruct d => d.noVariant
  | .unitVariant _ => false
  | .newtypeVariant _ _ => false
  | .tupleVariant _ _ => false
  | .structVariant _ _ => false
  | .seq _ l => SData.noVariants l
  | .tuple l => SData.noVariants l
  | .tupleStruct l => SData.noVariants l
  | .map _ l => SData.noVariantPairs l
  | .struct l => SData.noVariantFields l
  | _ => true

@[inherit_doc SData.noVariant]
def SData.noVariants : List SData → Bool
  | [] => true
  | d :: l => d.noVariant && SData.noVariants l

@[inherit_doc SData.noVariant]
def SData.noVariantPairs : List (SData × SData) → Bool
  | [] => true
  | p :: l => SData.noVariantPair p && SData.noVariantPairs l

@[inherit_doc SData.noVariant]
def SData.noVariantPair : SData × SData → Bool
  | (k, d) => k.noVariant && d.noVariant

@[inherit_doc SData.noVariant]
def SData.noVariantFields : List (Str × SData) → Bool
  | [] => true
  | p :: l => SData.noVariantField p && SData.noVariantFields l

@[inherit_doc SData.noVariant]
def SData.noVariantField : Str × SData → Bool
  | (_, d) => d.noVariant

end

/-- The calls on the visitor of a serde type. -/
inductive Seen where
  | unit
  | bool (b : Bool)
  | char (c : Char)
  | uint (w : IW) (v : BitVec w.bits)
  | sint (w : IW) (v : BitVec w.bits)
  | f32 (v : BitVec 32)
  | f64 (v : BitVec 64)
  | str (s : Str)
  | bytes (b : Bytes)
  | none
  | some (d : Seen)
  | seq (l : List Seen)
  | map (l : List (Seen × Seen))

mutual

/-- The content of what a visitor was told. -/
def Seen.plain : Seen → Plain
  | .unit => .unit
  | .bool b => .bool b
  | .char c => .char c
  | .uint _ v => .int v.toNat
  | .sint _ v => .int v.toInt
  | .f32 v => .f32 v
  | .f64 v => .f64 v
  | .str s => .text s
  | .bytes b => .bytes b
  | .none => .absent
  | .some d => .present d.plain
  | .seq l => .seq (Seen.plains l)
  | .map l => .map (Seen.plainPairs l)

@[inherit_doc Seen.plain]
def Seen.plains : List Seen → List Plain
  | [] => []
  | d :: l => d.plain :: Seen.plains l

@[inherit_doc Seen.plain]
def Seen.plainPairs : List (Seen × Seen) → List (Plain × Plain)
  | [] => []
  | p :: l => Seen.plainPair p :: Seen.plainPairs l

@[inherit_doc Seen.plain]
def Seen.plainPair : Seen × Seen → Plain × Plain
  | (k, d) => (k.plain, d.plain)

end

end Musli.Serde
