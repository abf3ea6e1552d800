import Verif.Model.Utf8
/-!
# The universe of types

A type that implements `Encode` and `Decode` is described by a `Ty`; `Ty.Val` is
the Lean type of its values. Covered are the implementations in
`crates/musli-core/src/impls/{mod,alloc,tuples}.rs` and what the derives in
`crates/musli-macros` generate.
-/
namespace Musli

/-- Integer widths. -/
inductive IW where | w8 | w16 | w32 | w64 | w128
deriving Repr, DecidableEq

/-- Bits of an integer width. -/
def IW.bits : IW → Nat
  | .w8 => 8 | .w16 => 16 | .w32 => 32 | .w64 => 64 | .w128 => 128

/-- Primitive types, `impls/mod.rs:318-428`. -/
inductive Prim where
  | bool | char
  | uint (w : IW)
  | sint (w : IW)
  | usize | isize
  | f32 | f64
deriving Repr, DecidableEq

/-- Values of primitive types. Floats are their bits; `usize` has 64 bits. -/
abbrev Prim.Val : Prim → Type
  | .bool => Bool
  | .char => Char
  | .uint w => BitVec w.bits
  | .sint w => BitVec w.bits
  | .usize => BitVec 64
  | .isize => BitVec 64
  | .f32 => BitVec 32
  | .f64 => BitVec 64

/-- The type of field names and variant tags, `#[musli(name(type = ..))]`:
indexes (the default of the binary mode) or strings (the default of the text
mode). -/
inductive NameTy where | idx | str
deriving Repr, DecidableEq

/-- A field name or variant tag. -/
inductive Name where
  | idx (n : BitVec 64)
  | str (s : Str)
deriving DecidableEq

/-- The type of a name. -/
def Name.ty : Name → NameTy
  | .idx _ => .idx
  | .str _ => .str

mutual

/-- A type that implements `Encode` and `Decode`. -/
inductive Ty where
  /-- `bool`, `char`, numbers: `impls/mod.rs:318-428` -/
  | prim (p : Prim)
  /-- `NonZero*`: `impls/mod.rs:133-192` -/
  | nonZero (signed : Bool) (w : IW)
  /-- `()` and `PhantomData`: `impls/mod.rs:33-104` -/
  | unit
  /-- `#[musli(bytes)]` byte vectors -/
  | bytes
  /-- `String`, `&str` -/
  | string
  /-- `#[musli(bytes)] [u8; N]` -/
  | byteArray (n : Nat)
  /-- `Option<T>`: `impls/mod.rs:652-695` -/
  | option (t : Ty)
  /-- `[T; N]`: `impls/mod.rs:212-273` -/
  | array (n : Nat) (t : Ty)
  /-- `Vec<T>`, `VecDeque<T>`, `Box<[T]>` -/
  | vec (t : Ty)
  /-- `BTreeSet`, `HashSet`, `BinaryHeap`: `impls/alloc.rs:273-380, 446-470` -/
  | set (t : Ty)
  /-- `BTreeMap`, `HashMap`: `impls/alloc.rs:472-614` -/
  | map (k v : Ty)
  /-- tuples: `impls/tuples.rs` -/
  | tuple (ts : Tys)
  /-- `Result<T, U>`: `impls/mod.rs:698-756` -/
  | result (nt : NameTy) (t u : Ty)
  /-- `Box`, `Rc`, `Arc`: `impls/alloc.rs:683-722` -/
  | boxed (t : Ty)
  /-- `Wrapping`: `impls/mod.rs:758-794` -/
  | wrapping (t : Ty)
  /-- `#[musli(transparent)]`: `musli-macros/src/{en.rs:197-206,de.rs}` -/
  | transparent (t : Ty)
  /-- `struct A;` and unit variants -/
  | unitStruct
  /-- `#[derive(Encode, Decode)] struct` -/
  | strct (nt : NameTy) (fs : Fields)
  /-- `#[musli(packed)] struct`; `layoutOk` says that the compiler laid the fields
  out in order and without padding, `musli-macros/src/internals/packed.rs:36-63` -/
  | packed (layoutOk : Bool) (fs : Fields)
  /-- an enum all of whose variants are empty (`EnumTagging::Empty`) -/
  | unitEnum (nt : NameTy) (names : List Name)
  /-- an enum with data, `EnumTagging::Default`. The body of a variant is given
  by a type: `unitStruct`, `strct`, `packed false`, `transparent` -/
  | enm (nt : NameTy) (vs : Variants)

/-- The types of the elements of a tuple. -/
inductive Tys where
  | nil
  | cons (t : Ty) (ts : Tys)

/-- The fields of a struct: name, `#[musli(default)]`,
`#[musli(skip_encoding_if)]` (functions are referred to by number, see `Env`)
and type. -/
inductive Fields where
  | nil
  | cons (name : Name) (dflt : Option Nat) (skip : Option Nat) (t : Ty) (fs : Fields)

/-- The variants of an enum: tag and body. -/
inductive Variants where
  | nil
  | cons (name : Name) (t : Ty) (vs : Variants)

end

/-- `NonZero*` values. -/
abbrev NonZeroVal (w : IW) := { v : BitVec w.bits // v ≠ 0 }

mutual

/-- Values of a type. Maps and sets are the list of their entries in iteration
order. -/
@[reducible] def Ty.Val : Ty → Type
  | .prim p => p.Val
  | .nonZero _ w => NonZeroVal w
  | .unit => Unit
  | .bytes => Bytes
  | .string => Str
  | .byteArray n => { b : Bytes // b.length = n }
  | .option t => Option t.Val
  | .array n t => { l : List t.Val // l.length = n }
  | .vec t => List t.Val
  | .set t => List t.Val
  | .map k v => List (k.Val × v.Val)
  | .tuple ts => ts.Val
  | .result _ t u => t.Val ⊕ u.Val
  | .boxed t => t.Val
  | .wrapping t => t.Val
  | .transparent t => t.Val
  | .unitStruct => Unit
  | .strct _ fs => fs.Val
  | .packed _ fs => fs.Val
  | .unitEnum _ names => Fin names.length
  | .enm _ vs => vs.Val

/-- Values of a tuple. -/
@[reducible] def Tys.Val : Tys → Type
  | .nil => Unit
  | .cons t ts => t.Val × ts.Val

/-- Values of the fields of a struct. -/
@[reducible] def Fields.Val : Fields → Type
  | .nil => Unit
  | .cons _ _ _ t fs => t.Val × fs.Val

/-- Values of an enum. -/
@[reducible] def Variants.Val : Variants → Type
  | .nil => Empty
  | .cons _ t vs => t.Val ⊕ vs.Val

end

/-- The number of elements of a tuple. -/
def Tys.length : Tys → Nat
  | .nil => 0
  | .cons _ ts => ts.length + 1

/-- The `Option`s into which the generated decoder puts fields as they arrive,
`musli-macros/src/de.rs` (`decode_tagged`). -/
@[reducible] def Fields.Partial : Fields → Type
  | .nil => Unit
  | .cons _ _ _ t fs => Option t.Val × fs.Partial

/-- No field has arrived. -/
def Fields.none : (fs : Fields) → fs.Partial
  | .nil => ()
  | .cons _ _ _ _ fs => (Option.none, fs.none)

/-- The functions named by field attributes. -/
structure Env where
  /-- `#[musli(default = path)]`; `none` models a default which fails -/
  dflt : Nat → (t : Ty) → Option t.Val
  /-- `#[musli(skip_encoding_if = path)]` -/
  skipIf : Nat → (t : Ty) → t.Val → Bool

/-- The names of the fields of a struct. -/
def Fields.names : Fields → List Name
  | .nil => []
  | .cons n _ _ _ fs => n :: fs.names

/-- The tags of the variants of an enum. -/
def Variants.names : Variants → List Name
  | .nil => []
  | .cons n _ vs => n :: vs.names

end Musli
