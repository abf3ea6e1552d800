import Verif.Basic
/-!
# What the derive sees and what is compiled, `crates/musli-zerocopy-macros/src/zero_copy/mod.rs`

Attribute macros below `#[derive(ZeroCopy)]` change the type after the derive has seen it; what the derive writes is compiled against
the changed type. Types of fields are numbers, the same number for the same type.
-/
namespace Musli.Zero.Sneaky
open Musli

inductive Shape where
  | named | tuple | unit
deriving DecidableEq

/-- The name of a field, or its index. -/
inductive Member where
  | named (s : Bytes)
  | index (n : Nat)
deriving DecidableEq

/-- The members of a struct or variant in the order they are written: distinct names, indexes which count up, or none. -/
def membersOk (shape : Shape) (ms : List Member) : Prop :=
  match shape with
  | .named => ms.Nodup
  | .tuple => ms = (List.range ms.length).map .index
  | .unit => ms = []

/-- A field as the derive sees it. -/
structure Field where
  member : Member
  ty : Nat
  ignored : Bool
deriving DecidableEq

/-- The body of a struct or variant as the derive sees it. -/
structure Seen where
  shape : Shape
  fields : List Field
deriving DecidableEq

/-- The body which is compiled: its fields in the order of their places in memory. -/
structure Compiled where
  shape : Shape
  fields : List (Member × Nat)
deriving DecidableEq

/-- What is known of types. -/
structure Types where
  zeroCopy : Nat → Bool
  zeroSized : Nat → Bool

/-- `types`, `mod.rs:739-806`. -/
def Seen.types (s : Seen) : List Nat := (s.fields.filter fun f => !f.ignored).map (·.ty)

/-- `build_field_exhaustive_pattern`, `mod.rs:664-723`: `S { a, b }`, `S(_, _)` or `S`, without `..`, matches the type. -/
def patternOk (s : Seen) (c : Compiled) : Bool :=
  decide (s.shape = c.shape) && match s.shape with
    | .named => decide (s.fields.map (·.member)).Nodup && (s.fields.map (·.member)).all (fun m => (c.fields.map (·.1)).contains m) &&
        (c.fields.map (·.1)).all (fun m => (s.fields.map (·.member)).contains m)
    | .tuple => s.fields.length == c.fields.length
    | .unit => true

/-- The fields which are given in `Self { … }`, and the type if `ZeroCopy::swap_bytes` is called; `mod.rs:178-185, 217-228, 496-505`. -/
def literal (transparent : Bool) (s : Seen) : List (Member × Option Nat) :=
  let kept := s.fields.filter fun f => !f.ignored
  let ignored := (s.fields.filter fun f => f.ignored).map fun f => (f.member, none)
  match transparent, kept with
  | true, f :: _ => (f.member, some f.ty) :: ignored
  | _, _ => kept.map (fun f => (f.member, some f.ty)) ++ ignored

/-- An expression for a struct gives every field once, of the type of the field. -/
def literalOk (l : List (Member × Option Nat)) (c : Compiled) : Bool :=
  decide (l.map (·.1)).Nodup && c.fields.all (fun p => (l.map (·.1)).contains p.1) &&
    l.all fun p => match c.fields.lookup p.1 with
      | none => false
      | some ty => match p.2 with
        | some t => t == ty
        | none => true

/-- The code for a struct or variant compiles: the pattern, the expression unless there is `swap_bytes_self` (`mod.rs:622-626`), and what is
demanded of the types of fields. -/
def bodyOk (T : Types) (transparent swapSelf : Bool) (s : Seen) (c : Compiled) : Bool :=
  patternOk s c && (swapSelf || literalOk (literal transparent s) c) && s.types.all T.zeroCopy &&
    (s.fields.filter fun f => f.ignored).all fun f => T.zeroSized f.ty

/-- The types which are validated one after another, `mod.rs:165-215, 393-397`. -/
def validated (transparent : Bool) (s : Seen) : List Nat :=
  match transparent, s.types with
  | true, t :: _ => [t]
  | _, ts => ts

/-- A variant: its name, its discriminant and its body. -/
structure SeenVariant where
  name : Bytes
  disc : Nat
  body : Seen
deriving DecidableEq

structure CompiledVariant where
  name : Bytes
  disc : Nat
  body : Compiled
deriving DecidableEq

/-- The code for an enum without `#[zero_copy(swap_bytes)]` compiles, `mod.rs:413-420, 487-505, 571-584`: matches with a pattern for each variant which was seen. -/
def enumOk (T : Types) (swapSelf : Bool) (s : List SeenVariant) (c : List CompiledVariant) : Bool :=
  decide (s.map (·.disc)).Nodup && c.all (fun v => (s.map (·.name)).contains v.name) &&
    s.all fun v => match c.find? fun w => w.name == v.name with
      | none => false
      | some w => bodyOk T false swapSelf v.body w.body

/-- What is validated after a discriminant, `mod.rs:393-397, 555-563`. -/
def validatedVariant (s : List SeenVariant) (disc : Nat) : Option (List Nat) :=
  (s.find? fun v => v.disc == disc).map fun v => validated false v.body

end Musli.Zero.Sneaky
