import Verif.Model.Rename
/-!
# The type of names

Which rule names the fields of a struct or variant and the variants of an enum, the type of these
names, and how they are decoded: `crates/musli-macros/src/internals/build.rs`,
`crates/musli-macros/src/expander.rs`, `crates/musli-macros/src/internals/name.rs`.
Paths are relative to `crates/musli-macros/src`.

Simplified: spans are left out. Types are distinguished as far as the derive distinguishes them.
-/
namespace Musli.Rename

/-- `syn::Type`, as far as it matters here. -/
inductive NTy (T : Type) where
  | usize
  | str
  /-- `[u8]` -/
  | bytes
  | other (t : T)
deriving DecidableEq

/-- `UnsizedMethod`, `expander.rs:11-15`, and `NameMethod`, `expander.rs:61-68`. -/
inductive NameMethod where
  | sized
  | unsizedDefault
  | unsizedBytes
deriving DecidableEq

/-- `NameMethod::name_all`, `expander.rs:71-76`. -/
def NameMethod.nameAll : NameMethod → Option NameAll
  | .sized => none
  | .unsizedDefault => some .name
  | .unsizedBytes => some .name

/-- `NameAll::ty`, `internals/name.rs:34-39`. -/
def NameAll.ty {T : Type} : NameAll → NTy T
  | .index => .usize
  | _ => .str

/-- `NameAll::name_method`, `internals/name.rs:41-46`. -/
def NameAll.nameMethod : NameAll → NameMethod
  | .index => .sized
  | _ => .unsizedDefault

/-- `determine_name_method`, `internals/build.rs:781-802`. -/
def determineNameMethod {T : Type} : NTy T → NameMethod × Option NameAll
  | .str => (.unsizedDefault, some .name)
  | .bytes => (.unsizedBytes, some .name)
  | _ => (.sized, none)

/-- `split_name`, `internals/build.rs:715-744`. -/
def splitNameTy {T : Type} (kind : Option ModeKind) (ty : Option (NTy T)) (all : Option NameAll)
    (method : Option NameMethod) : NameAll × NTy T × NameMethod :=
  match ty with
  | none =>
    let all := splitName kind all
    (all, all.ty, method.getD all.nameMethod)
  | some ty =>
    let m := match method with
      | some method => (method, method.nameAll)
      | none => determineNameMethod ty
    ((all.or m.2).getD .index, ty, m.1)

/-- `StructKind`, `expander.rs:120-125`. -/
inductive StructKind where
  | indexed | named | empty
deriving DecidableEq

/-- What `setup_struct`, `internals/build.rs:417-428`, and `setup_variant`, `523-534`, find for the
fields: `is_name_type_ambiguous`, `internals/attr.rs:299-303, 633-637`. -/
def fieldNaming {T : Type} (kind : Option ModeKind) (st : StructKind) (ty : Option (NTy T))
    (all : Option NameAll) (method : Option NameMethod) : NameAll × NTy T × NameMethod :=
  if st = .indexed ∧ ty.isNone ∧ all.isNone ∧ method.isNone then (.index, NameAll.index.ty, .sized)
  else splitNameTy kind ty all method

/-- What `setup_enum`, `internals/build.rs:481-486`, and `setup_variant`, `535-540`, find for the
variants. -/
def variantNaming {T : Type} (kind : Option ModeKind) (ty : Option (NTy T)) (all : Option NameAll)
    (method : Option NameMethod) : NameAll × NTy T × NameMethod :=
  splitNameTy kind ty all method

/-- The names of fields, `internals/build.rs:432-434, 567-571, 611`: `setup_field` calls `expand_name`
with the rule; fields of tuple structs have no identifier. -/
def fieldNames {E : Type} (cc : CharCase) (r : NameAll) (fields : List (Option E × Option (List Char))) :
    List (NameExpr E) :=
  fields.mapIdx fun i f => expandName cc f.1 r f.2 i

end Musli.Rename
