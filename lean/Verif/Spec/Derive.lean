import Verif.Model.Derive
/-!
# Which types can be derived, and how they are represented

As the documentation says, `crates/musli/help/derives.md`.
-/
namespace Musli.Derive.Spec
open Musli.Derive

/-- Exactly one field is not skipped. -/
def OneField (b : Body) : Prop := ∃ l f r, b.fields = l ++ f :: r ∧ f.skip = false ∧ ∀ g ∈ l ++ r, g.skip = true

/-- Fields with a default are last. -/
def DefaultsLast (b : Body) : Prop :=
  ∀ l f r, (b.fields.filter fun f => !f.skip) = l ++ f :: r → f.dflt = true → ∀ g ∈ r, g.dflt = true

/-- No field has a name or a pattern of its own. -/
def NoNames (b : Body) : Prop := ∀ f ∈ b.fields, f.name = false ∧ f.pattern = false

/-- What is allowed of a struct and of a variant. -/
def AllowedBody (b : Body) : Prop :=
  match b.packing with
  | .tagged => True
  | .transparent => OneField b ∧ NoNames b ∧ ∀ f ∈ b.fields, f.skipIf = false
  | .packed => DefaultsLast b ∧ NoNames b ∧ b.names = false
  | .untagged => False

/-- What is allowed of a type. -/
def Allowed : Decl → Prop
  | .strct tag content b => tag = false ∧ content = false ∧ AllowedBody b
  | .enm tag content packing vs =>
    (packing = .tagged ∨ (packing = .untagged ∧ tag = false ∧ content = false)) ∧
    (∀ v ∈ vs, AllowedBody v.body ∧ (v.fallback = true → v.body.fields = [])) ∧
    (tag = true → ∀ v ∈ vs, v.body.packing ≠ .packed) ∧
    (∀ l v r, vs = l ++ v :: r → v.fallback = true → ∀ w ∈ r, w.fallback = false)
  | .union => False

/-- The fields which are not skipped. -/
def kept (b : Body) : List Nat :=
  (number 0 b.fields).filterMap fun p => if p.2.skip then none else some p.1

/-- The representation of a struct or of the body of a variant. -/
def bodyRepr (b : Body) : BodyCode :=
  ⟨match b.packing with
    | .transparent => .transparent
    | .packed => .pack
    | _ => .map, kept b⟩

/-- The representation of a variant: "Enum representations", `help/derives.md:1455-1557`, `#[musli(untagged)]`, `640-646`; of an
enum in which no variant has fields, its name. -/
def variantRepr (tag content : Bool) (packing : Packing) (vs : List Variant) (v : Variant) : VariantCode :=
  match tag, content with
  | true, true => .adjacent (bodyRepr v.body)
  | true, false => .internal (bodyRepr v.body)
  | false, _ =>
    if packing = .untagged then .bare (bodyRepr v.body)
    else if ∀ v ∈ vs, v.body.kind.fieldless = true then .name
    else .external (bodyRepr v.body)

/-- The representation of a type. -/
def documented : Decl → Code
  | .strct _ _ b => .body (bodyRepr b)
  | .enm tag content packing vs => .arms ((number 0 vs).map fun p => (p.1, variantRepr tag content packing vs p.2))
  | .union => .arms []

/-- The kind of the fields fits the number of fields, as the syntax of Rust demands. -/
def WfBody (b : Body) : Prop :=
  match b.kind with
  | .empty => b.fields = []
  | .indexed n => b.fields.length = n
  | .named => True

/-- A type which can be written in Rust. -/
def Wf : Decl → Prop
  | .strct _ _ b => WfBody b
  | .enm _ _ _ vs => ∀ v ∈ vs, WfBody v.body
  | .union => True

/-- The code decodes every field: all members are listed in the literal, each once, and all variables are bound. -/
def Complete (d : Decl) (c : Decoding) : Prop :=
  c.unbound = false ∧
  match d with
  | .strct _ _ b => c.members = [(0, List.range b.fields.length)]
  | .enm _ _ _ vs => c.members = (number 0 vs).map fun p => (p.1, List.range p.2.body.fields.length)
  | .union => False

end Musli.Derive.Spec
