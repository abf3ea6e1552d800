import Verif.Model.Pattern
import Verif.Spec.Evolution
import Verif.Spec.Tagged
import Verif.Spec.Json.Denotes
/-!
# Which field or variant a name stands for

A field or variant with a pattern is decoded from the names which the pattern accepts, others from their name. If
several accept a name, the first one counts.
-/
namespace Musli

/-- The names from which a field or variant is decoded. -/
def Accepts (n : Name) (p : Option Pat) (name : Name) : Prop :=
  match p with
  | none => name = n
  | some p => p name = true

/-- The `i`-th of the fields or variants is the first which accepts the name. -/
def StandsFor (names : List Name) (ps : Pats) (name : Name) (i : Nat) : Prop :=
  (∃ n, names[i]? = some n ∧ Accepts n (ps i) name) ∧
  ∀ j, j < i → ∀ n, names[j]? = some n → ¬Accepts n (ps j) name

/-- None of the fields or variants accepts the name. -/
def Unclaimed (names : List Name) (ps : Pats) (name : Name) : Prop :=
  ∀ j n, names[j]? = some n → ¬Accepts n (ps j) name

/-- Every field or variant is the first which accepts its own name. -/
def OwnNames (names : List Name) (ps : Pats) : Prop :=
  ∀ i n, names[i]? = some n → StandsFor names ps n i

/-- The position of the field. -/
def Fields.position : (fs : Fields) → fs.Known → Nat
  | .nil, k => nomatch k
  | .cons _ _ _ _ fs, k =>
    match k with
    | .inl _ => 0
    | .inr k => fs.position k + 1

/-- The position of the variant. -/
def Variants.position : (vs : Variants) → vs.Val → Nat
  | .nil, v => nomatch v
  | .cons _ _ vs, v =>
    match v with
    | .inl _ => 0
    | .inr v => vs.position v + 1

/-- An entry of a document: a value for a field under some name, or something else. -/
abbrev Fields.NamedEntry (fs : Fields) (β : Type _) := (Name × fs.Known) ⊕ β

/-- The values for fields, in order. -/
def Fields.valuesOf {β : Type _} (fs : Fields) (es : List (fs.NamedEntry β)) : List fs.Known :=
  es.filterMap fun
    | .inl e => some e.2
    | .inr _ => Option.none

/-- The bytes of an entry. -/
def Fields.encNamed [Host] (o : Options) (env : Env) (m : Mode) (fs : Fields) : fs.NamedEntry Unknown → Enc
  | .inl e => encName (m.fmt o) e.1 +> fs.encKnown o env m e.2
  | .inr u => encName (m.fmt o) u.name +> encode o env m u.ty u.val

/-- The bytes of a document. -/
def Fields.encNamedDoc [Host] (o : Options) (env : Env) (m : Mode) (fs : Fields)
    (es : List (fs.NamedEntry Unknown)) : Enc :=
  (m.fmt o).encMap es.length +> Enc.all (fs.encNamed o env m) es

namespace Json.Spec

/-- The text of a member of an object. -/
def namedMember (env : Env) (fs : Fields) : fs.NamedEntry Name → Bytes → Prop
  | .inl e => MemberL (NameKey e.1) (leadKnown fs e.2) (reprKnown env fs e.2)
  | .inr n => Member (NameKey n) IsValue

end Json.Spec
end Musli
