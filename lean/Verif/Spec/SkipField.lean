import Verif.Model.SkipField
import Verif.Spec.Supported
/-!
# What skipped fields are
-/
namespace Musli

/-- The struct without its skipped fields. -/
def AllFields.visible : (fs : AllFields) → fs.Val → fs.unskipped.Val
  | .nil, _ => ()
  | .field _ _ _ _ fs, v => (v.1, fs.visible v.2)
  | .skipped _ _ fs, v => fs.visible v.2

/-- The skipped fields have their initial values. -/
def AllFields.Fresh (env : Env) : (fs : AllFields) → fs.Val → Prop
  | .nil, _ => True
  | .field _ _ _ _ fs, v => fs.Fresh env v.2
  | .skipped i t fs, v => env.dflt i t = some v.1 ∧ fs.Fresh env v.2

/-- The functions for the initial values return. -/
def AllFields.Inits (env : Env) : AllFields → Prop
  | .nil => True
  | .field _ _ _ _ fs => fs.Inits env
  | .skipped i t fs => (env.dflt i t).isSome = true ∧ fs.Inits env

/-- The number of fields which are written. -/
def writtenCount (env : Env) : (fs : Fields) → fs.Val → Nat
  | .nil, _ => 0
  | .cons _ _ none _ fs, v => writtenCount env fs v.2 + 1
  | .cons _ _ (some k) t fs, v => if env.skipIf k t v.1 then writtenCount env fs v.2 else writtenCount env fs v.2 + 1

/-- If fields of the variant have `skip_encoding_if`, exactly `k` fields are written. -/
def Variants.Writes (env : Env) (k : Nat) : (vs : Variants) → vs.Val → Prop
  | .nil, v => nomatch v
  | .cons _ t vs, v =>
    match t, v with
    | .strct _ fs, .inl x => fs.dynamic = true → writtenCount env fs x = k
    | _, .inl _ => True
    | _, .inr x => vs.Writes env k x

/-- The fields which are not skipped, with their values. -/
def Fields.shrink (env : Env) : (fs : Fields) → fs.Val → (gs : Fields) × gs.Val
  | .nil, _ => ⟨.nil, ()⟩
  | .cons n d Option.none t fs, v => ⟨.cons n d Option.none t (fs.shrink env v.2).1, (v.1, (fs.shrink env v.2).2)⟩
  | .cons n d (some k) t fs, v =>
    if env.skipIf k t v.1 then fs.shrink env v.2
    else ⟨.cons n d Option.none t (fs.shrink env v.2).1, (v.1, (fs.shrink env v.2).2)⟩

end Musli
