import Verif.Model.Codec
/-!
# Entries of an encoded struct

A struct is encoded as a map. To talk about maps which hold the fields in any
order, several times or not at all, an entry for a field is described by
`Fields.Known`.
-/
namespace Musli

/-- A field of the struct with a value for it. -/
@[reducible] def Fields.Known : Fields → Type
  | .nil => Empty
  | .cons _ _ _ t fs => t.Val ⊕ fs.Known

/-- The name of the field. -/
def Fields.keyOf : (fs : Fields) → fs.Known → Name
  | .cons n _ _ _ _, .inl _ => n
  | .cons _ _ _ _ fs, .inr k => fs.keyOf k

/-- The fields in which the field has the given value, the others as in `p`. -/
def Fields.set : (fs : Fields) → fs.Known → fs.Partial → fs.Partial
  | .cons _ _ _ _ _, .inl v, p => (some v, p.2)
  | .cons _ _ _ _ fs, .inr k, p => (p.1, fs.set k p.2)

/-- The encoding of the value. -/
def Fields.encKnown [Host] (o : Options) (env : Env) (m : Mode) : (fs : Fields) → fs.Known → Enc
  | .cons _ _ _ t _, .inl v => encD o env t m v
  | .cons _ _ _ _ fs, .inr k => fs.encKnown o env m k

/-- The encoding of the entry: name and value. -/
def Fields.encEntry [Host] (o : Options) (env : Env) (m : Mode) (fs : Fields) (k : fs.Known) : Enc :=
  encName (m.fmt o) (fs.keyOf k) +> fs.encKnown o env m k

/-- The entries written by the derived encoder. -/
def Fields.entries (env : Env) : (fs : Fields) → fs.Val → List fs.Known
  | .nil, _ => []
  | .cons _ _ skip t fs, v =>
    (if fieldPresent env skip t v.1 then [.inl v.1] else []) ++ (fs.entries env v.2).map .inr

end Musli
