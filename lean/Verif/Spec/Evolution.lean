import Verif.Spec.Supported
import Verif.Spec.Entries
import Verif.Spec.Skippable
/-!
# What decoding a struct from an arbitrary list of entries should give
-/
namespace Musli

/-- A field that did not arrive has its default; without one it is an error. -/
def missing (env : Env) (dflt : Option Nat) (t : Ty) : Except Err t.Val :=
  match dflt with
  | none => .error .missing
  | some k => match env.dflt k t with
    | some v => .ok v
    | none => .error .missing

/-- The struct made from the entries that arrived: every field has the value that
arrived last for it. -/
def Fields.assemble (env : Env) : (fs : Fields) → List fs.Known → Except Err fs.Val
  | .nil, _ => .ok ()
  | .cons _ dflt _ t fs, ks =>
    let head : Except Err t.Val := match (ks.filterMap Sum.getLeft?).getLast? with
      | some v => .ok v
      | .none => missing env dflt t
    match head with
    | .error e => .error e
    | .ok v => match fs.assemble env (ks.filterMap Sum.getRight?) with
      | .error e => .error e
      | .ok w => .ok (v, w)

/-- An entry the struct knows nothing about: a name and a value of any type. -/
structure Unknown where
  name : Name
  ty : Ty
  val : ty.Val

/-- An entry of a document for a struct. -/
abbrev Fields.Entry (fs : Fields) := fs.Known ⊕ Unknown

/-- The bytes of an entry. -/
def Fields.encAny [Host] (o : Options) (env : Env) (m : Mode) (fs : Fields) : fs.Entry → Enc
  | .inl k => fs.encEntry o env m k
  | .inr u => encName (m.fmt o) u.name +> encode o env m u.ty u.val

/-- The bytes of a document: the number of entries and the entries. -/
def Fields.encDoc [Host] (o : Options) (env : Env) (m : Mode) (fs : Fields) (es : List fs.Entry) : Enc :=
  (m.fmt o).encMap es.length +> Enc.all (fs.encAny o env m) es

end Musli
