import Verif.Spec.Supported
/-!
# What can be an element of a pack
-/
namespace Musli.PackedField
open Musli

/-- The formats in which the end of a pack is known without looking into it. -/
def delimits : Mode → Bool
  | .storage => false
  | .packed => false
  | .wire => true
  | .descriptive => true

/-- `t` round-trips as an element of a pack, whatever follows it. With options other than
the native ones this is `WellFormedTy .packed t`. -/
def Packable [Host] (o : Options) (t : Ty) : Bool :=
  if Opt.isNativeFixed o && t.bwE then t.bwD || t.rd (hostOrder o)
  else t.ok (Opt.isNativeFixed o) (hostOrder o) .packed false

/-- `ts` round-trip as the elements of a pack; the last one may be an option if the end of
the pack is known. -/
def PackableAll [Host] (o : Options) (m : Mode) (ts : Tys) : Bool :=
  ts.ok (Opt.isNativeFixed o) (hostOrder o) .packed (delimits m)

/-- The fields of a struct with these types, named `names`, all of which are written. -/
def fieldsOf : Tys → List Name → Fields
  | .nil, _ => .nil
  | .cons t ts, [] => .cons (.idx 0#64) none none t (fieldsOf ts [])
  | .cons t ts, n :: names => .cons n none none t (fieldsOf ts names)

/-- The fields of the struct with the elements of a tuple. -/
def toFields : (ts : Tys) → (names : List Name) → ts.Val → (fieldsOf ts names).Val
  | .nil, _, _ => ()
  | .cons _ ts, [], v => (v.1, toFields ts [] v.2)
  | .cons _ ts, _ :: names, v => (v.1, toFields ts names v.2)

end Musli.PackedField
