import Verif.Model.Serde
import Verif.Spec.Evolution
/-!
# Which serde types the bridge can round-trip, and which agree with Müsli's own
-/
namespace Musli.Serde

/-- The type as serde sees it does not vanish in the packed format: it is not an
option, nor a wrapper around one. -/
def nonempty : Ty → Bool
  | .option _ => false
  | .boxed t => nonempty t
  | .wrapping t => nonempty t
  | .transparent t => nonempty t
  | _ => true

mutual

/-- A serde type: names of fields and variants are distinct strings. In the packed
format, where options take no space, an option must come last (`tail`) and its
payload must not vanish. -/
def ok : Ty → Mode → Bool → Bool
  | .prim _, _, _ => true
  | .nonZero _ _, _, _ => true
  | .unit, _, _ => true
  | .bytes, _, _ => true
  | .string, _, _ => true
  | .byteArray _, _, _ => false
  | .option t, m, tail => (m != .packed || (tail && nonempty t)) && ok t m tail
  | .array _ t, m, _ => ok t m false
  | .vec t, m, _ => ok t m false
  | .set t, m, _ => ok t m false
  | .map k t, m, _ => ok k m false && ok t m false
  | .tuple ts, m, tail => okTys ts m tail
  | .result _ t u, m, tail => ok t m tail && ok u m tail
  | .boxed t, m, tail => ok t m tail
  | .wrapping t, m, tail => ok t m tail
  | .transparent t, m, tail => ok t m tail
  | .unitStruct, _, _ => true
  | .strct _ fs, m, _ => namesOk .str fs.names && okFields fs m
  | .packed _ _, _, _ => false
  | .unitEnum _ names, _, _ => namesOk .str names
  | .enm _ vs, m, tail => namesOk .str vs.names && okVariants vs m tail

/-- The elements of a tuple. -/
def okTys : Tys → Mode → Bool → Bool
  | .nil, _, _ => true
  | .cons t ts, m, tail => ok t m (tail && ts.isNil) && okTys ts m tail

/-- The fields of a struct. -/
def okFields : Fields → Mode → Bool
  | .nil, _ => true
  | .cons _ _ _ t fs, m => ok t m false && okFields fs m

/-- The bodies of variants. -/
def okVariants : Variants → Mode → Bool → Bool
  | .nil, _, _ => true
  | .cons _ t vs, m, tail => ok t m tail && okVariants vs m tail

end

/-- What a field without a default is when it did not arrive: `None` if its type is an
`Option`, whatever boxes are around it. Fields of other types are required. -/
inductive Absent : (t : Ty) → t.Val → Prop
  | option (t : Ty) : Absent (.option t) none
  | boxed (t : Ty) (v : t.Val) (h : Absent t v) : Absent (.boxed t) v
  | wrapping (t : Ty) (v : t.Val) (h : Absent t v) : Absent (.wrapping t) v

/-- The type is an `Option`, whatever boxes are around it. -/
def optional : Ty → Bool
  | .option _ => true
  | .boxed t => optional t
  | .wrapping t => optional t
  | _ => false

mutual

/-- Where `skip_serializing_if` leaves a field out, the field gets the same value
when it is missing: from `#[serde(default)]`, or, without it, `None` if it is an
option. -/
def envOk (env : Env) : Ty → Prop
  | .option t => envOk env t
  | .array _ t => envOk env t
  | .vec t => envOk env t
  | .set t => envOk env t
  | .map k t => envOk env k ∧ envOk env t
  | .tuple ts => envOkTys env ts
  | .result _ t u => envOk env t ∧ envOk env u
  | .boxed t => envOk env t
  | .wrapping t => envOk env t
  | .transparent t => envOk env t
  | .strct _ fs => envOkFields env fs
  | .enm _ vs => envOkVariants env vs
  | _ => True

/-- As above. -/
def envOkTys (env : Env) : Tys → Prop
  | .nil => True
  | .cons t ts => envOk env t ∧ envOkTys env ts

/-- As above. -/
def envOkFields (env : Env) : Fields → Prop
  | .nil => True
  | .cons _ dflt skip t fs =>
    (∀ k, skip = some k → ∀ v : t.Val, env.skipIf k t v = true →
      match dflt with
      | some d => env.dflt d t = some v
      | none => Absent t v) ∧
    envOk env t ∧ envOkFields env fs

/-- As above. -/
def envOkVariants (env : Env) : Variants → Prop
  | .nil => True
  | .cons _ t vs => envOk env t ∧ envOkVariants env vs

end

mutual

/-- Serde and Müsli look at the type the same way: no `usize` and `isize` (serde
has `u64` and `i64` in their place), no unit structs, unit variants and packed
structs, and names are strings. -/
def compat : Ty → Bool
  | .prim p => p != .usize && p != .isize
  | .nonZero _ _ => true
  | .unit => true
  | .bytes => true
  | .string => true
  | .byteArray _ => false
  | .option t => compat t
  | .array _ t => compat t
  | .vec t => compat t
  | .set t => compat t
  | .map k t => compat k && compat t
  | .tuple ts => compatTys ts
  | .result nt t u => nt == .str && compat t && compat u
  | .boxed t => compat t
  | .wrapping t => compat t
  | .transparent t => compat t
  | .unitStruct => false
  | .strct nt fs => nt == .str && fs.names.all (fun n => n.ty == .str) && compatFields fs
  | .packed _ _ => false
  | .unitEnum _ _ => false
  | .enm nt vs => nt == .str && vs.names.all (fun n => n.ty == .str) && compatVariants vs

/-- As above. -/
def compatTys : Tys → Bool
  | .nil => true
  | .cons t ts => compat t && compatTys ts

/-- As above. -/
def compatFields : Fields → Bool
  | .nil => true
  | .cons _ _ _ t fs => compat t && compatFields fs

/-- As above. Müsli announces a wrong number of fields in a variant with `skip_encoding_if`. -/
def compatVariants : Variants → Bool
  | .nil => true
  | .cons _ t vs => (compat t && !t.dynamic) && compatVariants vs

end

mutual

/-- Serde does not accept what Müsli rejects: every option that is a field has a
default (serde takes a missing option as `None` anyway), and there are no arrays
in formats that can skip the rest of a sequence (serde ignores what follows the
last element, Müsli does not). -/
def strict : Ty → Mode → Bool
  | .option t, m => strict t m
  | .array _ t, m => (m == .storage || m == .packed) && strict t m
  | .vec t, m => strict t m
  | .set t, m => strict t m
  | .map k t, m => strict k m && strict t m
  | .tuple ts, m => strictTys ts m
  | .result _ t u, m => strict t m && strict u m
  | .boxed t, m => strict t m
  | .wrapping t, m => strict t m
  | .transparent t, m => strict t m
  | .strct _ fs, m => strictFields fs m
  | .enm _ vs, m => strictVariants vs m
  | _, _ => true

/-- As above. -/
def strictTys : Tys → Mode → Bool
  | .nil, _ => true
  | .cons t ts, m => strict t m && strictTys ts m

/-- As above. -/
def strictFields : Fields → Mode → Bool
  | .nil, _ => true
  | .cons _ dflt _ t fs, m => (dflt.isSome || !optional t) && strict t m && strictFields fs m

/-- As above. -/
def strictVariants : Variants → Mode → Bool
  | .nil, _ => true
  | .cons _ t vs, m => strict t m && strictVariants vs m

end

/-! ## Documents for a struct -/

section
variable [Host] (o : Options) (env : Env)

/-- The encoding of the value of a field. -/
def encKnown (m : Mode) : (fs : Fields) → fs.Known → Enc
  | .cons _ _ _ t _, .inl v => ser o env t m v
  | .cons _ _ _ _ fs, .inr k => encKnown m fs k

/-- The encoding of a field: name and value. -/
def encEntry (m : Mode) (fs : Fields) (k : fs.Known) : Enc :=
  encKey (m.fmt o) (fs.keyOf k) +> encKnown o env m fs k

/-- The bytes of an entry: a field, or something the struct knows nothing about. -/
def encAny (m : Mode) (fs : Fields) : fs.Entry → Enc
  | .inl k => encEntry o env m fs k
  | .inr u => encName (m.fmt o) u.name +> Musli.encode o env m u.ty u.val

/-- The bytes of a document: the number of entries and the entries. -/
def encDoc (m : Mode) (fs : Fields) (es : List fs.Entry) : Enc :=
  (m.fmt o).encMap es.length +> Enc.all (encAny o env m fs) es

end

/-- The value of a field: what came for it; if nothing came its default, and without a default
`None`, if it is optional. -/
def FieldIs (env : Env) (dflt : Option Nat) (t : Ty) (v : t.Val) : Option t.Val → Prop
  | some x => v = x
  | none => match dflt with
    | some k => env.dflt k t = some v
    | none => Absent t v

/-- The struct is made from the entries that arrived. -/
def Assembled (env : Env) : (fs : Fields) → List fs.Known → fs.Val → Prop
  | .nil, _, _ => True
  | .cons _ dflt _ t fs, ks, v =>
    FieldIs env dflt t v.1 (ks.filterMap Sum.getLeft?).getLast? ∧
    Assembled env fs (ks.filterMap Sum.getRight?) v.2

end Musli.Serde
