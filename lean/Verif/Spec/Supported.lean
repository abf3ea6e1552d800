import Verif.Model.Codec
/-!
# Which types a format can round-trip

`Ty.ok` is a computable condition on a type: it can be evaluated for any concrete
type. It consists of

* conditions which the derive macro or the compiler enforce: names of fields
  and variants are distinct and of the declared type;
* for the packed mode: options take no space, so they must come last and their
  payload must not be empty;
* when the options select the bitwise fast path (`native`): the conditions
  under which the encoder and the decoder agree on using it. Without the fast path
  (`native = false`, the default of storage, and always for wire and
  descriptive) they are void.
-/
namespace Musli

/-- Does the format copy bits when `is_native_fixed` holds? -/
def Mode.fast (native : Bool) : Mode → Bool
  | .storage => native
  | .packed => native
  | _ => false

/-- Primitives of one byte, for which byte order does not matter. -/
def Prim.oneByte : Prim → Bool
  | .bool => true
  | .uint .w8 => true
  | .sint .w8 => true
  | _ => false

mutual
/-- The direct decoder understands the bytes of the value in memory (`host`: the
configured byte order is that of the machine). -/
def Ty.rd (host : Bool) : Ty → Bool
  | .prim p => host || p.oneByte
  | .nonZero _ _ => true
  | .wrapping t => t.bwD || t.rd host
  | .packed lay fs => (lay && fs.bwD) || fs.rd host
  | _ => false
/-- All fields satisfy `Ty.rd`. -/
def Fields.rd (host : Bool) : Fields → Bool
  | .nil => true
  | .cons _ _ _ t fs => t.rd host && fs.rd host
end

/-- The direct encoding is the bytes of the value in memory. -/
def Ty.dr (host : Bool) : Ty → Bool
  | .prim p => host || p.oneByte
  | .wrapping t => t.dr host
  | .packed _ _ => true
  | _ => false

mutual
/-- Every value occupies memory. -/
def Ty.rawNonempty : Ty → Bool
  | .prim _ => true
  | .nonZero _ _ => true
  | .array n t => n != 0 && t.rawNonempty
  | .wrapping t => t.rawNonempty
  | .packed _ fs => fs.rawNonempty
  | _ => false
/-- Some field occupies memory. -/
def Fields.rawNonempty : Fields → Bool
  | .nil => false
  | .cons _ _ _ t fs => t.rawNonempty || fs.rawNonempty
end

mutual
/-- Every value is encoded in at least one byte in the packed format. -/
def Ty.nonempty (native : Bool) : Ty → Bool
  | .byteArray n => n != 0
  | .option _ => false
  | .boxed t => t.nonempty native
  | .wrapping t => t.nonempty native
  | .transparent t => t.nonempty native
  | .packed lay fs => if native && (lay && fs.bwE) then fs.rawNonempty else fs.nonempty native
  | _ => true
/-- Some field is encoded in at least one byte. -/
def Fields.nonempty (native : Bool) : Fields → Bool
  | .nil => false
  | .cons _ _ skip t fs => (skip.isNone && t.nonempty native) || fs.nonempty native
end

/-- Names are distinct and have the declared type. -/
def namesOk (nt : NameTy) (l : List Name) : Bool :=
  decide l.Nodup && l.all (fun n => n.ty == nt)

/-- There are no more elements. -/
def Tys.isNil : Tys → Bool
  | .nil => true
  | .cons _ _ => false

/-- There are no more fields. -/
def Fields.isNil : Fields → Bool
  | .nil => true
  | .cons _ _ _ _ _ => false

mutual

/-- The type round-trips in format `m`; `tail` says that nothing follows the value. -/
def Ty.ok (native host : Bool) : Ty → Mode → Bool → Bool
  | .prim _, _, _ => true
  | .nonZero s w, m, _ => !m.fast native || host || (nonZeroPrim s w).oneByte
  | .unit, _, _ => true
  | .bytes, _, _ => true
  | .string, _, _ => true
  | .byteArray _, _, _ => true
  | .option t, m, tail =>
    (m != .packed || (tail && if m.fast native && t.bwE then t.rawNonempty else t.nonempty native))
      && (if m.fast native && t.bwE then t.bwD || t.rd host else t.ok native host m tail)
  | .array _ t, m, _ =>
    if m.fast native && t.bwE then host && (t.bwD || t.rd host) else t.ok native host m false
  | .vec t, m, _ =>
    if m.fast native && t.bwE then t.bwD || (host && t.rd host) else t.ok native host m false
  | .set t, m, _ =>
    if m.fast native && t.bwE then t.bwD || t.rd host else t.ok native host m false
  | .map k t, m, _ =>
    (if m.fast native && k.bwE then k.bwD || k.rd host else k.ok native host m false) &&
    (if m.fast native && t.bwE then t.bwD || t.rd host else t.ok native host m false)
  | .tuple ts, m, tail => ts.ok native host m tail
  | .result _ t u, m, tail =>
    (if m.fast native && t.bwE then t.bwD || t.rd host else t.ok native host m tail) &&
    (if m.fast native && u.bwE then u.bwD || u.rd host else u.ok native host m tail)
  | .boxed t, m, tail => if m.fast native && t.bwD then t.dr host else t.ok native host m tail
  | .wrapping t, m, tail => if m.fast native && t.bwD then t.dr host else t.ok native host m tail
  | .transparent t, m, tail => t.ok native host m tail
  | .unitStruct, _, _ => true
  | .strct nt fs, m, _ => namesOk nt fs.names && fs.ok native host m
  | .packed lay fs, m, tail =>
    if m.fast native && (lay && fs.bwE) then fs.bwD || fs.rd host
    else fs.packOk native host (tail || m == .wire || m == .descriptive)
  | .unitEnum nt names, _, _ => namesOk nt names
  | .enm nt vs, m, tail => namesOk nt vs.names && vs.ok native host m tail

/-- The elements of a tuple. -/
def Tys.ok (native host : Bool) : Tys → Mode → Bool → Bool
  | .nil, _, _ => true
  | .cons t ts, m, tail =>
    (if m.fast native && t.bwE then t.bwD || t.rd host
      else t.ok native host m (tail && ts.isNil)) &&
    ts.ok native host m tail

/-- The fields of a struct. A field which may be left out must have a default. -/
def Fields.ok (native host : Bool) : Fields → Mode → Bool
  | .nil, _ => true
  | .cons _ dflt skip t fs, m =>
    (skip.isNone || dflt.isSome) && t.ok native host m false && fs.ok native host m

/-- The fields of a packed struct, all of which are present. -/
def Fields.packOk (native host : Bool) : Fields → Bool → Bool
  | .nil, _ => true
  | .cons _ _ skip t fs, tail =>
    skip.isNone &&
    t.ok native host .packed (tail && fs.isNil) &&
    fs.packOk native host tail

/-- The bodies of variants. Their fields have no `skip_encoding_if`: with it, the number
of entries is wrong (C121). -/
def Variants.ok (native host : Bool) : Variants → Mode → Bool → Bool
  | .nil, _, _ => true
  | .cons _ t vs, m, tail => (t.ok native host m tail && !t.dynamic) && vs.ok native host m tail

end

mutual

/-- No variant has fields with `skip_encoding_if`: the number of entries which is written
for these is wrong (C121). -/
def Ty.counted : Ty → Bool
  | .option t => t.counted
  | .array _ t => t.counted
  | .vec t => t.counted
  | .set t => t.counted
  | .map k t => k.counted && t.counted
  | .tuple ts => ts.counted
  | .result _ t u => t.counted && u.counted
  | .boxed t => t.counted
  | .wrapping t => t.counted
  | .transparent t => t.counted
  | .strct _ fs => fs.counted
  | .enm _ vs => vs.counted
  | _ => true

/-- As above. -/
def Tys.counted : Tys → Bool
  | .nil => true
  | .cons t ts => t.counted && ts.counted

/-- As above. -/
def Fields.counted : Fields → Bool
  | .nil => true
  | .cons _ _ _ t fs => t.counted && fs.counted

/-- As above. -/
def Variants.counted : Variants → Bool
  | .nil => true
  | .cons _ t vs => (t.counted && !t.dynamic) && vs.counted

end

mutual

/-- Where `skip_encoding_if` leaves a field out, its default is the value that was
left out. -/
def Ty.envOk (env : Env) : Ty → Prop
  | .option t => t.envOk env
  | .array _ t => t.envOk env
  | .vec t => t.envOk env
  | .set t => t.envOk env
  | .map k t => k.envOk env ∧ t.envOk env
  | .tuple ts => ts.envOk env
  | .result _ t u => t.envOk env ∧ u.envOk env
  | .boxed t => t.envOk env
  | .wrapping t => t.envOk env
  | .transparent t => t.envOk env
  | .strct _ fs => fs.envOk env
  | .packed _ fs => fs.envOk env
  | .enm _ vs => vs.envOk env
  | _ => True

/-- As above. -/
def Tys.envOk (env : Env) : Tys → Prop
  | .nil => True
  | .cons t ts => t.envOk env ∧ ts.envOk env

/-- As above. -/
def Fields.envOk (env : Env) : Fields → Prop
  | .nil => True
  | .cons _ dflt skip t fs =>
    (match skip, dflt with
      | some k, some d => ∀ v : t.Val, env.skipIf k t v = true → env.dflt d t = some v
      | _, _ => True) ∧ t.envOk env ∧ fs.envOk env

/-- As above. -/
def Variants.envOk (env : Env) : Variants → Prop
  | .nil => True
  | .cons _ t vs => t.envOk env ∧ vs.envOk env

end

/-- Every field that can be left out has a default. -/
def Fields.skipOk : Fields → Bool
  | .nil => true
  | .cons _ dflt skip _ fs => (skip.isNone || dflt.isSome) && fs.skipOk

/-- No field can be left out. -/
def Fields.neverSkip : Fields → Bool
  | .nil => true
  | .cons _ _ skip _ fs => skip.isNone && fs.neverSkip

/-- The configured byte order is that of the machine. -/
def hostOrder [Host] (o : Options) : Bool := Opt.byteorder o == Host.order

/-- The conditions that do not concern the bitwise fast path: names are distinct and
have the declared type, fields that may be left out have a default, and options
inside of packed structs come last. -/
def WellFormedTy (m : Mode) (t : Ty) : Bool := t.ok false false m false

/-- The bodies of variants round-trip, with `skip_encoding_if` or without. -/
def Variants.bodiesOk (N H : Bool) (m : Mode) (tail : Bool) : Variants → Bool
  | .nil => true
  | .cons _ t vs => t.ok N H m tail && vs.bodiesOk N H m tail

/-- `t` round-trips in format `m` with options `o`, wherever it is placed. -/
def Supported [Host] (o : Options) (m : Mode) (t : Ty) : Bool :=
  t.ok (Opt.isNativeFixed o) (hostOrder o) m false

end Musli
