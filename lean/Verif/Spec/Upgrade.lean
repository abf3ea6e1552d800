import Verif.Spec.Evolution
/-!
# What a program with other versions of the types should read

`Upgrade s t v w` says: the value `v`, written as type `s`, is to be read as type `t` as the value `w`. Structs
may have fields added, removed and reordered; enums may have variants added, removed and reordered; and this at
any depth, in options, collections, tuples, boxes and fields.
-/
namespace Musli

/-- An entry of a struct, or a variant of an enum, as it is written: name, type and value. -/
structure Written where
  name : Name
  ty : Ty
  val : ty.Val

/-- The fields which are written, in order. -/
def Fields.written (env : Env) : (fs : Fields) → fs.Val → List Written
  | .nil, _ => []
  | .cons n _ skip t fs, v => (if fieldPresent env skip t v.1 then [⟨n, t, v.1⟩] else []) ++ fs.written env v.2

/-- The variant which is written. -/
def Variants.written : (vs : Variants) → vs.Val → Written
  | .nil, v => nomatch v
  | .cons n t _, .inl x => ⟨n, t, x⟩
  | .cons _ _ vs, .inr x => vs.written x

variable (env : Env)

mutual

/-- The value written as the first type is to be read as the second. -/
inductive Upgrade : (s t : Ty) → s.Val → t.Val → Prop
  /-- The type did not change. -/
  | same (t : Ty) (v : t.Val) : Upgrade t t v v
  | none (s t : Ty) : Upgrade (.option s) (.option t) Option.none Option.none
  | some {s t : Ty} {x : s.Val} {y : t.Val} : Upgrade s t x y → Upgrade (.option s) (.option t) (some x) (some y)
  | vec {s t : Ty} {xs : List s.Val} {ys : List t.Val} : UpgradeList s t xs ys → Upgrade (.vec s) (.vec t) xs ys
  | set {s t : Ty} {xs : List s.Val} {ys : List t.Val} : UpgradeList s t xs ys → Upgrade (.set s) (.set t) xs ys
  | vecToSet {s t : Ty} {xs : List s.Val} {ys : List t.Val} :
    UpgradeList s t xs ys → Upgrade (.vec s) (.set t) xs ys
  | setToVec {s t : Ty} {xs : List s.Val} {ys : List t.Val} :
    UpgradeList s t xs ys → Upgrade (.set s) (.vec t) xs ys
  | array {n : Nat} {s t : Ty} {xs : (Ty.array n s).Val} {ys : (Ty.array n t).Val} :
    UpgradeList s t xs.1 ys.1 → Upgrade (.array n s) (.array n t) xs ys
  /-- An array becomes a vector, so that its length can be changed. -/
  | arrayToVec {n : Nat} {s t : Ty} {xs : (Ty.array n s).Val} {ys : List t.Val} :
    UpgradeList s t xs.1 ys → Upgrade (.array n s) (.vec t) xs ys
  | map {k l s t : Ty} {xs : List (k.Val × s.Val)} {ys : List (l.Val × t.Val)} :
    UpgradePairs k l s t xs ys → Upgrade (.map k s) (.map l t) xs ys
  | tuple {ss ts : Tys} {v : ss.Val} {w : ts.Val} : UpgradeTys ss ts v w → Upgrade (.tuple ss) (.tuple ts) v w
  | resultOk {nt : NameTy} {s t s' t' : Ty} {x : s.Val} {y : t.Val} : Upgrade s t x y →
    Upgrade (.result nt s s') (.result nt t t') (.inl x) (.inl y)
  | resultErr {nt : NameTy} {s t s' t' : Ty} {x : s'.Val} {y : t'.Val} : Upgrade s' t' x y →
    Upgrade (.result nt s s') (.result nt t t') (.inr x) (.inr y)
  /-- `Box`, `Rc` and `Arc` can be added and removed. -/
  | unbox {s t : Ty} {x : s.Val} {y : t.Val} : Upgrade s t x y → Upgrade (.boxed s) t x y
  | box {s t : Ty} {x : s.Val} {y : t.Val} : Upgrade s t x y → Upgrade s (.boxed t) x y
  /-- And so can newtypes. -/
  | unwrap {s t : Ty} {x : s.Val} {y : t.Val} : Upgrade s t x y → Upgrade (.transparent s) t x y
  | wrap {s t : Ty} {x : s.Val} {y : t.Val} : Upgrade s t x y → Upgrade s (.transparent t) x y
  | unwrapping {s t : Ty} {x : s.Val} {y : t.Val} : Upgrade s t x y → Upgrade (.wrapping s) t x y
  | wrapping {s t : Ty} {x : s.Val} {y : t.Val} : Upgrade s t x y → Upgrade s (.wrapping t) x y
  | strct {nt : NameTy} {gs fs : Fields} {v : gs.Val} {w : fs.Val} : UpgradeFields (gs.written env v) fs w →
    Upgrade (.strct nt gs) (.strct nt fs) v w
  /-- A unit struct or variant gets fields. -/
  | grow {nt : NameTy} {fs : Fields} {w : fs.Val} : UpgradeFields [] fs w → Upgrade .unitStruct (.strct nt fs) () w
  /-- All fields of a struct or variant are removed. -/
  | shrink {nt : NameTy} {gs : Fields} (v : gs.Val) : Upgrade (.strct nt gs) .unitStruct v ()
  | unitEnum {nt : NameTy} {names names' : List Name} {i : Fin names.length} {j : Fin names'.length} :
    names[i] = names'[j] → Upgrade (.unitEnum nt names) (.unitEnum nt names') i j
  | enm {nt : NameTy} {us vs : Variants} {v : us.Val} {w : vs.Val} : UpgradeVariants (us.written v) vs w →
    Upgrade (.enm nt us) (.enm nt vs) v w

/-- Element by element. -/
inductive UpgradeList : (s t : Ty) → List s.Val → List t.Val → Prop
  | nil (s t : Ty) : UpgradeList s t [] []
  | cons {s t : Ty} {x : s.Val} {y : t.Val} {xs : List s.Val} {ys : List t.Val} : Upgrade s t x y →
    UpgradeList s t xs ys → UpgradeList s t (x :: xs) (y :: ys)

/-- Entry by entry. -/
inductive UpgradePairs : (k l s t : Ty) → List (k.Val × s.Val) → List (l.Val × t.Val) → Prop
  | nil (k l s t : Ty) : UpgradePairs k l s t [] []
  | cons {k l s t : Ty} {a : k.Val} {b : l.Val} {x : s.Val} {y : t.Val} {xs : List (k.Val × s.Val)}
    {ys : List (l.Val × t.Val)} : Upgrade k l a b → Upgrade s t x y → UpgradePairs k l s t xs ys →
    UpgradePairs k l s t ((a, x) :: xs) ((b, y) :: ys)

/-- Component by component. -/
inductive UpgradeTys : (ss ts : Tys) → ss.Val → ts.Val → Prop
  | nil : UpgradeTys .nil .nil () ()
  | cons {s t : Ty} {ss ts : Tys} {x : s.Val} {y : t.Val} {xs : ss.Val} {ys : ts.Val} : Upgrade s t x y →
    UpgradeTys ss ts xs ys → UpgradeTys (.cons s ss) (.cons t ts) (x, xs) (y, ys)

/-- Each field is read from the entry of its name if there is one; otherwise it has its default. Other entries
are ignored. -/
inductive UpgradeFields : List Written → (fs : Fields) → fs.Val → Prop
  | nil (es : List Written) : UpgradeFields es .nil ()
  | found {es : List Written} {e : Written} {n : Name} {d sk : Option Nat} {t : Ty} {fs : Fields} {y : t.Val}
    {ys : fs.Val} : e ∈ es → e.name = n → Upgrade e.ty t e.val y → UpgradeFields es fs ys →
    UpgradeFields es (.cons n d sk t fs) (y, ys)
  | absent {es : List Written} {n : Name} {d sk : Option Nat} {t : Ty} {fs : Fields} {y : t.Val} {ys : fs.Val} :
    (∀ e ∈ es, e.name ≠ n) → missing env d t = .ok y → UpgradeFields es fs ys →
    UpgradeFields es (.cons n d sk t fs) (y, ys)

/-- The variant is read as the variant of its name. -/
inductive UpgradeVariants : Written → (vs : Variants) → vs.Val → Prop
  | here {e : Written} {t : Ty} {vs : Variants} {y : t.Val} : Upgrade e.ty t e.val y →
    UpgradeVariants e (.cons e.name t vs) (.inl y)
  | there {e : Written} {n : Name} {t : Ty} {vs : Variants} {y : vs.Val} : n ≠ e.name → UpgradeVariants e vs y →
    UpgradeVariants e (.cons n t vs) (.inr y)

end

end Musli
