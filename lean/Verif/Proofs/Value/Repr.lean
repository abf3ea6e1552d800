import Verif.Spec.Value
import Verif.Proofs.RoundTrip
/-!
# What a value looks like as a `Value`
-/
set_option linter.unusedSectionVars false
namespace Musli

/-- All elements. -/
def reprAll {α} (f : α → Except Err Value) : List α → Except Err (List Value)
  | [] => .ok []
  | a :: l =>
    match f a with
    | .error e => .error e
    | .ok w => match reprAll f l with
      | .error e => .error e
      | .ok vs => .ok (w :: vs)

/-- All entries. -/
def reprPairs {α} (f g : α → Except Err Value) : List α → Except Err (List (Value × Value))
  | [] => .ok []
  | a :: l =>
    match f a with
    | .error e => .error e
    | .ok k => match g a with
      | .error e => .error e
      | .ok v => match reprPairs f g l with
        | .error e => .error e
        | .ok vs => .ok ((k, v) :: vs)

def emap {α β} (f : α → β) : Except Err α → Except Err β
  | .ok a => .ok (f a)
  | .error e => .error e

section
variable [Host] (o : Options) (env : Env)

mutual

def reprV : (t : Ty) → t.Val → Except Err Value
  | .prim p, v => .ok (primV p v)
  | .nonZero s w, v => .ok (primV (nonZeroPrim s w) (nonZeroRaw s w v.1))
  | .unit, _ => .ok .unit
  | .bytes, v => .ok (.bytes v)
  | .string, v => .ok (.string v)
  | .byteArray _, v => .ok (.bytes v.1)
  | .option t, v =>
    match v with
    | none => .ok .none
    | some x => emap .some (reprV t x)
  | .array _ t, v => emap .seq (reprAll (reprV t) v.1)
  | .vec t, v => emap .seq (reprAll (reprV t) v)
  | .set t, v => emap .seq (reprAll (reprV t) v)
  | .map k t, v => emap .map (reprPairs (fun x => reprV k x.1) (fun x => reprV t x.2) v)
  | .tuple ts, v => emap .seq (reprTys ts v)
  | .result nt t u, v =>
    match v with
    | .inl x => emap (.variant (nameV (resultName nt true))) (reprV t x)
    | .inr x => emap (.variant (nameV (resultName nt false))) (reprV u x)
  | .boxed t, v => reprV t v
  | .wrapping t, v => reprV t v
  | .transparent t, v => reprV t v
  | .unitStruct, _ => .ok (.map [])
  | .strct _ fs, v => emap .map (reprFields fs v)
  | .packed _ fs, v => emap .bytes (encPackFields o env fs .packed v)
  | .unitEnum _ names, v => .ok (nameV names[v])
  | .enm _ vs, v => reprVariants vs v

def reprTys : (ts : Tys) → ts.Val → Except Err (List Value)
  | .nil, _ => .ok []
  | .cons t ts, v =>
    match reprV t v.1 with
    | .error e => .error e
    | .ok w => match reprTys ts v.2 with
      | .error e => .error e
      | .ok vs => .ok (w :: vs)

def reprFields : (fs : Fields) → fs.Val → Except Err (List (Value × Value))
  | .nil, _ => .ok []
  | .cons n _ skip t fs, v =>
    if fieldPresent env skip t v.1 then
      match reprV t v.1 with
      | .error e => .error e
      | .ok w => match reprFields fs v.2 with
        | .error e => .error e
        | .ok vs => .ok ((nameV n, w) :: vs)
    else reprFields fs v.2

def reprVariants : (vs : Variants) → vs.Val → Except Err Value
  | .nil, v => nomatch v
  | .cons n t vs, v =>
    match v with
    | .inl x => emap (.variant (nameV n)) (reprV t x)
    | .inr x => reprVariants vs x

end

/-! ## The encoder -/

theorem pushAll_eq {α} {f : α → Out} {g : α → Except Err Value} (h : ∀ a, f a = emap some (g a)) :
    ∀ l, pushAll f l = reprAll g l
  | [] => rfl
  | a :: l => by
    simp only [pushAll, reprAll, h a, pushAll_eq h l]
    cases g a with
    | error e => rfl
    | ok w =>
      cases reprAll g l with
      | error e => rfl
      | ok vs => rfl

theorem pairAll_eq {α} {f g : α → Out} {f' g' : α → Except Err Value}
    (hf : ∀ a, (f a).slot = f' a) (hg : ∀ a, (g a).slot = g' a) :
    ∀ l, pairAll f g l = reprPairs f' g' l
  | [] => rfl
  | a :: l => by simp only [pairAll, reprPairs, hf a, hg a, pairAll_eq hf hg l]; rfl

theorem outSeq_eq {x y : Except Err (List Value)} (h : x = y) :
    (outSeq x).slot = emap .seq y ∧ outSeq x = emap some (emap .seq y) := by
  subst h; cases x <;> exact ⟨rfl, rfl⟩

theorem outMap_eq {x y : Except Err (List (Value × Value))} (h : x = y) :
    (outMap x).slot = emap .map y ∧ outMap x = emap some (emap .map y) := by
  subst h; cases x <;> exact ⟨rfl, rfl⟩

theorem outBytes_eq (x : Enc) :
    (outBytes x).slot = emap .bytes x ∧ outBytes x = emap some (emap .bytes x) := by
  cases x <;> exact ⟨rfl, rfl⟩

theorem outVariant_eq {n : Value} {x : Out} {y : Except Err Value} (h : x.slot = y) :
    (outVariant n x).slot = emap (.variant n) y ∧
      outVariant n x = emap some (emap (.variant n) y) := by
  subst h
  unfold outVariant
  cases x.slot <;> exact ⟨rfl, rfl⟩

mutual

theorem encV_eq : ∀ (t : Ty) (v : t.Val), t.unitFree = true →
    (encV o env t v).slot = reprV o env t v ∧
      (t.writes = true → encV o env t v = emap some (reprV o env t v))
  | .prim p, v, _ => ⟨by simp only [encV, reprV]; rfl, fun _ => by simp only [encV, reprV]; rfl⟩
  | .nonZero s w, v, _ => ⟨by simp only [encV, reprV]; rfl, fun _ => by simp only [encV, reprV]; rfl⟩
  | .unit, v, _ => ⟨by simp only [encV, reprV]; rfl, fun h => by simp [Ty.writes] at h⟩
  | .bytes, v, _ => ⟨by simp only [encV, reprV]; rfl, fun _ => by simp only [encV, reprV]; rfl⟩
  | .string, v, _ => ⟨by simp only [encV, reprV]; rfl, fun _ => by simp only [encV, reprV]; rfl⟩
  | .byteArray _, v, _ => ⟨by simp only [encV, reprV]; rfl, fun _ => by simp only [encV, reprV]; rfl⟩
  | .option t, v, h => by
    simp only [Ty.unitFree, Bool.and_eq_true] at h
    cases v with
    | none => exact ⟨by simp only [encV, reprV]; rfl, fun _ => by simp only [encV, reprV]; rfl⟩
    | some x =>
      have := (encV_eq t x h.2).2 h.1
      simp only [encV, reprV, this]
      cases reprV o env t x <;> exact ⟨rfl, fun _ => rfl⟩
  | .array _ t, v, h => by
    simp only [Ty.unitFree, Bool.and_eq_true] at h
    have := outSeq_eq (pushAll_eq (fun x => (encV_eq t x h.2).2 h.1) v.1)
    simp only [encV, reprV]
    exact ⟨this.1, fun _ => this.2⟩
  | .vec t, v, h => by
    simp only [Ty.unitFree, Bool.and_eq_true] at h
    have := outSeq_eq (pushAll_eq (fun x => (encV_eq t x h.2).2 h.1) v)
    simp only [encV, reprV]
    exact ⟨this.1, fun _ => this.2⟩
  | .set t, v, h => by
    simp only [Ty.unitFree, Bool.and_eq_true] at h
    have := outSeq_eq (pushAll_eq (fun x => (encV_eq t x h.2).2 h.1) v)
    simp only [encV, reprV]
    exact ⟨this.1, fun _ => this.2⟩
  | .map k t, v, h => by
    simp only [Ty.unitFree, Bool.and_eq_true] at h
    have := outMap_eq (pairAll_eq (fun x : k.Val × t.Val => (encV_eq k x.1 h.1).1)
      (fun x => (encV_eq t x.2 h.2).1) v)
    simp only [encV, reprV]
    exact ⟨this.1, fun _ => this.2⟩
  | .tuple ts, v, h => by
    simp only [Ty.unitFree] at h
    have := outSeq_eq (encTysV_eq ts v h)
    simp only [encV, reprV]
    exact ⟨this.1, fun _ => this.2⟩
  | .result nt t u, v, h => by
    simp only [Ty.unitFree, Bool.and_eq_true] at h
    cases v with
    | inl x =>
      have := outVariant_eq (n := nameV (resultName nt true)) (encV_eq t x h.1).1
      simp only [encV, reprV]
      exact ⟨this.1, fun _ => this.2⟩
    | inr x =>
      have := outVariant_eq (n := nameV (resultName nt false)) (encV_eq u x h.2).1
      simp only [encV, reprV]
      exact ⟨this.1, fun _ => this.2⟩
  | .boxed t, v, h => by
    simp only [encV, reprV, Ty.writes]; exact encV_eq t v (by simpa only [Ty.unitFree] using h)
  | .wrapping t, v, h => by
    simp only [encV, reprV, Ty.writes]; exact encV_eq t v (by simpa only [Ty.unitFree] using h)
  | .transparent t, v, h => by
    simp only [encV, reprV, Ty.writes]; exact encV_eq t v (by simpa only [Ty.unitFree] using h)
  | .unitStruct, v, _ => ⟨by simp only [encV, reprV]; rfl, fun _ => by simp only [encV, reprV]; rfl⟩
  | .strct _ fs, v, h => by
    simp only [Ty.unitFree] at h
    have := outMap_eq (encFieldsV_eq fs v h)
    simp only [encV, reprV]
    exact ⟨this.1, fun _ => this.2⟩
  | .packed _ fs, v, _ => by
    have := outBytes_eq (encPackFields o env fs .packed v)
    simp only [encV, reprV]
    exact ⟨this.1, fun _ => this.2⟩
  | .unitEnum _ names, v, _ =>
    ⟨by simp only [encV, reprV]; rfl, fun _ => by simp only [encV, reprV]; rfl⟩
  | .enm _ vs, v, h => by
    simp only [Ty.unitFree] at h
    have := encVariantsV_eq vs v h
    simp only [encV, reprV]
    exact ⟨this.1, fun _ => this.2⟩

theorem encTysV_eq : ∀ (ts : Tys) (v : ts.Val), ts.unitFree = true →
    encTysV o env ts v = reprTys o env ts v
  | .nil, _, _ => by simp only [encTysV, reprTys]
  | .cons t ts, v, h => by
    simp only [Tys.unitFree, Bool.and_eq_true] at h
    simp only [encTysV, reprTys, (encV_eq t v.1 h.1.2).2 h.1.1, encTysV_eq ts v.2 h.2]
    cases reprV o env t v.1 with
    | error e => rfl
    | ok w => cases reprTys o env ts v.2 <;> rfl

theorem encFieldsV_eq : ∀ (fs : Fields) (v : fs.Val), fs.unitFree = true →
    encFieldsV o env fs v = reprFields o env fs v
  | .nil, _, _ => by simp only [encFieldsV, reprFields]
  | .cons n d skip t fs, v, h => by
    simp only [Fields.unitFree, Bool.and_eq_true] at h
    simp only [encFieldsV, reprFields, (encV_eq t v.1 h.1).1, encFieldsV_eq fs v.2 h.2]
    rfl

theorem encVariantsV_eq : ∀ (vs : Variants) (v : vs.Val), vs.unitFree = true →
    (encVariantsV o env vs v).slot = reprVariants o env vs v ∧
      encVariantsV o env vs v = emap some (reprVariants o env vs v)
  | .nil, v, _ => nomatch v
  | .cons n t vs, v, h => by
    simp only [Variants.unitFree, Bool.and_eq_true] at h
    cases v with
    | inl x =>
      simp only [encVariantsV, reprVariants]
      exact outVariant_eq (encV_eq t x h.1).1
    | inr x =>
      simp only [encVariantsV, reprVariants]
      exact encVariantsV_eq vs x h.2

end

/-- Without units in the wrong places, the encoder produces the representation. -/
theorem toValue_eq (t : Ty) (v : t.Val) (h : t.unitFree = true) :
    toValue o env t v = reprV o env t v := (encV_eq o env t v h).1

end
end Musli
