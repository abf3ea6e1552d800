import Verif.Model.Value.ValueFixed
import Verif.Proofs.Value.Repr
/-!
# The corrected encoder produces the representation of every value
-/
set_option linter.unusedSectionVars false
namespace Musli

section
variable [Host] (o : Options) (env : Env)

theorem slot_emap (x : Except Err Value) : Out.slot (emap some x) = x := by
  cases x <;> rfl

mutual

theorem encVC_eq : ∀ (t : Ty) (v : t.Val), encVC o env t v = emap some (reprV o env t v)
  | .prim p, v => by simp only [encVC, reprV]; rfl
  | .nonZero s w, v => by simp only [encVC, reprV]; rfl
  | .unit, v => by simp only [encVC, reprV]; rfl
  | .bytes, v => by simp only [encVC, reprV]; rfl
  | .string, v => by simp only [encVC, reprV]; rfl
  | .byteArray _, v => by simp only [encVC, reprV]; rfl
  | .option t, v => by
    cases v with
    | none => simp only [encVC, reprV]; rfl
    | some x =>
      simp only [encVC, reprV, encVC_eq t x]
      cases reprV o env t x <;> rfl
  | .array _ t, v => by
    simp only [encVC, reprV]
    exact (outSeq_eq (pushAll_eq (fun x => encVC_eq t x) v.1)).2
  | .vec t, v => by
    simp only [encVC, reprV]
    exact (outSeq_eq (pushAll_eq (fun x => encVC_eq t x) v)).2
  | .set t, v => by
    simp only [encVC, reprV]
    exact (outSeq_eq (pushAll_eq (fun x => encVC_eq t x) v)).2
  | .map k t, v => by
    simp only [encVC, reprV]
    exact (outMap_eq (pairAll_eq
      (fun x : k.Val × t.Val => (congrArg Out.slot (encVC_eq k x.1)).trans (slot_emap _))
      (fun x => (congrArg Out.slot (encVC_eq t x.2)).trans (slot_emap _)) v)).2
  | .tuple ts, v => by
    simp only [encVC, reprV]
    exact (outSeq_eq (encTysVC_eq ts v)).2
  | .result nt t u, v => by
    cases v with
    | inl x =>
      simp only [encVC, reprV]
      exact (outVariant_eq ((congrArg Out.slot (encVC_eq t x)).trans (slot_emap _))).2
    | inr x =>
      simp only [encVC, reprV]
      exact (outVariant_eq ((congrArg Out.slot (encVC_eq u x)).trans (slot_emap _))).2
  | .boxed t, v => by simp only [encVC, reprV]; exact encVC_eq t v
  | .wrapping t, v => by simp only [encVC, reprV]; exact encVC_eq t v
  | .transparent t, v => by simp only [encVC, reprV]; exact encVC_eq t v
  | .unitStruct, v => by simp only [encVC, reprV]; rfl
  | .strct _ fs, v => by
    simp only [encVC, reprV]
    exact (outMap_eq (encFieldsVC_eq fs v)).2
  | .packed _ fs, v => by
    simp only [encVC, reprV]
    exact (outBytes_eq _).2
  | .unitEnum _ names, v => by simp only [encVC, reprV]; rfl
  | .enm _ vs, v => by
    simp only [encVC, reprV]
    exact encVariantsVC_eq vs v

theorem encTysVC_eq : ∀ (ts : Tys) (v : ts.Val), encTysVC o env ts v = reprTys o env ts v
  | .nil, _ => by simp only [encTysVC, reprTys]
  | .cons t ts, v => by
    simp only [encTysVC, reprTys, encVC_eq t v.1, encTysVC_eq ts v.2]
    cases reprV o env t v.1 with
    | error e => rfl
    | ok w => cases reprTys o env ts v.2 <;> rfl

theorem encFieldsVC_eq : ∀ (fs : Fields) (v : fs.Val),
    encFieldsVC o env fs v = reprFields o env fs v
  | .nil, _ => by simp only [encFieldsVC, reprFields]
  | .cons n d skip t fs, v => by
    simp only [encFieldsVC, reprFields, encVC_eq t v.1, slot_emap, encFieldsVC_eq fs v.2]
    rfl

theorem encVariantsVC_eq : ∀ (vs : Variants) (v : vs.Val),
    encVariantsVC o env vs v = emap some (reprVariants o env vs v)
  | .nil, v => nomatch v
  | .cons n t vs, v => by
    cases v with
    | inl x =>
      simp only [encVariantsVC, reprVariants]
      exact (outVariant_eq ((congrArg Out.slot (encVC_eq t x)).trans (slot_emap _))).2
    | inr x =>
      simp only [encVariantsVC, reprVariants]
      exact encVariantsVC_eq vs x

end

/-- The corrected encoder produces the representation. -/
theorem toValueC_eq (t : Ty) (v : t.Val) : toValueC o env t v = reprV o env t v := by
  unfold toValueC; rw [encVC_eq, slot_emap]

end
end Musli
