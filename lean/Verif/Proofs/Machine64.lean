import Verif.Model.Machine
import Verif.Props.Pointer
/-!
# With pointers of 64 bits `Model/Machine.lean` is the model of `Model/Codec.lean`
-/
set_option linter.unusedSectionVars false
namespace Musli.Machine

variable [Host] (o : Options) (env : Env)

theorem bind_pure_id {α} (d : Dec α) (f : α → α) (h : ∀ a, f a = a) : (do let v ← d; pure (f v)) = d := by
  funext s
  cases hd : d s with
  | error e => rw [Dec.bind_error hd]
  | ok r => rw [Dec.bind_ok hd, Dec.pure_apply, h]

/-- The numbers of `Model/Codec.lean`. -/
def nums64 (m : Mode) : Nums := ⟨64, Musli.encLen o, Musli.decLen o, (m.fmt o).encPrim, (m.fmt o).decPrim⟩

theorem decodeUsize_w64 : Ptr.decodeUsize .w64 o = Int'.decodeUsize o := (C113_model_w64 o .storage).2.1

theorem nums_w64 (m : Mode) : nums .w64 64 o m = nums64 o m := by
  obtain ⟨h1, h2, h3, h4⟩ := C113_model_w64 o m
  unfold nums nums64
  congr 1
  · unfold decLen Musli.decLen
    rw [decodeUsize_w64]
    rfl
  · funext p v
    cases p with
    | usize =>
      simp only [encPrim]
      rw [if_pos v.isLt, ← h1]
      congr 1
    | isize =>
      simp only [encPrim]
      have e : -2 ^ (64 - 1) ≤ v.toInt ∧ v.toInt < 2 ^ (64 - 1) :=
        ⟨BitVec.le_toInt v, BitVec.toInt_lt (x := v)⟩
      rw [if_pos e, ← h3]
      congr 1
    | _ => rfl
  · funext p
    cases p with
    | usize =>
      simp only [decPrim]
      rw [h2]
      exact bind_pure_id _ _ fun v => BitVec.setWidth_eq v
    | isize =>
      simp only [decPrim]
      rw [h4]
      exact bind_pure_id _ _ fun v => BitVec.signExtend_eq v
    | _ => rfl

theorem wSkip_eq (m : Mode) : wSkip (nums64 o m) = Wire.skip o := rfl
theorem dSkip_eq (m : Mode) : dSkip (nums64 o m) = Desc.skip o := rfl

theorem wEndSeq_eq (m : Mode) (n : Nat) : wEndSeq (nums64 o m) n = Wire.endSeq o n := by
  induction n with
  | zero => rfl
  | succ n ih => rw [wEndSeq, Wire.endSeq, ih]; rfl

theorem wEndMap_eq (m : Mode) (n : Nat) : wEndMap (nums64 o m) n = Wire.endMap o n := by
  induction n with
  | zero => rfl
  | succ n ih => rw [wEndMap, Wire.endMap, ih]; rfl

theorem dEndSeq_eq (m : Mode) (n : Nat) : dEndSeq (nums64 o m) n = Desc.endSeq o n := by
  cases n <;> rfl

theorem dEndMap_eq (m : Mode) (n : Nat) : dEndMap (nums64 o m) n = Desc.endMap o n := by
  induction n with
  | zero => rfl
  | succ n ih => rw [dEndMap, Desc.endMap, ih]; rfl

theorem fmt_w64 : fmt .w64 o = fun m => m.fmt o := by
  funext m
  have e : nums .w64 Ptr.w64.bits o = nums64 o := funext fun m => nums_w64 o m
  unfold fmt fmtBelow
  rw [e]
  cases m with
  | storage => rfl
  | packed => rfl
  | wire =>
    show wire (nums64 o .wire) = Wire.fmt o
    unfold wire
    rw [funext (wEndSeq_eq o .wire), funext (wEndMap_eq o .wire)]
    rfl
  | descriptive =>
    show desc (nums64 o .descriptive) = Desc.fmt o
    unfold desc
    rw [funext (dEndSeq_eq o .descriptive), funext (dEndMap_eq o .descriptive)]
    rfl

theorem native_false (hn : Opt.isNativeFixed o = false) (m : Mode) : (m.fmt o).native = false := by
  cases m <;> first | exact hn | rfl

variable (hn : Opt.isNativeFixed o = false)
include hn

mutual

theorem encG_eq : ∀ (t : Ty) (m : Mode) (v : t.Val), encG (fun m => m.fmt o) env t m v = encD o env t m v
  | .prim p, m, v => by simp only [encG, encD]
  | .nonZero s w, m, v => by simp only [encG, encD]
  | .unit, m, v => by simp only [encG, encD]
  | .bytes, m, v => by simp only [encG, encD]
  | .string, m, v => by simp only [encG, encD]
  | .byteArray _, m, v => by simp only [encG, encD]
  | .option t, m, v => by
    cases v with
    | none => simp only [encG, encD]
    | some x =>
      simp only [encG, encD, native_false o hn, Bool.false_and, fastE, Bool.false_eq_true, if_false]
      rw [encG_eq t m x]
  | .array _ t, m, v => by
    simp only [encG, encD, native_false o hn, Bool.false_and, Bool.false_eq_true, if_false]
    rw [show encG (fun m => m.fmt o) env t m = encD o env t m from funext (encG_eq t m)]
  | .vec t, m, v => by
    simp only [encG, encD, native_false o hn, Bool.false_and, Bool.false_eq_true, if_false]
    rw [show encG (fun m => m.fmt o) env t m = encD o env t m from funext (encG_eq t m)]
  | .set t, m, v => by
    simp only [encG, encD, native_false o hn, Bool.false_and, fastE, Bool.false_eq_true, if_false]
    rw [show encG (fun m => m.fmt o) env t m = encD o env t m from funext (encG_eq t m)]
  | .map k t, m, v => by
    simp only [encG, encD, native_false o hn, Bool.false_and, fastE, Bool.false_eq_true, if_false]
    rw [show encG (fun m => m.fmt o) env t m = encD o env t m from funext (encG_eq t m),
      show encG (fun m => m.fmt o) env k m = encD o env k m from funext (encG_eq k m)]
  | .tuple ts, m, v => by
    simp only [encG, encD]
    rw [encTysG_eq ts m v]
  | .result nt t u, m, v => by
    cases v with
    | inl x =>
      simp only [encG, encD, native_false o hn, Bool.false_and, fastE, Bool.false_eq_true, if_false]
      rw [encG_eq t m x]
    | inr x =>
      simp only [encG, encD, native_false o hn, Bool.false_and, fastE, Bool.false_eq_true, if_false]
      rw [encG_eq u m x]
  | .boxed t, m, v => by simp only [encG, encD]; exact encG_eq t m v
  | .wrapping t, m, v => by simp only [encG, encD]; exact encG_eq t m v
  | .transparent t, m, v => by simp only [encG, encD]; exact encG_eq t m v
  | .unitStruct, m, v => by simp only [encG, encD]
  | .strct _ fs, m, v => by
    simp only [encG, encD]
    rw [encFieldsG_eq fs m v]
  | .packed lay fs, m, v => by
    simp only [encG, encD, native_false o hn, Bool.false_and, Bool.false_eq_true, if_false]
    rw [encPackFieldsG_eq fs .packed v]
    cases encPackFields o env fs .packed v <;> rfl
  | .unitEnum _ names, m, v => by simp only [encG, encD]
  | .enm _ vs, m, v => by
    simp only [encG, encD]
    rw [encVariantsG_eq vs m v]

theorem encTysG_eq : ∀ (ts : Tys) (m : Mode) (v : ts.Val),
    encTysG (fun m => m.fmt o) env ts m v = encTys o env ts m v
  | .nil, m, v => by simp only [encTysG, encTys]
  | .cons t ts, m, v => by
    simp only [encTysG, encTys, native_false o hn, Bool.false_and, fastE, Bool.false_eq_true, if_false]
    rw [encG_eq t m v.1, encTysG_eq ts m v.2]

theorem encFieldsG_eq : ∀ (fs : Fields) (m : Mode) (v : fs.Val),
    encFieldsG (fun m => m.fmt o) env fs m v = encFields o env fs m v
  | .nil, m, v => by simp only [encFieldsG, encFields]
  | .cons n d s t fs, m, v => by
    simp only [encFieldsG, encFields]
    rw [encG_eq t m v.1, encFieldsG_eq fs m v.2]

theorem encPackFieldsG_eq : ∀ (fs : Fields) (m : Mode) (v : fs.Val),
    encPackFieldsG (fun m => m.fmt o) env fs m v = encPackFields o env fs m v
  | .nil, m, v => by simp only [encPackFieldsG, encPackFields]
  | .cons n d s t fs, m, v => by
    simp only [encPackFieldsG, encPackFields]
    rw [encG_eq t m v.1, encPackFieldsG_eq fs m v.2]

theorem encBodyFieldsG_eq : ∀ (t : Ty) (m : Mode) (v : t.Val),
    encBodyFieldsG (fun m => m.fmt o) env t m v = encBodyFields o env t m v
  | .strct _ fs, m, v => by simp only [encBodyFieldsG, encBodyFields]; exact encFieldsG_eq fs m v
  | .prim _, m, v => by simp only [encBodyFieldsG, encBodyFields]
  | .nonZero _ _, m, v => by simp only [encBodyFieldsG, encBodyFields]
  | .unit, m, v => by simp only [encBodyFieldsG, encBodyFields]
  | .bytes, m, v => by simp only [encBodyFieldsG, encBodyFields]
  | .string, m, v => by simp only [encBodyFieldsG, encBodyFields]
  | .byteArray _, m, v => by simp only [encBodyFieldsG, encBodyFields]
  | .option _, m, v => by simp only [encBodyFieldsG, encBodyFields]
  | .array _ _, m, v => by simp only [encBodyFieldsG, encBodyFields]
  | .vec _, m, v => by simp only [encBodyFieldsG, encBodyFields]
  | .set _, m, v => by simp only [encBodyFieldsG, encBodyFields]
  | .map _ _, m, v => by simp only [encBodyFieldsG, encBodyFields]
  | .tuple _, m, v => by simp only [encBodyFieldsG, encBodyFields]
  | .result _ _ _, m, v => by simp only [encBodyFieldsG, encBodyFields]
  | .boxed _, m, v => by simp only [encBodyFieldsG, encBodyFields]
  | .wrapping _, m, v => by simp only [encBodyFieldsG, encBodyFields]
  | .transparent _, m, v => by simp only [encBodyFieldsG, encBodyFields]
  | .unitStruct, m, v => by simp only [encBodyFieldsG, encBodyFields]
  | .packed _ _, m, v => by simp only [encBodyFieldsG, encBodyFields]
  | .unitEnum _ _, m, v => by simp only [encBodyFieldsG, encBodyFields]
  | .enm _ _, m, v => by simp only [encBodyFieldsG, encBodyFields]

theorem encVariantsG_eq : ∀ (vs : Variants) (m : Mode) (v : vs.Val),
    encVariantsG (fun m => m.fmt o) env vs m v = encVariants o env vs m v
  | .nil, m, v => nomatch v
  | .cons n t vs, m, .inl x => by
    simp only [encVariantsG, encVariants]
    rw [encG_eq t m x, encBodyFieldsG_eq t m x]
  | .cons n t vs, m, .inr x => by
    simp only [encVariantsG, encVariants]
    exact encVariantsG_eq vs m x

end

mutual

theorem decG_eq : ∀ (t : Ty) (m : Mode), decG (fun m => m.fmt o) env t m = decD o env t m
  | .prim p, m => by simp only [decG, decD]
  | .nonZero s w, m => by
    simp only [decG, decD, native_false o hn, Bool.false_and, fastD, Bool.false_eq_true, if_false]
  | .unit, m => by simp only [decG, decD]
  | .bytes, m => by simp only [decG, decD]
  | .string, m => by simp only [decG, decD]
  | .byteArray _, m => by simp only [decG, decD]
  | .option t, m => by
    simp only [decG, decD, native_false o hn, Bool.false_and, fastD, Bool.false_eq_true, if_false]
    rw [decG_eq t m]
  | .array _ t, m => by
    simp only [decG, decD, native_false o hn, Bool.false_and, fastD, Bool.false_eq_true, if_false]
    rw [decG_eq t m]
  | .vec t, m => by
    simp only [decG, decD, native_false o hn, Bool.false_and, Bool.false_eq_true, if_false]
    rw [decG_eq t m]
  | .set t, m => by
    simp only [decG, decD, native_false o hn, Bool.false_and, fastD, Bool.false_eq_true, if_false]
    rw [decG_eq t m]
  | .map k t, m => by
    simp only [decG, decD, native_false o hn, Bool.false_and, fastD, Bool.false_eq_true, if_false]
    rw [decG_eq t m, decG_eq k m]
  | .tuple ts, m => by
    simp only [decG, decD]
    rw [decTysG_eq ts m]
  | .result nt t u, m => by
    simp only [decG, decD, native_false o hn, Bool.false_and, fastD, Bool.false_eq_true, if_false]
    rw [decG_eq t m, decG_eq u m]
  | .boxed t, m => by
    simp only [decG, decD, native_false o hn, Bool.false_and, fastD, Bool.false_eq_true, if_false]
    exact decG_eq t m
  | .wrapping t, m => by
    simp only [decG, decD, native_false o hn, Bool.false_and, fastD, Bool.false_eq_true, if_false]
    exact decG_eq t m
  | .transparent t, m => by simp only [decG, decD]; exact decG_eq t m
  | .unitStruct, m => by simp only [decG, decD]
  | .strct _ fs, m => by
    simp only [decG, decD]
    rw [decEntryG_eq fs m]
  | .packed lay fs, m => by
    simp only [decG, decD, native_false o hn, Bool.false_and, Bool.false_eq_true, if_false]
    rw [decPackFieldsG_eq fs .packed]
  | .unitEnum _ names, m => by simp only [decG, decD]; rfl
  | .enm _ vs, m => by
    simp only [decG, decD]
    rw [decVariantsG_eq vs m]

theorem decTysG_eq : ∀ (ts : Tys) (m : Mode), decTysG (fun m => m.fmt o) env ts m = decTys o env ts m
  | .nil, m => by funext c; simp only [decTysG, decTys]
  | .cons t ts, m => by
    funext c
    cases c with
    | zero => simp only [decTysG, decTys]
    | succ c =>
      simp only [decTysG, decTys, native_false o hn, Bool.false_and, fastD, Bool.false_eq_true, if_false]
      rw [decG_eq t m, decTysG_eq ts m]

theorem decEntryG_eq : ∀ (fs : Fields) (m : Mode), decEntryG (fun m => m.fmt o) env fs m = decEntry o env fs m
  | .nil, m => by funext n p; simp only [decEntryG, decEntry]
  | .cons n d s t fs, m => by
    funext n p
    simp only [decEntryG, decEntry]
    rw [decG_eq t m, decEntryG_eq fs m]

theorem decPackFieldsG_eq : ∀ (fs : Fields) (m : Mode),
    decPackFieldsG (fun m => m.fmt o) env fs m = decPackFields o env fs m
  | .nil, m => by simp only [decPackFieldsG, decPackFields]
  | .cons n d s t fs, m => by
    simp only [decPackFieldsG, decPackFields]
    rw [decG_eq t m, decPackFieldsG_eq fs m]

theorem decVariantsG_eq : ∀ (vs : Variants) (m : Mode),
    decVariantsG (fun m => m.fmt o) env vs m = decVariants o env vs m
  | .nil, m => by funext n; simp only [decVariantsG, decVariants]
  | .cons n t vs, m => by
    funext n
    simp only [decVariantsG, decVariants]
    rw [decG_eq t m, decVariantsG_eq vs m]

end

end Musli.Machine
