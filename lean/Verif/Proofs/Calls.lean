import Verif.Proofs.Raw
import Verif.Spec.Calls
/-!
# Calls write what they say
-/
set_option linter.unusedSectionVars false
set_option linter.unusedSimpArgs false
namespace Musli

theorem seq_assoc (a b c : Enc) : (a +> b) +> c = a +> b +> c := by
  cases a <;> cases b <;> cases c <;> simp [Enc.seq]

theorem ok_nil_seq (a : Enc) : .ok [] +> a = a := by cases a <;> simp [Enc.seq]

theorem seq_ok_nil (a : Enc) : a +> .ok [] = a := by cases a <;> simp [Enc.seq]

theorem enc_all_append {α} (f : α → Enc) (l l' : List α) :
    Enc.all f (l ++ l') = Enc.all f l +> Enc.all f l' := by
  induction l with
  | nil => exact (ok_nil_seq _).symm
  | cons a l ih => show f a +> Enc.all f (l ++ l') = (f a +> Enc.all f l) +> _; rw [ih, seq_assoc]

section
variable [Host] (o : Options) (env : Env)

theorem native_off (h : Opt.isNativeFixed o = false) (m : Mode) : (m.fmt o).native = false := by
  rw [native_fmt, h]; cases m <;> rfl

theorem viaE_off {t : Ty} {m : Mode} (h : (m.fmt o).native = false) (v : t.Val) :
    viaE o env t m v = encD o env t m v := by
  simp [viaE, h, fastE]

theorem sliceBody_off {t : Ty} {m : Mode} (h : (m.fmt o).native = false) (l : List t.Val) :
    sliceBody o env t m l = Enc.all (encD o env t m) l := by
  have : viaE o env t m = encD o env t m := funext (viaE_off o env h)
  simp [sliceBody, h, this]

theorem sliceLen_off {t : Ty} {m : Mode} (h : (m.fmt o).native = false) (n : Nat) :
    sliceLen o t m n = (m.fmt o).encSeq n := by
  simp [sliceLen, h]

theorem bytesHeader_eq (m : Mode) (b : Bytes) :
    bytesHeader o m b.length +> .ok b = (m.fmt o).encBytes b := by
  cases m <;> rfl

theorem run_name {m : Mode} (h : (m.fmt o).native = false) {n : Name} {c : Call} (hc : SaysName n c) :
    c.run o env m = encName (m.fmt o) n := by
  cases hc <;> simp [Call.run, viaE_off o env h, encD, encName]

theorem tag_name {m : Mode} (h : (m.fmt o).native = false) {n : Name} {t : Ty} {v : t.Val} (hc : TagOf n t v) :
    viaE o env t m v = encName (m.fmt o) n := by
  cases hc <;> simp [viaE_off o env h, encD, encName]

variable (ho : Opt.isNativeFixed o = false)
include ho

mutual

theorem run_says : ∀ {t : Ty} {v : t.Val} {c : Call}, Says env t v c → ∀ m, c.run o env m = encD o env t m v
  | _, _, _, .value, m => by rw [Call.run]; exact viaE_off o env (native_off o ho m) _
  | _, _, _, .direct, m => by rw [Call.run]
  | _, _, _, .vectored hp hl, m => by
    rw [Call.run, hl, hp, encD]; exact bytesHeader_eq o m _
  | _, _, _, .empty, m => by rw [Call.run, encD]
  | _, _, _, .none, m => by rw [Call.run, encD]
  | _, _, _, .some h, m => by
    rw [Call.run, run_says h m, encD]
    simp only [native_off o ho m, Bool.false_and, fastE, Bool.false_eq_true, if_false]
  | _, _, _, .slice, m => by
    simp only [Call.run, sliceLen_off o (native_off o ho m), sliceBody_off o env (native_off o ho m), encD,
      native_off o ho m, Bool.false_and, Bool.false_eq_true, if_false]
  | _, _, _, .sliceArray, m => by
    simp only [Call.run, sliceLen_off o (native_off o ho m), sliceBody_off o env (native_off o ho m), encD,
      native_off o ho m, Bool.false_and, Bool.false_eq_true, if_false]
  | _, _, _, .slices hl hn, m => by
    simp only [Call.run, sliceLen_off o (native_off o ho m), sliceBody_off o env (native_off o ho m), encD,
      native_off o ho m, Bool.false_and, Bool.false_eq_true, if_false, hl, hn]
  | _, _, _, .vec h hn, m => by
    simp only [Call.run, require, runItems_says h m, hn, encD,
      native_off o ho m, Bool.false_and, Bool.false_eq_true, if_false]
  | _, _, _, .array (v := v) h, m => by
    simp only [Call.run, require, runItems_says h m, encD, v.2,
      native_off o ho m, Bool.false_and, Bool.false_eq_true, if_false]
  | _, _, _, .set h hn, m => by
    simp only [Call.run, require, runItems_says h m, hn, encD, fastE,
      native_off o ho m, Bool.false_and, Bool.false_eq_true, if_false]
  | _, _, _, .tuple h hn, m => by
    simp only [Call.run, require, runTys_says h m, hn, encD]
  | _, _, _, .map h hn, m => by
    simp only [Call.run, require, runMap_says h m, hn, encD, fastE,
      native_off o ho m, Bool.false_and, Bool.false_eq_true, if_false]
  | _, _, _, .entries h hn, m => by
    simp only [Call.run, require, runMap_says h m, hn, encD, fastE,
      native_off o ho m, Bool.false_and, Bool.false_eq_true, if_false]
  | _, _, _, .ok hn h, m => by
    simp only [Call.run, run_name o env (native_off o ho m) hn, run_says h m, encD, fastE,
      native_off o ho m, Bool.false_and, Bool.false_eq_true, if_false]
  | _, _, _, .err hn h, m => by
    simp only [Call.run, run_name o env (native_off o ho m) hn, run_says h m, encD, fastE,
      native_off o ho m, Bool.false_and, Bool.false_eq_true, if_false]
  | _, _, _, .boxed h, m => by rw [run_says h m, encD]
  | _, _, _, .wrapping h, m => by rw [run_says h m, encD]
  | _, _, _, .transparent h, m => by rw [run_says h m, encD]
  | _, _, _, .unitStruct, m => by
    simp only [Call.run, require, Calls.run, encD, seq_ok_nil]
  | _, _, _, .strct h, m => by
    simp only [Call.run, require, (runFields_says h m).1, (runFields_says h m).2, encD]
  | _, _, _, .strctEntries h, m => by
    simp only [Call.run, require, (runFields_says h m).1, (runFields_says h m).2, encD]
  | _, _, _, .packed h, m => by
    simp only [Call.run, runPack_says h .packed, encD, native_off o ho m, Bool.false_and, Bool.false_eq_true,
      if_false]
    rfl
  | _, _, _, .unitEnum h, m => by rw [run_name o env (native_off o ho m) h, encD]
  | _, _, _, .enm h, m => by rw [runVariant_says h m, encD]

theorem runItems_says : ∀ {t : Ty} {l : List t.Val} {items : Items}, SaysItems env t l items →
    ∀ m, items.run o env m = Enc.all (encD o env t m) l
  | _, _, _, .done, m => by rw [Items.run]; rfl
  | _, _, _, .push h hr, m => by rw [Items.run, run_says h m, runItems_says hr m]; rfl
  | _, _, _, .slice hr, m => by
    rw [Items.run, sliceBody_off o env (native_off o ho m), runItems_says hr m, enc_all_append]
  | _, _, _, .slices hr, m => by
    rw [Items.run, sliceBody_off o env (native_off o ho m), runItems_says hr m, enc_all_append]

theorem runTys_says : ∀ {ts : Tys} {v : ts.Val} {items : Items}, SaysTys env ts v items →
    ∀ m, items.run o env m = encTys o env ts m v
  | _, _, _, .done, m => by rw [Items.run, encTys]
  | _, _, _, .push h hr, m => by
    rw [Items.run, run_says h m, runTys_says hr m, encTys]
    simp only [native_off o ho m, Bool.false_and, fastE, Bool.false_eq_true, if_false]

theorem runMap_says : ∀ {k t : Ty} {l : List (k.Val × t.Val)} {es : Calls}, SaysMap env k t l es →
    ∀ m, es.run o env m = Enc.all (fun x => encD o env k m x.1 +> encD o env t m x.2) l
  | _, _, _, _, .done, m => by rw [Calls.run]; rfl
  | _, _, _, _, .entry hk h hr, m => by
    rw [Calls.run, run_says hk m, run_says h m, runMap_says hr m, ← seq_assoc]; rfl

theorem runFields_says : ∀ {fs : Fields} {v : fs.Val} {n : Nat} {es : Calls}, SaysFields env fs v n es →
    ∀ m, es.run o env m = encFields o env fs m v ∧ n = fs.count env v
  | _, _, _, _, .done, m => by rw [Calls.run, encFields, Fields.count]; exact ⟨rfl, rfl⟩
  | _, _, _, _, .entry hp hn h hr, m => by
    rw [Calls.run, run_name o env (native_off o ho m) hn, run_says h m, (runFields_says hr m).1, encFields,
      Fields.count, ← (runFields_says hr m).2, if_pos hp, if_pos hp, seq_assoc, Nat.add_comm]
    exact ⟨rfl, rfl⟩
  | _, _, _, _, .skip hp hr, m => by
    rw [(runFields_says hr m).1, encFields, Fields.count, ← (runFields_says hr m).2]
    simp only [hp, Bool.false_eq_true, if_false, ok_nil_seq, Nat.zero_add, and_self]

theorem runPack_says : ∀ {fs : Fields} {v : fs.Val} {items : Items}, SaysPack env fs v items →
    ∀ m, items.run o env m = encPackFields o env fs m v
  | _, _, _, .done, m => by rw [Items.run, encPackFields]
  | _, _, _, .push hp h hr, m => by
    rw [Items.run, run_says h m, runPack_says hr m, encPackFields, if_pos hp]
  | _, _, _, .skip hp hr, m => by
    rw [runPack_says hr m, encPackFields]
    simp only [hp, Bool.false_eq_true, if_false, ok_nil_seq]

theorem runVariant_says : ∀ {vs : Variants} {v : vs.Val} {c : Call}, SaysVariant env vs v c →
    ∀ m, c.run o env m = (m.fmt o).encVariant +> encVariants o env vs m v
  | _, _, _, .here hd hn h, m => by
    simp only [Call.run, run_name o env (native_off o ho m) hn, run_says h m, encVariants, hd, Bool.false_eq_true,
      if_false]
  | _, _, _, .sequence hd hn h, m => by
    have := run_says h m
    rw [Call.run] at this
    simp only [Call.run, tag_name o env (native_off o ho m) hn, this, encVariants, hd, Bool.false_eq_true, if_false]
  | _, _, _, .map hd hn h, m => by
    have := run_says h m
    rw [Call.run] at this
    simp only [Call.run, tag_name o env (native_off o ho m) hn, this, encVariants, hd, Bool.false_eq_true, if_false]
  | _, _, _, .there h, m => by
    rw [runVariant_says h m]
    simp only [encVariants]

end
end
end Musli
