import Verif.Spec.Fits
import Verif.Proofs.RoundTrip
/-!
# When a value can be encoded
-/
set_option linter.unusedSectionVars false
namespace Musli

/-- It succeeds exactly if `P`, and an error is an overflow. -/
def OkIff (e : Enc) (P : Prop) : Prop := ((∃ bs, e = .ok bs) ↔ P) ∧ ∀ x, e = .error x → x = .overflow

theorem OkIff.ok (b : Bytes) : OkIff (.ok b) True := ⟨⟨fun _ => trivial, fun _ => ⟨b, rfl⟩⟩, fun _ h => nomatch h⟩

theorem OkIff.guard {P : Prop} [Decidable P] (b : Bytes) :
    OkIff (if P then .ok b else .error .overflow) P := by
  by_cases h : P
  · rw [if_pos h]; exact ⟨⟨fun _ => h, fun _ => ⟨b, rfl⟩⟩, fun _ h => nomatch h⟩
  · rw [if_neg h]; exact ⟨⟨fun ⟨_, h⟩ => (nomatch h), fun h' => absurd h' h⟩, fun _ h => by cases h; rfl⟩

theorem OkIff.congr {e : Enc} {P Q : Prop} (h : OkIff e P) (hpq : P ↔ Q) : OkIff e Q := ⟨h.1.trans hpq, h.2⟩

theorem OkIff.seq {a b : Enc} {P Q : Prop} (ha : OkIff a P) (hb : OkIff b Q) : OkIff (a +> b) (P ∧ Q) := by
  cases a with
  | error x =>
    have hP : ¬P := fun h => by obtain ⟨_, h⟩ := ha.1.mpr h; cases h
    refine ⟨⟨fun ⟨_, h⟩ => (nomatch h), fun h => absurd h.1 hP⟩, fun y h => ?_⟩
    cases h; exact ha.2 _ rfl
  | ok x =>
    have hP : P := ha.1.mp ⟨x, rfl⟩
    cases b with
    | error y =>
      have hQ : ¬Q := fun h => by obtain ⟨_, h⟩ := hb.1.mpr h; cases h
      refine ⟨⟨fun ⟨_, h⟩ => (nomatch h), fun h => absurd h.2 hQ⟩, fun z h => ?_⟩
      cases h; exact hb.2 _ rfl
    | ok y => exact ⟨⟨fun _ => ⟨hP, hb.1.mp ⟨y, rfl⟩⟩, fun _ => ⟨x ++ y, rfl⟩⟩, fun _ h => nomatch h⟩

theorem OkIff.all {α} {f : α → Enc} {P : α → Prop} (l : List α) (h : ∀ x ∈ l, OkIff (f x) (P x)) :
    OkIff (Enc.all f l) (∀ x ∈ l, P x) := by
  induction l with
  | nil => exact (OkIff.ok []).congr ⟨fun _ _ h => (nomatch h), fun _ => trivial⟩
  | cons a l ih =>
    refine ((h a (by simp)).seq (ih fun x hx => h x (by simp [hx]))).congr ?_
    simp

theorem OkIff.fast {c : Bool} {raw : Bytes} {e : Enc} {P : Prop} (h : c = false → OkIff e P) :
    OkIff (fastE c raw e) (c = true ∨ P) := by
  cases c with
  | true => exact (OkIff.ok raw).congr (by simp)
  | false => exact (h rfl).congr (by simp)

section
variable [Host] (o : Options) (env : Env)

theorem limit_le : limit o ≤ 2 ^ 64 := by
  unfold limit
  split <;> decide

theorem le_limit : 2 ^ 8 ≤ limit o := by
  unfold limit
  split <;> decide

theorem usize_okIff (v : BitVec 64) : OkIff (Int'.encodeUsize o v) (v.toNat < limit o) := by
  have := v.isLt
  unfold Int'.encodeUsize limit
  cases Opt.length o <;> dsimp only [Int'.widthBits]
  case «variable» => exact (OkIff.ok _).congr (by simp; omega)
  all_goals exact OkIff.guard _

theorem encLen_okIff (n : Nat) : OkIff (encLen o n) (n < limit o) := by
  have := limit_le o
  unfold encLen
  split
  · rename_i h
    refine (usize_okIff o _).congr ?_
    rw [BitVec.toNat_ofNat, Nat.mod_eq_of_lt h]
  · exact ⟨⟨fun ⟨_, h⟩ => (nomatch h), fun h => by omega⟩, fun _ h => by cases h; rfl⟩

theorem wire_tagLen_okIff (k : Byte) (n : Nat) : OkIff (Wire.encTagLen o k n) (n < limit o) := by
  have := le_limit o
  unfold Wire.encTagLen
  split
  · exact (OkIff.ok _).congr ⟨fun _ => by omega, fun _ => trivial⟩
  · exact ((OkIff.ok _).seq (encLen_okIff o n)).congr (by simp)

theorem desc_tagLen_okIff (k : Byte) (n : Nat) : OkIff (Desc.encTagLen o k n) (n < limit o) := by
  have := le_limit o
  unfold Desc.encTagLen
  split
  · exact (OkIff.ok _).congr ⟨fun _ => by omega, fun _ => trivial⟩
  · exact ((OkIff.ok _).seq (encLen_okIff o n)).congr (by simp)

theorem OkIff.of_eq {e : Enc} {b : Bytes} {P : Prop} (h : e = .ok b) (hp : P) : OkIff e P := by
  subst h; exact (OkIff.ok b).congr ⟨fun _ => hp, fun _ => trivial⟩

theorem OkIff.append {e : Enc} {P : Prop} (h : OkIff e P) (b : Bytes) : OkIff (e +> .ok b) P :=
  (h.seq (OkIff.ok b)).congr (by simp)

theorem wire_unsigned_ok {w : Nat} (v : BitVec w) : ∃ b, Wire.encUnsigned o v = .ok b := by
  unfold Wire.encUnsigned
  cases Opt.integer o
  · dsimp only; split <;> exact ⟨_, rfl⟩
  · exact ⟨_, rfl⟩

theorem wire_usize_okIff (v : BitVec 64) : OkIff (Wire.encUsize o v) (v.toNat < limit o) := by
  have := v.isLt
  unfold Wire.encUsize limit
  cases Opt.length o <;> dsimp only [Int'.widthBits]
  case «variable» => split <;> exact (OkIff.ok _).congr (by simp; omega)
  all_goals exact ((OkIff.ok _).seq (OkIff.guard _)).congr (by simp)

theorem storage_prim (m : Mode) (hm : m ≠ .descriptive) (p : Prim) (v : p.Val) :
    OkIff (Storage.encPrim o p v) (p.Fits o m v) := by
  cases p with
  | bool => exact OkIff.ok _
  | char => exact OkIff.ok _
  | uint w => cases w <;> exact OkIff.ok _
  | sint w => cases w <;> exact OkIff.ok _
  | usize => exact (usize_okIff o v).congr (by simp [Prim.Fits, hm])
  | isize => exact (usize_okIff o v).congr (by simp [Prim.Fits, hm])
  | f32 => exact OkIff.ok _
  | f64 => exact OkIff.ok _

theorem prim_okIff (m : Mode) (p : Prim) (v : p.Val) : OkIff ((m.fmt o).encPrim p v) (p.Fits o m v) := by
  cases m with
  | storage => exact storage_prim o .storage (by decide) p v
  | packed => exact storage_prim o .packed (by decide) p v
  | wire =>
    show OkIff (Wire.encPrim o p v) _
    have hu : ∀ {w} (x : BitVec w), OkIff (Wire.encUnsigned o x) True := fun x => by
      obtain ⟨b, hb⟩ := wire_unsigned_ok o x
      exact .of_eq hb trivial
    cases p with
    | bool => exact OkIff.ok _
    | char => exact hu _
    | uint w => exact hu _
    | sint w => cases w <;> exact hu _
    | usize => exact (wire_usize_okIff o v).congr (by simp [Prim.Fits])
    | isize => exact (wire_usize_okIff o v).congr (by simp [Prim.Fits])
    | f32 => exact hu _
    | f64 => exact hu _
  | descriptive =>
    show OkIff (Desc.encPrim p v) _
    cases p with
    | usize => exact (OkIff.ok _).congr (by simp [Prim.Fits])
    | isize => exact (OkIff.ok _).congr (by simp [Prim.Fits])
    | _ => exact OkIff.ok _

theorem str_okIff (m : Mode) (b : Bytes) : OkIff ((m.fmt o).encStr b) (b.length < limit o) := by
  cases m with
  | storage => exact (encLen_okIff o _).append b
  | packed => exact (encLen_okIff o _).append b
  | wire => exact (wire_tagLen_okIff o _ _).append b
  | descriptive => exact (desc_tagLen_okIff o _ _).append b

theorem bytes_okIff (m : Mode) (b : Bytes) : OkIff ((m.fmt o).encBytes b) (b.length < limit o) := by
  cases m with
  | storage => exact (encLen_okIff o _).append b
  | packed => exact (encLen_okIff o _).append b
  | wire => exact (wire_tagLen_okIff o _ _).append b
  | descriptive => exact (desc_tagLen_okIff o _ _).append b

theorem arr_okIff (m : Mode) (b : Bytes) :
    OkIff ((m.fmt o).encArr b) (m = .storage ∨ m = .packed ∨ b.length < limit o) := by
  cases m with
  | storage => exact (OkIff.ok _).congr (by simp)
  | packed => exact (OkIff.ok _).congr (by simp)
  | wire => exact ((wire_tagLen_okIff o _ _).append b).congr (by simp)
  | descriptive => exact ((desc_tagLen_okIff o _ _).append b).congr (by simp)

theorem pack_okIff (m : Mode) (b : Bytes) :
    OkIff ((m.fmt o).encPack b) (m = .storage ∨ m = .packed ∨ b.length < limit o) := by
  cases m with
  | storage => exact (OkIff.ok _).congr (by simp)
  | packed => exact (OkIff.ok _).congr (by simp)
  | wire => exact ((wire_tagLen_okIff o _ _).append b).congr (by simp)
  | descriptive => exact ((desc_tagLen_okIff o _ _).append b).congr (by simp)

theorem seq_okIff (m : Mode) (n : Nat) : OkIff ((m.fmt o).encSeq n) (n < limit o) := by
  cases m with
  | storage => exact encLen_okIff o _
  | packed => exact encLen_okIff o _
  | wire => exact wire_tagLen_okIff o _ _
  | descriptive => exact desc_tagLen_okIff o _ _

theorem map_okIff (m : Mode) (n : Nat) : OkIff ((m.fmt o).encMap n) (mapCount m n < limit o) := by
  cases m with
  | storage => exact encLen_okIff o _
  | packed => exact encLen_okIff o _
  | wire =>
    show OkIff (Wire.encMapLen o n) (n * 2 < limit o)
    have := limit_le o
    unfold Wire.encMapLen
    split
    · exact wire_tagLen_okIff o _ _
    · exact ⟨⟨fun ⟨_, h⟩ => (nomatch h), fun h => by omega⟩, fun _ h => by cases h; rfl⟩
  | descriptive => exact desc_tagLen_okIff o _ _

theorem none_ok (m : Mode) : OkIff (m.fmt o).encNone True := by cases m <;> exact OkIff.ok _
theorem some_ok (m : Mode) : OkIff (m.fmt o).encSome True := by cases m <;> exact OkIff.ok _
theorem variant_ok (m : Mode) : OkIff (m.fmt o).encVariant True := by cases m <;> exact OkIff.ok _
theorem unit_ok (m : Mode) : OkIff (m.fmt o).encUnit True := by
  cases m with
  | storage => exact (encLen_okIff o 0).congr (by have := le_limit o; simp; omega)
  | packed => exact (encLen_okIff o 0).congr (by have := le_limit o; simp; omega)
  | wire => exact OkIff.ok _
  | descriptive => exact OkIff.ok _

theorem name_okIff (m : Mode) (n : Name) : OkIff (encName (m.fmt o) n) (n.Fits o m) := by
  cases n with
  | idx n => exact prim_okIff o m .usize n
  | str s => exact str_okIff o m _

theorem resultName_fits (m : Mode) (nt : NameTy) (b : Bool) : (resultName nt b).Fits o m := by
  have := le_limit o
  cases nt <;> cases b <;> simp [resultName, Name.Fits]
  all_goals omega

theorem neLen_okIff (n : Nat) : OkIff (neLen n) (n < 2 ^ 64) := by
  unfold neLen
  split
  · rename_i h; exact (OkIff.ok _).congr (by simp; omega)
  · rename_i h
    exact ⟨⟨fun ⟨_, h⟩ => (nomatch h), fun h' => absurd h' h⟩, fun _ h => by cases h; rfl⟩

theorem native_eq (m : Mode) : (m.fmt o).native = m.fast (Opt.isNativeFixed o) := by cases m <;> rfl

theorem copied_iff (t : Ty) (m : Mode) : ((m.fmt o).native && t.bwE) = true ↔ t.copied o m := by
  rw [native_eq, Ty.copied, Bool.and_eq_true]

theorem fast_okIff {t : Ty} {m : Mode} {raw : Bytes} {e : Enc} {P : Prop} (h : OkIff e P) :
    OkIff (fastE ((m.fmt o).native && t.bwE) raw e) (t.copied o m ∨ P) :=
  (OkIff.fast fun _ => h).congr (by rw [copied_iff])

mutual

theorem Ty.okIff (t : Ty) (m : Mode) (v : t.Val) : OkIff (encD o env t m v) (t.Fits o env m v) := by
  cases t with
  | prim p => unfold encD Ty.Fits; exact prim_okIff o m p v
  | nonZero s w =>
    unfold encD Ty.Fits
    refine (prim_okIff o m _ _).congr ?_
    cases s <;> simp [nonZeroPrim, Prim.Fits]
  | unit => unfold encD Ty.Fits; exact unit_ok o m
  | bytes => unfold encD Ty.Fits; exact bytes_okIff o m v
  | string => unfold encD Ty.Fits; exact str_okIff o m _
  | byteArray n => unfold encD Ty.Fits; exact (arr_okIff o m v.1).congr (by rw [v.2])
  | option t =>
    unfold encD Ty.Fits
    cases v with
    | none => exact (none_ok o m).congr (by simp)
    | some x => exact ((some_ok o m).seq (fast_okIff o (t.okIff m x))).congr (by simp)
  | array n t =>
    unfold encD Ty.Fits
    split
    · rename_i h
      have h' := (copied_iff o t m).mp h
      exact ((neLen_okIff _).append _).congr (by simp [h', v.2])
    · rename_i h
      have h' : ¬t.copied o m := fun hc => h ((copied_iff o t m).mpr hc)
      exact ((seq_okIff o m _).seq (OkIff.all v.1 fun x _ => t.okIff m x)).congr (by simp [h', v.2])
  | vec t =>
    unfold encD Ty.Fits
    split
    · rename_i h
      have h' := (copied_iff o t m).mp h
      exact ((neLen_okIff _).append _).congr (by simp [h'])
    · rename_i h
      have h' : ¬t.copied o m := fun hc => h ((copied_iff o t m).mpr hc)
      exact ((seq_okIff o m _).seq (OkIff.all v fun x _ => t.okIff m x)).congr (by simp [h'])
  | set t =>
    unfold encD Ty.Fits
    exact (seq_okIff o m _).seq (OkIff.all v fun x _ => fast_okIff o (t.okIff m x))
  | map k t =>
    unfold encD Ty.Fits
    exact (map_okIff o m _).seq (OkIff.all v fun x _ =>
      (fast_okIff o (k.okIff m x.1)).seq (fast_okIff o (t.okIff m x.2)))
  | tuple ts =>
    unfold encD Ty.Fits
    exact (seq_okIff o m _).seq (ts.okIff m v)
  | result nt t u =>
    unfold encD Ty.Fits
    cases v with
    | inl x =>
      refine ((variant_ok o m).seq ((name_okIff o m _).seq (fast_okIff o (t.okIff m x)))).congr ?_
      have := resultName_fits o m nt true
      simp [this]
    | inr x =>
      refine ((variant_ok o m).seq ((name_okIff o m _).seq (fast_okIff o (u.okIff m x)))).congr ?_
      have := resultName_fits o m nt false
      simp [this]
  | boxed t => unfold encD Ty.Fits; exact t.okIff m v
  | wrapping t => unfold encD Ty.Fits; exact t.okIff m v
  | transparent t => unfold encD Ty.Fits; exact t.okIff m v
  | unitStruct =>
    unfold encD Ty.Fits
    refine (map_okIff o m 0).congr ?_
    have := le_limit o
    cases m <;> simp [mapCount] <;> omega
  | strct nt fs =>
    unfold encD Ty.Fits
    exact (map_okIff o m _).seq (fs.okIff m v)
  | packed lay fs =>
    unfold encD Ty.Fits
    split
    · rename_i h
      have h' : (Ty.packed lay fs).copied o m := (copied_iff o (.packed lay fs) m).mp (by
        rw [Ty.bwE]; exact h)
      exact (OkIff.ok _).congr (by simp [h'])
    · rename_i h
      have h' : ¬(Ty.packed lay fs).copied o m := fun hc => h (by
        have := (copied_iff o (.packed lay fs) m).mpr hc
        rwa [Ty.bwE] at this)
      have ih := fs.packOkIff v
      split
      · rename_i e he
        rw [he] at ih
        refine ⟨⟨fun ⟨_, h⟩ => (nomatch h), fun hp => ?_⟩, fun x h => by cases h; exact ih.2 _ rfl⟩
        rcases hp with hp | ⟨hp, _⟩
        · exact absurd hp h'
        · obtain ⟨_, h⟩ := ih.1.mpr hp; cases h
      · rename_i b he
        rw [he] at ih
        have hp := ih.1.mp ⟨b, rfl⟩
        refine (pack_okIff o m b).congr ?_
        simp [h', hp, he]
  | unitEnum nt names =>
    unfold encD Ty.Fits
    exact name_okIff o m _
  | enm nt vs =>
    unfold encD Ty.Fits
    exact ((variant_ok o m).seq (vs.okIff m v)).congr (by simp)

theorem Tys.okIff (ts : Tys) (m : Mode) (v : ts.Val) : OkIff (encTys o env ts m v) (ts.Fits o env m v) := by
  cases ts with
  | nil => unfold encTys Tys.Fits; exact OkIff.ok _
  | cons t ts =>
    unfold encTys Tys.Fits
    exact (fast_okIff o (t.okIff m v.1)).seq (ts.okIff m v.2)

theorem Fields.okIff (fs : Fields) (m : Mode) (v : fs.Val) :
    OkIff (encFields o env fs m v) (fs.Fits o env m v) := by
  cases fs with
  | nil => unfold encFields Fields.Fits; exact OkIff.ok _
  | cons n d skip t fs =>
    unfold encFields Fields.Fits
    refine OkIff.seq ?_ (fs.okIff m v.2)
    split
    · rename_i h; exact ((name_okIff o m n).seq (t.okIff m v.1)).congr (by simp [h])
    · rename_i h; exact (OkIff.ok _).congr (by simp [h])

theorem Fields.packOkIff (fs : Fields) (v : fs.Val) :
    OkIff (encPackFields o env fs .packed v) (fs.PackFits o env v) := by
  cases fs with
  | nil => unfold encPackFields Fields.PackFits; exact OkIff.ok _
  | cons n d skip t fs =>
    unfold encPackFields Fields.PackFits
    refine OkIff.seq ?_ (fs.packOkIff v.2)
    split
    · rename_i h; exact (t.okIff .packed v.1).congr (by simp [h])
    · rename_i h; exact (OkIff.ok _).congr (by simp [h])

theorem Ty.bodyOkIff (t : Ty) (m : Mode) (v : t.Val) :
    OkIff (encBodyFields o env t m v) (t.BodyFits o env m v) := by
  cases t with
  | strct nt fs => unfold encBodyFields Ty.BodyFits; exact fs.okIff m v
  | _ => unfold encBodyFields Ty.BodyFits; exact OkIff.ok _

theorem Variants.okIff (vs : Variants) (m : Mode) (v : vs.Val) :
    OkIff (encVariants o env vs m v) (vs.Fits o env m v) := by
  cases vs with
  | nil => exact nomatch v
  | cons n t vs =>
    unfold encVariants Variants.Fits
    cases v with
    | inl x =>
      dsimp only
      split
      · have h1 : OkIff ((m.fmt o).encMap 1) True := by
          refine (map_okIff o m 1).congr ?_
          have := le_limit o
          cases m <;> simp [mapCount] <;> omega
        exact ((name_okIff o m n).seq (h1.seq (t.bodyOkIff m x))).congr (by simp)
      · exact ((name_okIff o m n).seq (t.okIff m x)).congr (by simp)
    | inr x => exact (vs.okIff m x).congr (by simp)

end

end
end Musli
