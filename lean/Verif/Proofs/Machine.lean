import Verif.Proofs.MachineCross
import Verif.Proofs.MachineJoint
import Verif.Props.Pointer
/-!
# The numbers of machines with pointers of 32 and 64 bits
-/
set_option linter.unusedSectionVars false
namespace Musli.Machine
open Ptr

variable {h1 h2 : Host} {o : Options}

theorem setWidth_toNat {n : Nat} {v : BitVec 64} (h : v.toNat < 2 ^ n) : (v.setWidth n).toNat = v.toNat := by
  rw [BitVec.toNat_setWidth, Nat.mod_eq_of_lt h]

theorem pow_le {a b : Nat} (h : a ≤ b) : 2 ^ a ≤ 2 ^ b := Nat.pow_le_pow_right (by decide) h

/-- A small signed number survives 32 bits. -/
theorem signExtend_setWidth (P : Ptr) {lim : Nat} (hl : lim ≤ P.bits) (v : BitVec 64)
    (hv : -2 ^ (lim - 1) ≤ v.toInt ∧ v.toInt < 2 ^ (lim - 1)) : (v.setWidth P.bits).signExtend 64 = v := by
  cases P with
  | w64 => exact (BitVec.signExtend_eq _).trans (BitVec.setWidth_eq v)
  | w32 =>
    change (v.setWidth 32).signExtend 64 = v
    have hp : (2 : Int) ^ (lim - 1) ≤ 2 ^ 31 := by
      have h0 : lim - 1 ≤ 31 := by
        have : lim ≤ 32 := hl
        omega
      exact_mod_cast pow_le h0
    apply BitVec.eq_of_toInt_eq
    rw [BitVec.toInt_signExtend]
    have e1 : v.toInt = if 2 * v.toNat < 2 ^ 64 then (v.toNat : Int) else (v.toNat : Int) - ((2 ^ 64 : Nat) : Int) :=
      BitVec.toInt_eq_toNat_cond v
    rw [BitVec.toInt_setWidth, show min 64 32 = 32 from rfl]
    rw [Int.bmod_bmod, Int.bmod_def]
    have := v.isLt
    obtain ⟨hv1, hv2⟩ := hv
    split at e1 <;> split <;> omega

theorem encLen_cross (P Q : Ptr) {lim : Nat} (hQ : lim ≤ Q.bits) (hP : lim ≤ P.bits) (n : Nat)
    (bs r : Bytes) (h : @encLen h1 P lim o n = .ok bs) : @decLen h2 Q o (bs ++ r) = .ok (n, r) := by
  unfold encLen at h
  split at h
  · rename_i hn
    have h1 := pow_le hP
    have h2 := pow_le hQ
    have e : (BitVec.ofNat P.bits n).toNat = n := by rw [BitVec.toNat_ofNat, Nat.mod_eq_of_lt (by omega)]
    have := (storage_outcome (h2 := by assumption) P Q _ h r).1 (.inl (by rw [e]; omega))
    unfold decLen
    rw [Dec.bind_ok this, Dec.pure_apply, e, BitVec.toNat_ofNat, Nat.mod_eq_of_lt (by omega)]
  · cases h

theorem nums_cross (P Q : Ptr) {lim : Nat} {iz : Bool} (hP : lim ≤ P.bits) (hQ : lim ≤ Q.bits)
    (hz : iz = true → P = Q) (m : Mode) (l : Nat) : CrossN iz (@nums h1 P lim o m) (@nums h2 Q l o m) where
  len := encLen_cross P Q hQ hP
  prim := by
    intro p v bs r hi he
    change @encPrim h1 P lim o m p v = .ok bs at he
    change @decPrim h2 Q o m p (bs ++ r) = _
    have rest : (@Mode.fmt h1 o m).encPrim p v = .ok bs → (@Mode.fmt h2 o m).decPrim p (bs ++ r) = .ok (v, r) := by
      intro he
      rw [fmt_hosts h1 h2] at he
      exact (@Mode.lawful h2 o m).prim p v bs r he
    have l1 := pow_le hP
    have l2 := pow_le hQ
    cases p with
    | usize =>
      simp only [encPrim] at he
      split at he
      · rename_i hv
        have e := setWidth_toNat (n := P.bits) (v := v) (by omega)
        have := (usize_outcome (h2 := h2) P Q m _ he r).1 (.inl (by rw [e]; omega))
        simp only [decPrim]
        rw [Dec.bind_ok this, Dec.pure_apply, e]
        congr 2
        apply BitVec.eq_of_toNat_eq
        rw [BitVec.toNat_setWidth, BitVec.toNat_ofNat, Nat.mod_eq_of_lt (a := v.toNat) (by omega),
          Nat.mod_eq_of_lt v.isLt]
      · cases he
    | isize =>
      obtain rfl := hz (hi rfl)
      simp only [encPrim] at he
      split at he
      · rename_i hv
        simp only [decPrim]
        rw [Dec.bind_ok (C113_isize_same_width_partial P m _ he r), Dec.pure_apply, signExtend_setWidth P hP v hv]
      · cases he
    | _ => exact rest he

theorem encodeUsize_same (P Q : Ptr) (v : BitVec P.bits) (w : BitVec Q.bits) (e : v.toNat = w.toNat) :
    @encodeUsize h1 P o v = @encodeUsize h2 Q o w := by
  unfold encodeUsize
  cases Opt.length o <;> dsimp only
  · rw [Varint.encode_eq P.bits_ge, Varint.encode_eq Q.bits_ge, e]
  all_goals rw [e, writeBytes_hosts h1 h2 (by decide), ofNat_setWidth v, ofNat_setWidth w, e]

theorem wireEnc_same (P Q : Ptr) (v : BitVec P.bits) (w : BitVec Q.bits) (e : v.toNat = w.toNat) :
    @wireEnc h1 P o v = @wireEnc h2 Q o w := by
  unfold wireEnc
  cases Opt.length o <;> dsimp only
  · rw [Varint.encode_eq P.bits_ge, Varint.encode_eq Q.bits_ge, e, ofNat_setWidth v, ofNat_setWidth w, e]
  all_goals rw [e, writeBytes_hosts h1 h2 (by decide), ofNat_setWidth v, ofNat_setWidth w, e]

theorem encUsize_same (P Q : Ptr) (m : Mode) (v : BitVec P.bits) (w : BitVec Q.bits) (e : v.toNat = w.toNat) :
    Sim (m ≠ .descriptive) (@encUsize h1 P o m v) (@encUsize h2 Q o m w) := by
  cases m
  · exact Sim.of fun x hx => (encodeUsize_same (h1 := h1) (h2 := h2) (o := o) P Q v w e).symm.trans hx
  · exact Sim.of fun x hx => (encodeUsize_same (h1 := h1) (h2 := h2) (o := o) P Q v w e).symm.trans hx
  · exact Sim.of fun x hx => (wireEnc_same (h1 := h1) (h2 := h2) (o := o) P Q v w e).symm.trans hx
  · exact fun _ _ => ⟨_, rfl, fun h => absurd rfl h⟩

/-- What a machine can write below `2 ^ lim` another one can write, below `2 ^ lim'`. -/
theorem nums_joint (P Q : Ptr) {lim lim' : Nat} (hl : lim ≤ lim') (hP : lim ≤ P.bits) (hQ : lim ≤ Q.bits) (m : Mode) :
    JointN false (m ≠ .descriptive) (@nums h1 P lim o m) (@nums h2 Q lim' o m) where
  bits := hl
  len := by
    intro n bs h
    have l1 := pow_le hP
    have l2 := pow_le hQ
    have l3 := pow_le hl
    change @encLen h1 P lim o n = .ok bs at h
    change @encLen h2 Q lim' o n = .ok bs
    unfold encLen at h ⊢
    split at h
    · rw [if_pos (by omega), ← h]
      refine (encodeUsize_same Q P _ _ ?_)
      rw [BitVec.toNat_ofNat, BitVec.toNat_ofNat, Nat.mod_eq_of_lt (by omega), Nat.mod_eq_of_lt (by omega)]
    · cases h
  prim := by
    intro p v hi
    have l1 := pow_le hP
    have l2 := pow_le hQ
    have l3 := pow_le hl
    show Sim _ (@encPrim h1 P lim o m p v) (@encPrim h2 Q lim' o m p v)
    have rest : Sim (m ≠ .descriptive) ((@Mode.fmt h1 o m).encPrim p v) ((@Mode.fmt h2 o m).encPrim p v) := by
      rw [fmt_hosts h1 h2]; exact Sim.refl _
    cases p with
    | usize =>
      simp only [encPrim]
      split
      · rw [if_pos (by omega)]
        refine encUsize_same P Q m _ _ ?_
        rw [setWidth_toNat (by omega), setWidth_toNat (by omega)]
      · intro x hx; cases hx
    | isize => cases hi rfl
    | _ => exact rest

/-- On the same machine nothing changes with a higher limit. -/
theorem nums_mono (P : Ptr) {lim lim' : Nat} (hl : lim ≤ lim') (m : Mode) :
    JointN true True (@nums h1 P lim o m) (@nums h1 P lim' o m) where
  bits := hl
  len := by
    intro n bs h
    have l3 := pow_le hl
    change @encLen h1 P lim o n = .ok bs at h
    change @encLen h1 P lim' o n = .ok bs
    unfold encLen at h ⊢
    split at h
    · rw [if_pos (by omega), ← h]
    · cases h
  prim := by
    intro p v hi
    have l3 := pow_le hl
    show Sim _ (@encPrim h1 P lim o m p v) (@encPrim h1 P lim' o m p v)
    cases p with
    | usize =>
      simp only [encPrim]
      split
      · rw [if_pos (by omega)]
        exact Sim.refl _
      · intro x hx; cases hx
    | isize =>
      simp only [encPrim]
      have hp : (2 : Int) ^ (lim - 1) ≤ 2 ^ (lim' - 1) := by
        exact_mod_cast pow_le (a := lim - 1) (b := lim' - 1) (by omega)
      split
      · rw [if_pos (by omega)]
        exact Sim.refl _
      · intro x hx; cases hx
    | _ => exact Sim.refl _

theorem decodeUsize_nil (Q : Ptr) (u : BitVec Q.bits) (r : Bytes) : @decodeUsize h2 Q o [] ≠ .ok (u, r) := by
  unfold decodeUsize
  cases Opt.length o <;> simp [Dec.bind_apply, Varint.decode, Fixed.readBytes, Dec.readBytes, Int'.widthBits]

theorem encodeUsize_ne_nil (P : Ptr) (v : BitVec P.bits) {bs : Bytes} (h : @encodeUsize h1 P o v = .ok bs) :
    bs ≠ [] := by
  rintro rfl
  exact decodeUsize_nil P _ _ ((storage_outcome (h2 := h1) P P v h []).1 (.inl v.isLt))

theorem numsLen_ne_nil (P : Ptr) (lim : Nat) (n : Nat) (bs : Bytes)
    (h : (@nums h1 P lim o .packed).encLen n = .ok bs) : bs ≠ [] := by
  change @encLen h1 P lim o n = .ok bs at h
  unfold encLen at h
  split at h
  · exact encodeUsize_ne_nil P _ h
  · cases h

theorem numsPrim_ne_nil (P : Ptr) (lim : Nat) (p : Prim) (v : p.Val) (bs : Bytes)
    (h : (@nums h1 P lim o .packed).encPrim p v = .ok bs) : bs ≠ [] := by
  change @encPrim h1 P lim o .packed p v = .ok bs at h
  have rest : @Storage.encPrim h1 o p v = .ok bs → bs ≠ [] := @storage_prim_ne_nil h1 o p v bs
  cases p with
  | usize =>
    simp only [encPrim] at h
    split at h
    · exact encodeUsize_ne_nil P _ h
    · cases h
  | isize =>
    simp only [encPrim] at h
    split at h
    · exact encodeUsize_ne_nil P _ h
    · cases h
  | _ => exact rest h

theorem fmt_pack (Q : Ptr) (m : Mode) : (@fmt h2 Q o m).pack = (m == .packed) := by cases m <;> rfl

theorem fmt_delimited (Q : Ptr) (m : Mode) : (@fmt h2 Q o m).delimited = (m == .wire || m == .descriptive) := by
  cases m <;> rfl

/-- What `P` writes below `2 ^ lim` is read by `Q`. -/
theorem rt_below (P Q : Ptr) {lim : Nat} {iz H : Bool} (hP : lim ≤ P.bits) (hQ : lim ≤ Q.bits)
    (hz : iz = true → P = Q) (env : Env) (t : Ty) (m : Mode) (tail : Bool) (hok : t.ok false H m tail = true)
    (henv : t.envOk env) (hi : t.isizeOk iz = true) :
    RT tail (encG (@fmtBelow h1 P lim o) env t m) (decG (@fmt h2 Q o) env t m) :=
  rtG (E := @fmtBelow h1 P lim o) (D := @fmt h2 Q o) env
    (ofNums_cross fun m => nums_cross P Q hP hQ hz m _) (fmt_pack Q) (fmt_delimited Q)
    (fun t ht => nonemptyG_sound env (numsLen_ne_nil P lim) (numsPrim_ne_nil P lim) t ht)
    t m tail hok henv hi

/-- What a machine of 32 bits can write a machine of 64 bits can write. -/
theorem widen (env : Env) (t : Ty) (m : Mode) (v : t.Val) (hi : t.noIsize = true) :
    Sim (m ≠ .descriptive) (@encode h1 .w32 o env m t v) (encG (@fmtBelow h2 .w64 32 o) env t m v) :=
  encG_joint env (q := fun m => m ≠ .descriptive)
    (ofNums_joint fun m => nums_joint .w32 .w64 (Nat.le_refl 32) (by decide) (by decide) m) (by decide) t m v hi

theorem mono (P : Ptr) (env : Env) (t : Ty) (m : Mode) (v : t.Val) {lim : Nat} (hl : lim ≤ P.bits) {bs : Bytes}
    (h : encG (@fmtBelow h1 P lim o) env t m v = .ok bs) (hi : t.isizeOk true = true) :
    @encode h1 P o env m t v = .ok bs := by
  obtain ⟨bs', h', e⟩ := encG_joint env (q := fun _ => True)
    (ofNums_joint fun m => nums_mono P hl m) trivial t m v hi bs h
  rw [e trivial]
  exact h'

mutual
theorem isizeOk_true : ∀ t : Ty, t.isizeOk true = true
  | .prim p => by cases p <;> rfl
  | .option t => by simp only [Ty.isizeOk, isizeOk_true t]
  | .array _ t => by simp only [Ty.isizeOk, isizeOk_true t]
  | .vec t => by simp only [Ty.isizeOk, isizeOk_true t]
  | .set t => by simp only [Ty.isizeOk, isizeOk_true t]
  | .map k t => by simp only [Ty.isizeOk, isizeOk_true k, isizeOk_true t, Bool.and_self]
  | .tuple ts => by simp only [Ty.isizeOk, isizesOk_true ts]
  | .result _ t u => by simp only [Ty.isizeOk, isizeOk_true t, isizeOk_true u, Bool.and_self]
  | .boxed t => by simp only [Ty.isizeOk, isizeOk_true t]
  | .wrapping t => by simp only [Ty.isizeOk, isizeOk_true t]
  | .transparent t => by simp only [Ty.isizeOk, isizeOk_true t]
  | .strct _ fs => by simp only [Ty.isizeOk, isizefOk_true fs]
  | .packed _ fs => by simp only [Ty.isizeOk, isizefOk_true fs]
  | .enm _ vs => by simp only [Ty.isizeOk, isizevOk_true vs]
  | .nonZero _ _ => by simp only [Ty.isizeOk]
  | .unit => by simp only [Ty.isizeOk]
  | .bytes => by simp only [Ty.isizeOk]
  | .string => by simp only [Ty.isizeOk]
  | .byteArray _ => by simp only [Ty.isizeOk]
  | .unitStruct => by simp only [Ty.isizeOk]
  | .unitEnum _ _ => by simp only [Ty.isizeOk]
theorem isizesOk_true : ∀ ts : Tys, ts.isizeOk true = true
  | .nil => by simp only [Tys.isizeOk]
  | .cons t ts => by simp only [Tys.isizeOk, isizeOk_true t, isizesOk_true ts, Bool.and_self]
theorem isizefOk_true : ∀ fs : Fields, fs.isizeOk true = true
  | .nil => by simp only [Fields.isizeOk]
  | .cons _ _ _ t fs => by simp only [Fields.isizeOk, isizeOk_true t, isizefOk_true fs, Bool.and_self]
theorem isizevOk_true : ∀ vs : Variants, vs.isizeOk true = true
  | .nil => by simp only [Variants.isizeOk]
  | .cons _ t vs => by simp only [Variants.isizeOk, isizeOk_true t, isizevOk_true vs, Bool.and_self]
end

end Musli.Machine
