import Verif.Proofs.Varint
namespace Musli

namespace ZigZag

theorem sshift_msb {w : Nat} (hw : 1 ≤ w) (x : BitVec w) :
    x.sshiftRight (w - 1) = if x.msb then BitVec.allOnes w else 0 := by
  apply BitVec.eq_of_getLsbD_eq
  intro i hi
  rw [BitVec.getLsbD_sshiftRight]
  have : ¬ w ≤ i := by omega
  simp only [this, decide_false, Bool.not_false, Bool.true_and]
  by_cases h0 : i = 0
  · subst h0
    have : w - 1 + 0 < w := by omega
    rw [if_pos this, Nat.add_zero, ← BitVec.msb_eq_getLsbD_last]
    cases x.msb <;> simp
    omega
  · have : ¬ w - 1 + i < w := by omega
    rw [if_neg this]
    cases x.msb <;> simp
    omega

theorem and_one {w : Nat} (hw : 1 ≤ w) (x : BitVec w) : (x &&& 1#w).toNat = x.toNat % 2 := by
  rw [BitVec.toNat_and, BitVec.toNat_ofNat, Nat.mod_eq_of_lt (Nat.one_lt_two_pow (by omega))]
  exact Nat.and_one_is_mod _

theorem neg_and_one {w : Nat} (hw : 1 ≤ w) (x : BitVec w) :
    -(x &&& 1#w) = if x.toNat % 2 = 1 then BitVec.allOnes w else 0 := by
  apply BitVec.eq_of_toNat_eq
  rw [BitVec.toNat_neg, and_one hw]
  have h1 : 1 < 2 ^ w := Nat.one_lt_two_pow (by omega)
  rcases Nat.mod_two_eq_zero_or_one x.toNat with h | h
  · simp [h]
  · simp [h, BitVec.toNat_allOnes]

theorem toNat_not {w : Nat} (x : BitVec w) : (~~~ x).toNat = 2 ^ w - 1 - x.toNat :=
  BitVec.toNat_not

theorem pow_pred {w : Nat} (hw : 1 ≤ w) : 2 ^ w = 2 * 2 ^ (w - 1) := by
  obtain ⟨k, rfl⟩ : ∃ k, w = k + 1 := ⟨w - 1, by omega⟩
  rw [Nat.pow_succ, Nat.mul_comm, Nat.add_sub_cancel]

theorem encode_toNat {w : Nat} (hw : 1 ≤ w) (x : BitVec w) :
    (encode x).toNat =
      if x.toNat < 2 ^ (w - 1) then 2 * x.toNat else 2 * (2 ^ w - x.toNat) - 1 := by
  have hp := pow_pred hw
  have hlt := x.isLt
  unfold encode
  rw [sshift_msb hw, BitVec.msb_eq_decide]
  by_cases h : x.toNat < 2 ^ (w - 1)
  · have : ¬ 2 ^ (w - 1) ≤ x.toNat := by omega
    simp only [this, decide_false, if_pos h]
    simp [BitVec.toNat_shiftLeft, Nat.shiftLeft_eq]
    rw [Nat.mod_eq_of_lt] <;> omega
  · have h' : 2 ^ (w - 1) ≤ x.toNat := by omega
    simp only [h', decide_true, if_true, if_neg h]
    rw [BitVec.allOnes_xor, toNat_not, BitVec.toNat_shiftLeft, Nat.shiftLeft_eq]
    have : x.toNat * 2 ^ 1 % 2 ^ w = 2 * x.toNat - 2 ^ w := by
      rw [Nat.mod_eq_sub_mod (by omega), Nat.mod_eq_of_lt (by omega)]
      omega
    rw [this]; omega

theorem decode_toNat {w : Nat} (hw : 1 ≤ w) (x : BitVec w) :
    (decode x).toNat = if x.toNat % 2 = 0 then x.toNat / 2 else 2 ^ w - 1 - x.toNat / 2 := by
  unfold decode
  rw [neg_and_one hw]
  rcases Nat.mod_two_eq_zero_or_one x.toNat with h | h
  · simp [h, BitVec.toNat_ushiftRight, Nat.shiftRight_eq_div_pow]
  · simp only [h, if_true]
    rw [BitVec.xor_comm, BitVec.allOnes_xor, toNat_not]
    simp [BitVec.toNat_ushiftRight, Nat.shiftRight_eq_div_pow]

theorem decode_encode {w : Nat} (hw : 1 ≤ w) (x : BitVec w) : decode (encode x) = x := by
  apply BitVec.eq_of_toNat_eq
  have hp := pow_pred hw
  have hlt := x.isLt
  rw [decode_toNat hw, encode_toNat hw]
  by_cases h : x.toNat < 2 ^ (w - 1)
  · simp only [if_pos h]; rw [if_pos (by omega)]; omega
  · simp only [if_neg h]; rw [if_neg (by omega)]; omega

theorem encode_decode {w : Nat} (hw : 1 ≤ w) (x : BitVec w) : encode (decode x) = x := by
  apply BitVec.eq_of_toNat_eq
  have hp := pow_pred hw
  have hlt := x.isLt
  rw [encode_toNat hw, decode_toNat hw]
  by_cases h : x.toNat % 2 = 0
  · simp only [if_pos h]; rw [if_pos (by omega)]; omega
  · simp only [if_neg h]; rw [if_neg (by omega)]; omega

end ZigZag

namespace Fixed

theorem length_leBytes {w : Nat} (n : Nat) (v : BitVec w) : (leBytes n v).length = n := by
  induction n generalizing v with
  | zero => rfl
  | succ n ih => simp [leBytes, ih]

/-- Little-endian value of a byte string. -/
def leNat : Bytes → Nat
  | [] => 0
  | b :: s => b.toNat + 256 * leNat s

theorem leNat_lt (l : Bytes) : leNat l < 256 ^ l.length := by
  induction l with
  | nil => simp [leNat]
  | cons b s ih => have := b.isLt; simp only [leNat, List.length_cons, Nat.pow_succ]; omega

theorem leNat_inj {a b : Bytes} (hl : a.length = b.length) (h : leNat a = leNat b) : a = b := by
  induction a generalizing b with
  | nil => cases b <;> simp_all
  | cons x a ih =>
    cases b with
    | nil => simp at hl
    | cons y b =>
      have hx := x.isLt; have hy := y.isLt
      simp only [leNat] at h
      have h1 : x.toNat = y.toNat := by omega
      have h2 : leNat a = leNat b := by omega
      rw [BitVec.eq_of_toNat_eq h1, ih (by simpa using hl) h2]

theorem leNat_leBytes {w : Nat} (n : Nat) (v : BitVec w) :
    leNat (leBytes n v) = v.toNat % 256 ^ n := by
  induction n generalizing v with
  | zero => simp [leBytes, leNat, Nat.mod_one]
  | succ n ih =>
    simp only [leBytes, leNat, ih, BitVec.toNat_setWidth, BitVec.toNat_ushiftRight,
      Nat.shiftRight_eq_div_pow]
    rw [show (256:Nat) ^ (n + 1) = 256 * 256 ^ n by rw [Nat.pow_succ, Nat.mul_comm], Nat.mod_mul]

theorem toNat_ofLeBytes (w : Nat) (l : Bytes) (h : 8 * l.length ≤ w) :
    (ofLeBytes w l).toNat = leNat l := by
  induction l generalizing w with
  | nil => simp [ofLeBytes, leNat]
  | cons b s ih =>
    simp only [List.length_cons] at h
    have hlt := leNat_lt s
    have hb := b.isLt
    have h2 : (256:Nat) ^ (s.length + 1) ≤ 2 ^ w := by
      rw [show (256:Nat) = 2 ^ 8 from rfl, ← Nat.pow_mul]
      exact Nat.pow_le_pow_right (by omega) (by omega)
    rw [Nat.pow_succ] at h2
    simp only [ofLeBytes, leNat, BitVec.toNat_or, BitVec.toNat_setWidth, BitVec.toNat_shiftLeft,
      ih w (by omega)]
    rw [Nat.shiftLeft_eq, Nat.mod_eq_of_lt (by omega), Nat.mod_eq_of_lt (by omega)]
    rw [← Nat.shiftLeft_eq, Nat.or_comm, ← Nat.shiftLeft_add_eq_or_of_lt (by omega),
      Nat.shiftLeft_eq]
    omega

theorem ofLeBytes_leBytes {w : Nat} (h8 : w % 8 = 0) (v : BitVec w) :
    ofLeBytes w (leBytes (w / 8) v) = v := by
  apply BitVec.eq_of_toNat_eq
  rw [toNat_ofLeBytes _ _ (by rw [length_leBytes]; omega), leNat_leBytes,
    show (256:Nat) = 2 ^ 8 from rfl, ← Nat.pow_mul, show 8 * (w / 8) = w by omega,
    Nat.mod_eq_of_lt v.isLt]

theorem leBytes_ofLeBytes {w : Nat} (h8 : w % 8 = 0) (l : Bytes) (hl : l.length = w / 8) :
    leBytes (w / 8) (ofLeBytes w l) = l := by
  apply leNat_inj (by rw [length_leBytes, hl])
  rw [leNat_leBytes, toNat_ofLeBytes _ _ (by omega), Nat.mod_eq_of_lt]
  rw [← hl]; exact leNat_lt l

theorem leBytes_swap {w : Nat} (h8 : w % 8 = 0) (v : BitVec w) :
    leBytes (w / 8) (swap v) = (leBytes (w / 8) v).reverse := by
  unfold swap
  rw [leBytes_ofLeBytes h8 _ (by rw [List.length_reverse, length_leBytes])]

theorem swap_swap {w : Nat} (h8 : w % 8 = 0) (v : BitVec w) : swap (swap v) = v := by
  rw [swap, leBytes_swap h8, List.reverse_reverse, ofLeBytes_leBytes h8]

theorem length_toNe [Host] {w : Nat} (v : BitVec w) : (toNe v).length = w / 8 := by
  unfold toNe; split <;> simp [length_leBytes]

theorem length_writeBytes [Host] {w : Nat} (bo : ByteOrder) (v : BitVec w) :
    (writeBytes bo v).length = w / 8 := length_toNe _

theorem ofNe_toNe [Host] {w : Nat} (h8 : w % 8 = 0) (v : BitVec w) : ofNe w (toNe v) = v := by
  unfold ofNe toNe
  cases Host.order <;> simp [ofLeBytes_leBytes h8]

/-- The bytes written only depend on the requested order, not on the host. -/
theorem writeBytes_eq [Host] {w : Nat} (h8 : w % 8 = 0) (bo : ByteOrder) (v : BitVec w) :
    writeBytes bo v = match bo with
      | .little => leBytes (w / 8) v
      | .big => (leBytes (w / 8) v).reverse := by
  unfold writeBytes toNe
  cases bo <;> cases h : (Host.order) <;> simp [leBytes_swap h8]

theorem readBytes_writeBytes [Host] {w : Nat} (h8 : w % 8 = 0) (bo : ByteOrder) (v : BitVec w)
    (rest : Bytes) : readBytes w bo (writeBytes bo v ++ rest) = .ok (v, rest) := by
  unfold readBytes
  rw [Dec.bind_ok (Dec.readBytes_append' _ _ (length_writeBytes bo v)), Dec.pure_apply]
  unfold writeBytes
  rw [ofNe_toNe h8]
  by_cases h : bo = Host.order <;> simp [h, swap_swap h8]

end Fixed

namespace Int'

theorem decodeUnsigned_encodeUnsigned [Host] (o : Options) {w : Nat} (hw : 8 ≤ w) (h8 : w % 8 = 0)
    (v : BitVec w) (rest : Bytes) :
    decodeUnsigned o w (encodeUnsigned o v ++ rest) = .ok (v, rest) := by
  unfold decodeUnsigned encodeUnsigned
  cases Opt.integer o
  · exact Varint.decode_encode hw v rest
  · exact Fixed.readBytes_writeBytes h8 _ v rest

theorem decodeSigned_encodeSigned [Host] (o : Options) {w : Nat} (hw : 8 ≤ w) (h8 : w % 8 = 0)
    (v : BitVec w) (rest : Bytes) :
    decodeSigned o w (encodeSigned o v ++ rest) = .ok (v, rest) := by
  unfold decodeSigned encodeSigned
  cases Opt.integer o
  · simp only
    rw [Dec.bind_ok (Varint.decode_encode hw _ rest), Dec.pure_apply,
      ZigZag.decode_encode (by omega)]
  · exact Fixed.readBytes_writeBytes h8 _ v rest

theorem decodeUsize_encodeUsize [Host] (o : Options) (v : BitVec 64) {bs : Bytes}
    (h : encodeUsize o v = .ok bs) (rest : Bytes) :
    decodeUsize o (bs ++ rest) = .ok (v, rest) := by
  have key : ∀ wd : Width, v.toNat < 2 ^ widthBits wd →
      (do let x ← Fixed.readBytes (widthBits wd) (Opt.byteorder o); pure (x.setWidth 64) : Dec (BitVec 64))
        (Fixed.writeBytes (Opt.byteorder o) (v.setWidth (widthBits wd)) ++ rest) = .ok (v, rest) := by
    intro wd hv
    rw [Dec.bind_ok (Fixed.readBytes_writeBytes (by cases wd <;> rfl) _ _ _), Dec.pure_apply]
    congr 2
    apply BitVec.eq_of_toNat_eq
    simp only [BitVec.toNat_setWidth]
    rw [Nat.mod_eq_of_lt hv, Nat.mod_eq_of_lt v.isLt]
  unfold encodeUsize at h
  unfold decodeUsize
  cases hl : Opt.length o <;> rw [hl] at h <;> simp only at h ⊢
  · cases h; exact Varint.decode_encode (by omega) v rest
  all_goals
    split at h
    · rename_i hv
      cases h
      exact key _ hv
    · cases h

theorem encodeUsize_ok_iff [Host] (o : Options) (v : BitVec 64) :
    (∃ bs, encodeUsize o v = .ok bs) ↔
      Opt.length o = .variable ∨ v.toNat < 2 ^ widthBits (Opt.length o) := by
  unfold encodeUsize
  cases hl : Opt.length o <;> simp only
  · simp
  all_goals
    split <;> simp_all

end Int'
end Musli
