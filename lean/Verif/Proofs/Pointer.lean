import Verif.Model.Pointer
import Verif.Proofs.Portable
/-!
# Numbers written with one width of pointers and read with another
-/
namespace Musli.Ptr
open Musli.Spec

theorem bits_ge (P : Ptr) : 8 ≤ P.bits := by cases P <;> decide

theorem ofNat_setWidth {a b : Nat} (v : BitVec a) : v.setWidth b = BitVec.ofNat b v.toNat := by
  apply BitVec.eq_of_toNat_eq
  simp

/-- How many bits seven-bit groups of a `usize` can carry. -/
def groups (Q : Ptr) : Nat := 7 * ((Q.bits + 6) / 7)

theorem groups_ge (Q : Ptr) : Q.bits ≤ Q.groups := by cases Q <;> decide

theorem len_iff (Q : Ptr) (n : Nat) :
    ((Varint.natEnc n).length = 1 ∨ 7 * ((Varint.natEnc n).length - 1) < Q.bits) ↔ n < 2 ^ Q.groups := by
  obtain ⟨h1, h2, h3⟩ := Varint.length_natEnc n
  have e : ∀ k, (128 : Nat) ^ k = 2 ^ (7 * k) := fun k => by rw [Nat.pow_mul]
  generalize (Varint.natEnc n).length = k at *
  have hg : Q.groups = 7 * ((Q.bits + 6) / 7) := rfl
  have h8 := Q.bits_ge
  constructor
  · intro h
    have hk : 7 * k ≤ Q.groups := by omega
    have := Nat.pow_le_pow_right (n := 2) (by omega) hk
    rw [e] at h2
    omega
  · intro h
    by_cases hk : 1 < k
    · right
      have h4 := h3 hk
      rw [e] at h4
      have : (2:Nat) ^ (7 * (k - 1)) < 2 ^ Q.groups := by omega
      have := (Nat.pow_lt_pow_iff_right (a := 2) (by omega)).1 this
      omega
    · left; omega

theorem varint_ok (Q : Ptr) {n : Nat} (h : n < 2 ^ Q.groups) (rest : Bytes) :
    Varint.decode Q.bits (Varint.natEnc n ++ rest) = .ok (BitVec.ofNat Q.bits n, rest) := by
  obtain ⟨v', h'⟩ := Varint.decode_complete (Varint.wellFormed_natEnc n) ((Q.len_iff n).2 h) rest
  obtain ⟨c, h1, h2, _, h3⟩ := Varint.decode_sound Q.bits_ge h'
  obtain ⟨rfl, _⟩ := Varint.wellFormed_unique (Varint.wellFormed_natEnc _) h2 h1
  rw [h']
  congr 2
  apply BitVec.eq_of_toNat_eq
  rw [h3, Varint.denote_natEnc, BitVec.toNat_ofNat]

theorem varint_error (Q : Ptr) {n : Nat} (h : ¬n < 2 ^ Q.groups) (rest : Bytes) :
    ∃ e, Varint.decode Q.bits (Varint.natEnc n ++ rest) = .error e := by
  cases h' : Varint.decode Q.bits (Varint.natEnc n ++ rest) with
  | error e => exact ⟨e, rfl⟩
  | ok r =>
    obtain ⟨c, h1, h2, h3, _⟩ := Varint.decode_sound Q.bits_ge h'
    obtain ⟨rfl, _⟩ := Varint.wellFormed_unique (Varint.wellFormed_natEnc _) h2 h1
    exact absurd ((Q.len_iff n).1 h3) h

/-- The outcome of reading `n`: wrapped if the number fits into the groups, or an error. -/
def Outcome (Q : Ptr) (var : Bool) (n : Nat) (rest : Bytes) (r : Except Err (BitVec Q.bits × Bytes)) : Prop :=
  (n < 2 ^ Q.bits ∨ (var = true ∧ n < 2 ^ Q.groups) → r = .ok (BitVec.ofNat Q.bits n, rest)) ∧
  (2 ^ Q.bits ≤ n → (var = true → 2 ^ Q.groups ≤ n) → ∃ e, r = .error e)

theorem varint_outcome (Q : Ptr) (n : Nat) (rest : Bytes) :
    Outcome Q true n rest (Varint.decode Q.bits (Varint.natEnc n ++ rest)) := by
  constructor
  · intro h
    refine Q.varint_ok ?_ rest
    have := Nat.pow_le_pow_right (n := 2) (by omega) Q.groups_ge
    rcases h with h | ⟨-, h⟩ <;> omega
  · intro _ h
    refine Q.varint_error ?_ rest
    have := h rfl
    omega

variable {h1 h2 : Host} {o : Options}

theorem fixed_outcome (P Q : Ptr) {wd : Nat} (h8 : wd % 8 = 0) (v : BitVec P.bits) (hv : v.toNat < 2 ^ wd)
    (bo : ByteOrder) (rest : Bytes) :
    Outcome Q false v.toNat rest
      ((do let x ← @Fixed.readBytes h2 wd bo; Q.tryFrom x : Dec (BitVec Q.bits))
        (@Fixed.writeBytes h1 _ bo (v.setWidth wd) ++ rest)) := by
  rw [Musli.writeBytes_hosts h1 h2 h8]
  letI := h2
  rw [Dec.bind_ok (Fixed.readBytes_writeBytes h8 _ _ _)]
  have e : (v.setWidth wd).toNat = v.toNat := by
    rw [BitVec.toNat_setWidth, Nat.mod_eq_of_lt hv]
  constructor
  · intro h
    have h : v.toNat < 2 ^ Q.bits := by
      rcases h with h | ⟨h, -⟩
      · exact h
      · cases h
    unfold tryFrom
    rw [if_pos (by rw [e]; exact h), Dec.pure_apply, ofNat_setWidth, e]
  · intro h _
    unfold tryFrom
    rw [if_neg (by rw [e]; omega)]
    exact ⟨_, rfl⟩

theorem storage_outcome (P Q : Ptr) (v : BitVec P.bits) {bs : Bytes}
    (h : @encodeUsize h1 P o v = .ok bs) (rest : Bytes) :
    Outcome Q (Opt.length o == .variable) v.toNat rest (@decodeUsize h2 Q o (bs ++ rest)) := by
  unfold encodeUsize at h
  unfold decodeUsize
  cases hl : Opt.length o <;> rw [hl] at h <;> dsimp only at h ⊢
  · cases h
    rw [Varint.encode_eq P.bits_ge]
    exact Q.varint_outcome _ rest
  all_goals
    split at h
    · rename_i hv
      cases h
      exact fixed_outcome P Q (by decide) v hv _ rest
    · cases h

theorem cont_small (n : Nat) (h : n < 63) : Wire.kind (Wire.tag Wire.CONTINUATION (BitVec.ofNat 8 n)) = Wire.CONTINUATION ∧
    Wire.data (Wire.tag Wire.CONTINUATION (BitVec.ofNat 8 n)) = some (BitVec.ofNat 8 n) := by
  have : ∀ n < 63, Wire.kind (Wire.tag Wire.CONTINUATION (BitVec.ofNat 8 n)) = Wire.CONTINUATION ∧
    Wire.data (Wire.tag Wire.CONTINUATION (BitVec.ofNat 8 n)) = some (BitVec.ofNat 8 n) := by decide
  exact this n h

theorem wire_outcome (P Q : Ptr) (v : BitVec P.bits) {bs : Bytes}
    (h : @wireEnc h1 P o v = .ok bs) (rest : Bytes) :
    Outcome Q (Opt.length o == .variable) v.toNat rest (@wireDec h2 Q o (bs ++ rest)) := by
  unfold wireEnc at h
  unfold wireDec
  cases hl : Opt.length o <;> rw [hl] at h <;> dsimp only at h ⊢
  · split at h
    · rename_i hv
      cases h
      rw [ofNat_setWidth]
      obtain ⟨k1, k2⟩ := cont_small v.toNat hv
      rw [List.singleton_append, Dec.bind_ok (show Dec.readByte (_ :: rest) = .ok (_, rest) from rfl), if_pos k1, k2]
      have hq := Nat.pow_le_pow_right (n := 2) (by omega) Q.bits_ge
      constructor
      · intro _
        dsimp only
        rw [Dec.pure_apply, ofNat_setWidth, BitVec.toNat_ofNat, Nat.mod_eq_of_lt (a := v.toNat) (b := 2 ^ 8) (by omega)]
      · intro h; omega
    · cases h
      rw [List.cons_append, Dec.bind_ok (show Dec.readByte (_ :: _) = .ok (_, _) from rfl), if_pos (by decide),
        show Wire.data (Wire.tag Wire.CONTINUATION Wire.DATA_MASK) = none from by decide, Varint.encode_eq P.bits_ge]
      exact Q.varint_outcome _ rest
  all_goals
    split at h
    · rename_i hv
      obtain ⟨a, b, ha, hb, rfl⟩ := Enc.seq_eq_ok.1 h
      cases ha
      cases hb
      rw [List.append_assoc, List.singleton_append, Dec.bind_ok (show Dec.readByte (_ :: _) = .ok (_, _) from rfl),
        if_pos rfl]
      exact fixed_outcome P Q (by decide) v hv _ rest
    · cases h

theorem tag_number (w : IW) : Desc.kind (Desc.tag Desc.NUMBER (Desc.number w .unsigned)) = Desc.NUMBER ∧
    Desc.numberKind (Desc.tag Desc.NUMBER (Desc.number w .unsigned)) = .unsigned ∧
    Desc.kind (Desc.tag Desc.NUMBER (Desc.number w .signed)) = Desc.NUMBER ∧
    Desc.numberKind (Desc.tag Desc.NUMBER (Desc.number w .signed)) = .signed := by cases w <;> decide

/-- What reading the number behind a tag amounts to. -/
theorem decTyped_cons (Q : Ptr) {t : Byte} (ht : Desc.kind t = Desc.NUMBER) (s : Bytes) :
    Desc.decTyped Q.bits (t :: s) =
      (do let v ← Varint.decode Q.bits; pure (v, Desc.numberKind t) : Dec (BitVec Q.bits × Desc.NumberKind)) s := by
  unfold Desc.decTyped
  rw [Dec.bind_ok (show Dec.readByte (t :: s) = .ok (t, s) from rfl), if_pos ht]

theorem desc_outcome (P Q : Ptr) (v : BitVec P.bits) {bs : Bytes}
    (h : Desc.encTyped (Desc.number P.tagWidth .unsigned) v = .ok bs) (rest : Bytes) :
    Outcome Q true v.toNat rest (Desc.decTypedUnsigned Q.bits (bs ++ rest)) := by
  obtain ⟨t1, t2, -, -⟩ := tag_number P.tagWidth
  cases h
  rw [List.cons_append, Varint.encode_eq P.bits_ge]
  unfold Desc.decTypedUnsigned
  have ho := Q.varint_outcome v.toNat rest
  constructor
  · intro h
    have hr := ho.1 h
    rw [Dec.bind_ok (by rw [decTyped_cons Q t1, Dec.bind_ok hr, Dec.pure_apply])]
    rw [t2]
    rfl
  · intro h h'
    obtain ⟨e, he⟩ := ho.2 h h'
    refine ⟨e, ?_⟩
    rw [Dec.bind_error (by rw [decTyped_cons Q t1, Dec.bind_error he])]

theorem desc_signed (P Q : Ptr) (v : BitVec P.bits) {bs : Bytes}
    (h : Desc.encTyped (Desc.number P.tagWidth .signed) (ZigZag.encode v) = .ok bs) (rest : Bytes) :
    ((ZigZag.encode v).toNat < 2 ^ Q.groups → Desc.decTypedSigned Q.bits (bs ++ rest) =
      .ok (ZigZag.decode (BitVec.ofNat Q.bits (ZigZag.encode v).toNat), rest)) ∧
    (2 ^ Q.groups ≤ (ZigZag.encode v).toNat → ∃ e, Desc.decTypedSigned Q.bits (bs ++ rest) = .error e) := by
  obtain ⟨-, -, t1, t2⟩ := tag_number P.tagWidth
  cases h
  rw [List.cons_append, Varint.encode_eq P.bits_ge]
  unfold Desc.decTypedSigned
  constructor
  · intro h
    rw [Dec.bind_ok (by rw [decTyped_cons Q t1, Dec.bind_ok (Q.varint_ok h rest), Dec.pure_apply])]
    rw [t2]
    rfl
  · intro h
    obtain ⟨e, he⟩ := Q.varint_error (n := (ZigZag.encode v).toNat) (by omega) rest
    refine ⟨e, ?_⟩
    rw [Dec.bind_error (by rw [decTyped_cons Q t1, Dec.bind_error he])]

/-- Variable-length in this format with these options. -/
def isVar (o : Options) (m : Mode) : Bool := m == .descriptive || Opt.length o == .variable

theorem usize_outcome (P Q : Ptr) (m : Mode) (v : BitVec P.bits) {bs : Bytes}
    (h : @encUsize h1 P o m v = .ok bs) (rest : Bytes) :
    Outcome Q (isVar o m) v.toNat rest (@decUsize h2 Q o m (bs ++ rest)) := by
  cases m
  · exact storage_outcome P Q v h rest
  · exact storage_outcome P Q v h rest
  · exact wire_outcome P Q v h rest
  · exact desc_outcome P Q v h rest

theorem isize_outcome (P Q : Ptr) (m : Mode) (hm : m ≠ .descriptive) (v : BitVec P.bits) {bs : Bytes}
    (h : @encIsize h1 P o m v = .ok bs) (rest : Bytes) :
    Outcome Q (isVar o m) v.toNat rest (@decIsize h2 Q o m (bs ++ rest)) := by
  cases m
  · exact storage_outcome P Q v h rest
  · exact storage_outcome P Q v h rest
  · exact wire_outcome P Q v h rest
  · exact absurd rfl hm

/-- Zigzag of a number does not depend on the width. -/
theorem zigzag_toInt {w : Nat} (hw : 1 ≤ w) (x : BitVec w) :
    ((ZigZag.encode x).toNat : Int) = if x.toInt < 0 then -2 * x.toInt - 1 else 2 * x.toInt := by
  rw [ZigZag.encode_toNat hw]
  have hp := ZigZag.pow_pred hw
  have hlt := x.isLt
  have e : x.toInt = if 2 * x.toNat < 2 ^ w then (x.toNat : Int) else (x.toNat : Int) - ((2 ^ w : Nat) : Int) :=
    BitVec.toInt_eq_toNat_cond x
  rw [e]
  generalize (2 : Nat) ^ w = a at *
  generalize (2 : Nat) ^ (w - 1) = b at *
  by_cases h : x.toNat < b
  · rw [if_pos h, if_pos (show 2 * x.toNat < a by omega), if_neg (by omega)]; omega
  · rw [if_neg h, if_neg (show ¬2 * x.toNat < a by omega), if_pos (by omega)]; omega

end Musli.Ptr
