import Verif.Proofs.Lawful
import Verif.Spec.IntTy
/-!
# Reading a number as a different type (descriptive)
-/
namespace Musli.Desc

/-- The number written for the integer `x`. -/
def raw (signed : Bool) (x : Int) : Int :=
  if signed then (if 0 ≤ x then 2 * x else -2 * x - 1) else x

theorem zigzag_value {w : Nat} (hw : 1 ≤ w) (x : BitVec w) :
    ((ZigZag.encode x).toNat : Int) = raw true x.toInt := by
  have hp := ZigZag.pow_pred hw
  have hlt := x.isLt
  rw [ZigZag.encode_toNat hw, BitVec.toInt_eq_toNat_cond]
  simp only [raw, if_true]
  by_cases h : x.toNat < 2 ^ (w - 1)
  · rw [if_pos h, if_pos (by omega), if_pos (by omega)]; push_cast; rfl
  · rw [if_neg h, if_neg (by omega), if_neg (by omega)]
    omega

theorem iw_bits (w : IW) : 8 ≤ w.bits := by cases w <;> decide

/-- What is written for an integer: the tag and the base 128 digits. -/
theorem encPrim_int (s : IntTy) (v : s.prim.Val) (bs : Bytes) (h : encPrim s.prim v = .ok bs) :
    ∃ w n, bs = tag NUMBER (number w (if s.signed then .signed else .unsigned)) :: Varint.natEnc n ∧
      (n : Int) = raw s.signed (s.toInt v) := by
  cases s with
  | uint w =>
    cases h
    exact ⟨w, BitVec.toNat v, by rw [Varint.encode_eq (iw_bits w)]; rfl, rfl⟩
  | sint w =>
    cases h
    refine ⟨w, (ZigZag.encode (w := w.bits) v).toNat, by rw [Varint.encode_eq (iw_bits w)]; rfl, ?_⟩
    exact zigzag_value (by have := iw_bits w; omega) _
  | usize =>
    cases h
    exact ⟨.w64, BitVec.toNat v, by rw [Varint.encode_eq (by omega)]; rfl, rfl⟩
  | isize =>
    cases h
    refine ⟨.w64, (ZigZag.encode (w := 64) v).toNat, by rw [Varint.encode_eq (by omega)]; rfl, ?_⟩
    exact zigzag_value (by omega) _

theorem decTyped_num {w : Nat} (hw : 8 ≤ w) (iw : IW) (k : NumberKind) (n : Nat) (hn : n < 2 ^ w)
    (r : Bytes) :
    decTyped w (tag NUMBER (number iw k) :: (Varint.natEnc n ++ r)) =
      .ok ((BitVec.ofNat w n, k), r) := by
  have h := Varint.decode_natEnc hw (BitVec.ofNat w n) r
  rw [BitVec.toNat_ofNat, Nat.mod_eq_of_lt hn] at h
  unfold decTyped
  rw [Dec.bind_ok (Dec.readByte_cons _ _), if_pos (number_tag iw k).1, Dec.bind_ok h,
    (number_tag iw k).2]
  rfl

theorem msb_iff {w : Nat} (_hw : 1 ≤ w) (v : BitVec w) : v.msb = true ↔ 2 ^ (w - 1) ≤ v.toNat := by
  rw [BitVec.msb_eq_decide, decide_eq_true_eq]

/-- The integer under the zigzag number. -/
theorem zigzag_toInt {w : Nat} (hw : 1 ≤ w) (n : Nat) (hn : n < 2 ^ w) (x : Int)
    (hx : (n : Int) = raw true x) : (ZigZag.decode (BitVec.ofNat w n)).toInt = x := by
  have h1 := zigzag_value hw (ZigZag.decode (BitVec.ofNat w n))
  rw [ZigZag.encode_decode hw, BitVec.toNat_ofNat, Nat.mod_eq_of_lt hn, hx] at h1
  simp only [raw, if_true] at h1
  split at h1 <;> split at h1 <;> omega

theorem decTypedUnsigned_num {w : Nat} (hw : 8 ≤ w) (iw : IW) (sg : Bool) (n : Nat)
    (hn : n < 2 ^ w) (x : Int) (hx : (n : Int) = raw sg x) (r : Bytes) :
    ((0 ≤ x ∧ x < 2 ^ w) → ∃ v : BitVec w, (v.toNat : Int) = x ∧ decTypedUnsigned w
      (tag NUMBER (number iw (if sg then .signed else .unsigned)) :: (Varint.natEnc n ++ r)) = .ok (v, r)) ∧
    (¬(0 ≤ x ∧ x < 2 ^ w) → decTypedUnsigned w
      (tag NUMBER (number iw (if sg then .signed else .unsigned)) :: (Varint.natEnc n ++ r)) =
      .error .overflow) := by
  have hd := decTyped_num hw iw (if sg then .signed else .unsigned) n hn r
  have hn' : (n : Int) < 2 ^ w := by exact_mod_cast hn
  unfold decTypedUnsigned
  rw [Dec.bind_ok hd]
  cases sg with
  | false =>
    simp only [raw, Bool.false_eq_true, if_false] at hx ⊢
    refine ⟨fun _ => ⟨_, ?_, rfl⟩, fun h => absurd ⟨by omega, by omega⟩ h⟩
    rw [BitVec.toNat_ofNat, Nat.mod_eq_of_lt hn, hx]
  | true =>
    simp only [if_true]
    have hz := zigzag_toInt (by omega) n hn x hx
    have hneg : (ZigZag.decode (BitVec.ofNat w n)).msb = true ↔ x < 0 := by
      rw [BitVec.msb_eq_toInt, hz, decide_eq_true_eq]
    constructor
    · intro h
      rw [if_neg (by rw [hneg]; omega)]
      refine ⟨_, ?_, rfl⟩
      rw [← hz, BitVec.toInt_eq_toNat_of_msb (by
        rw [Bool.eq_false_iff, ne_eq, hneg]; omega)]
    · intro h
      rw [if_pos]
      · rfl
      · rw [hneg]
        simp only [raw, if_true] at hx
        rcases Int.lt_or_le x 0 with hh | hh
        · exact hh
        · rw [if_pos hh] at hx
          exact absurd ⟨by omega, by omega⟩ h

theorem decTypedSigned_num {w : Nat} (hw : 8 ≤ w) (iw : IW) (sg : Bool) (n : Nat)
    (hn : n < 2 ^ w) (x : Int) (hx : (n : Int) = raw sg x) (r : Bytes) :
    ((-2 ^ (w - 1) ≤ x ∧ x < 2 ^ (w - 1)) → ∃ v : BitVec w, v.toInt = x ∧ decTypedSigned w
      (tag NUMBER (number iw (if sg then .signed else .unsigned)) :: (Varint.natEnc n ++ r)) = .ok (v, r)) ∧
    (¬(-2 ^ (w - 1) ≤ x ∧ x < 2 ^ (w - 1)) → decTypedSigned w
      (tag NUMBER (number iw (if sg then .signed else .unsigned)) :: (Varint.natEnc n ++ r)) =
      .error .overflow) := by
  have hd := decTyped_num hw iw (if sg then .signed else .unsigned) n hn r
  have hn' : (n : Int) < 2 ^ w := by exact_mod_cast hn
  have hp : (2 : Int) ^ w = 2 * 2 ^ (w - 1) := by exact_mod_cast ZigZag.pow_pred (w := w) (by omega)
  unfold decTypedSigned
  rw [Dec.bind_ok hd]
  cases sg with
  | true =>
    simp only [if_true]
    have hz := zigzag_toInt (by omega) n hn x hx
    refine ⟨fun _ => ⟨_, hz, rfl⟩, fun h => absurd ?_ h⟩
    simp only [raw, if_true] at hx
    split at hx <;> omega
  | false =>
    simp only [raw, Bool.false_eq_true, if_false] at hx ⊢
    have hm := msb_iff (w := w) (by omega) (BitVec.ofNat w n)
    rw [BitVec.toNat_ofNat, Nat.mod_eq_of_lt hn] at hm
    have hm' : (BitVec.ofNat w n).msb = true ↔ (2 : Int) ^ (w - 1) ≤ x := by
      rw [hm, ← hx]; exact_mod_cast Iff.rfl
    constructor
    · intro h
      rw [if_neg (by rw [hm']; omega)]
      refine ⟨_, ?_, rfl⟩
      rw [BitVec.toInt_eq_toNat_of_msb (by rw [Bool.eq_false_iff, ne_eq, hm']; omega),
        BitVec.toNat_ofNat, Nat.mod_eq_of_lt hn, hx]
    · intro h
      rw [if_pos (by
        rw [hm']
        have h0 : (0 : Int) ≤ 2 ^ (w - 1) := Int.pow_nonneg (by omega)
        omega)]
      rfl

/-- A number with too many digits is rejected. -/
theorem decodeLoop_long {w : Nat} (i : Bytes) : ∀ (b : Byte) (value : BitVec w) (shift : Nat)
    (l : Byte) (r : Bytes), 128 ≤ b.toNat → (∀ x ∈ i, 128 ≤ x.toNat) →
    w ≤ shift + 7 * (i.length + 1) →
    Varint.decodeLoop b value shift (i ++ l :: r) = .error .overflow := by
  induction i with
  | nil =>
    intro b value shift l r hb _ h
    simp only [List.nil_append, Varint.decodeLoop]
    rw [if_pos ((Varint.and_cont_eq b).mpr hb), if_pos (by simpa using h)]
  | cons x i ih =>
    intro b value shift l r hb hi h
    simp only [List.cons_append, Varint.decodeLoop]
    rw [if_pos ((Varint.and_cont_eq b).mpr hb)]
    split
    · rfl
    · exact ih _ _ _ _ _ (hi x (by simp)) (fun y hy => hi y (by simp [hy]))
        (by simp only [List.length_cons] at h; omega)

theorem decode_long {w : Nat} (hw : 8 ≤ w) (n : Nat) (hn : 2 ^ (7 * ((w + 6) / 7)) ≤ n) (r : Bytes) :
    Varint.decode w (Varint.natEnc n ++ r) = .error .overflow := by
  obtain ⟨_, h2, _⟩ := Varint.length_natEnc n
  obtain ⟨i, l, hil, hi, hl⟩ := Varint.wellFormed_natEnc n
  have hlen : (w + 6) / 7 < (Varint.natEnc n).length := by
    rw [show (128 : Nat) = 2 ^ 7 from rfl, ← Nat.pow_mul] at h2
    have := (Nat.pow_lt_pow_iff_right (a := 2) (by omega)).1 (Nat.lt_of_le_of_lt hn h2)
    omega
  rw [hil] at hlen ⊢
  cases i with
  | nil => simp at hlen; omega
  | cons b i =>
    have hb := hi b (by simp)
    simp only [List.cons_append, List.append_assoc, List.nil_append, Varint.decode]
    rw [if_neg (by rw [Varint.and_cont_zero]; omega)]
    exact decodeLoop_long i b _ 0 l r hb (fun x hx => hi x (by simp [hx])) (by simp at hlen; omega)

theorem decTyped_long {w : Nat} (hw : 8 ≤ w) (iw : IW) (k : NumberKind) (n : Nat)
    (hn : 2 ^ (7 * ((w + 6) / 7)) ≤ n) (r : Bytes) :
    decTyped w (tag NUMBER (number iw k) :: (Varint.natEnc n ++ r)) = .error .overflow := by
  unfold decTyped
  rw [Dec.bind_ok (Dec.readByte_cons _ _), if_pos (number_tag iw k).1,
    Dec.bind_error (decode_long hw n hn r)]

end Musli.Desc
