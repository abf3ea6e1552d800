import Verif.Model.Zero.Ref
/-! Lemmas about references and byte orders. -/
namespace Musli.Zero
open Musli

theorem toLittle_length (w n : Nat) : (toLittle w n).length = w := by
  induction w generalizing n with
  | zero => rfl
  | succ w ih => simp [toLittle, ih]

theorem numBytes_length (E : ByteOrder) (w n : Nat) : (numBytes E w n).length = w := by
  cases E <;> simp [numBytes, toLittle_length]

theorem little_toLittle (w n : Nat) : Grammar.little (toLittle w n) = n % 256 ^ w := by
  induction w generalizing n with
  | zero => simp [toLittle, Grammar.little, Nat.mod_one]
  | succ w ih =>
    have h := Nat.mod_mul (x := n) (a := 256) (b := 256 ^ w)
    rw [toLittle, Grammar.little, ih, BitVec.toNat_ofNat, Nat.pow_succ' (n := w), h]

theorem little_lt (s : Bytes) : Grammar.little s < 256 ^ s.length := by
  induction s with
  | nil => simp [Grammar.little]
  | cons b s ih =>
    have hb : b.toNat < 256 := b.isLt
    rw [Grammar.little, List.length_cons, Nat.pow_succ']
    have : 256 * (Grammar.little s + 1) ≤ 256 * 256 ^ s.length := Nat.mul_le_mul_left _ ih
    omega

theorem toLittle_little (s : Bytes) : toLittle s.length (Grammar.little s) = s := by
  induction s with
  | nil => rfl
  | cons b s ih =>
    have hb : b.toNat < 256 := b.isLt
    rw [List.length_cons, toLittle, Grammar.little]
    have h1 : (b.toNat + 256 * Grammar.little s) / 256 = Grammar.little s := by omega
    rw [h1, ih]
    congr 1
    apply BitVec.eq_of_toNat_eq
    rw [BitVec.toNat_ofNat]
    omega

theorem fixed_numBytes (E : ByteOrder) {w n : Nat} (hn : n < 256 ^ w) : Grammar.fixed E (numBytes E w n) = n := by
  cases E <;> simp [Grammar.fixed, numBytes, little_toLittle, Nat.mod_eq_of_lt hn]

theorem swapNum_lt (w n : Nat) : swapNum w n < 256 ^ w := by
  have := little_lt (toLittle w n).reverse
  rwa [List.length_reverse, toLittle_length] at this

theorem toLittle_swapNum (w n : Nat) : toLittle w (swapNum w n) = (toLittle w n).reverse := by
  have := toLittle_little (toLittle w n).reverse
  rwa [List.length_reverse, toLittle_length] at this

theorem orderSwap_lt (P : Platform) (E : ByteOrder) {w n : Nat} (hn : n < 256 ^ w) : orderSwap P E w n < 256 ^ w := by
  unfold orderSwap
  split
  · exact hn
  · exact swapNum_lt w n

/-- The bytes of a number which has been swapped are those in the order which was asked for. -/
theorem numBytes_orderSwap (P : Platform) (E : ByteOrder) (w n : Nat) :
    numBytes P.order w (orderSwap P E w n) = numBytes E w n := by
  unfold orderSwap
  split
  · next h => rw [h]
  · next h =>
    revert h
    cases P.order <;> cases E <;> simp [numBytes, toLittle_swapNum]

/-- Swapping a number gives the number its bytes are in the order. -/
theorem fixed_native (P : Platform) (E : ByteOrder) {w n : Nat} (hn : n < 256 ^ w) :
    Grammar.fixed E (numBytes P.order w n) = orderSwap P E w n := by
  have h := numBytes_orderSwap P E w (orderSwap P E w n)
  have h2 : orderSwap P E w (orderSwap P E w n) = n := by
    apply Eq.trans (b := Grammar.fixed P.order (numBytes P.order w (orderSwap P E w (orderSwap P E w n))))
    · rw [fixed_numBytes _ (orderSwap_lt P E (orderSwap_lt P E hn))]
    · rw [h]
      unfold orderSwap
      split
      · next he => rw [he, fixed_numBytes _ hn]
      · next he =>
        have : numBytes E w (swapNum w n) = numBytes P.order w n := by
          revert he
          cases P.order <;> cases E <;> simp [numBytes, toLittle_swapNum]
        rw [this, fixed_numBytes _ hn]
  rw [h2] at h
  rw [h, fixed_numBytes _ (orderSwap_lt P E hn)]

theorem orderSwap_orderSwap (P : Platform) (E : ByteOrder) {w n : Nat} (hn : n < 256 ^ w) :
    orderSwap P E w (orderSwap P E w n) = n := by
  rw [← fixed_native P E (orderSwap_lt P E hn), numBytes_orderSwap, fixed_numBytes _ hn]

theorem pow_bytes (w : Nat) : 2 ^ (8 * w) = 256 ^ w := by
  rw [Nat.pow_mul]

theorem swapNum_one {n : Nat} (hn : n < 256) : swapNum 1 n = n := by
  simp only [swapNum, toLittle, List.reverse_cons, List.reverse_nil, List.nil_append, Grammar.little,
    BitVec.toNat_ofNat]
  omega

variable {P : Platform} {O : SizeTy} {E : ByteOrder}

theorem swapBytes_eq {n : Nat} (hn : n < 256 ^ O.bytes P) : O.swapBytes P E n = orderSwap P E (O.bytes P) n := by
  cases O <;> try rfl
  simp only [SizeTy.swapBytes, SizeTy.bytes, orderSwap] at hn ⊢
  split
  · rfl
  · rw [swapNum_one (by omega)]

theorem swapBytes_lt {n : Nat} (hn : n < 256 ^ O.bytes P) : O.swapBytes P E n < 256 ^ O.bytes P := by
  rw [swapBytes_eq hn]; exact orderSwap_lt P E hn

theorem bytes_le (h : O.ok P) : O.bytes P ≤ P.ptr := by
  obtain ⟨h1, h2⟩ := h
  cases O <;> simp only [SizeTy.bytes] <;> simp at h2 <;> omega

theorem bytes_pos (h : O.ok P) : 0 < O.bytes P := by
  obtain ⟨h1, h2⟩ := h
  cases O <;> simp only [SizeTy.bytes] <;> omega

theorem sizeMax (h : O.ok P) : (2 ^ (8 * P.ptr) - 1) % 2 ^ (8 * O.bytes P) = 256 ^ O.bytes P - 1 := by
  rw [pow_bytes, pow_bytes]
  obtain ⟨k, hk⟩ := Nat.exists_eq_add_of_le (bytes_le h)
  have hp : 0 < 256 ^ O.bytes P := Nat.pow_pos (by omega)
  have hq : 0 < 256 ^ k := Nat.pow_pos (by omega)
  rw [hk, Nat.pow_add]
  obtain ⟨a, ha⟩ : ∃ a, 256 ^ k = a + 1 := ⟨256 ^ k - 1, by omega⟩
  rw [ha]
  have : 256 ^ O.bytes P * (a + 1) - 1 = (256 ^ O.bytes P - 1) + 256 ^ O.bytes P * a := by
    rw [Nat.mul_add]; omega
  rw [this, Nat.add_mul_mod_self_left, Nat.mod_eq_of_lt (by omega)]

/-- What `as_usize` does. -/
theorem asUsize_eq (h : O.ok P) {n : Nat} (hn : n < 256 ^ O.bytes P) (ho : O ≠ .usize ∨ P.order = E) :
    O.asUsize P E n = orderSwap P E (O.bytes P) n := by
  unfold SizeTy.asUsize
  rw [sizeMax h, if_neg (by omega)]
  have := swapBytes_eq (E := E) hn
  cases O <;> first | exact this | skip
  rcases ho with ho | ho
  · exact absurd rfl ho
  · simp [orderSwap, ho]

theorem tryFrom_some {n : Nat} (hn : n < 256 ^ O.bytes P) : O.tryFrom P n = some n := by
  simp only [SizeTy.tryFrom, pow_bytes]
  rw [if_neg (by omega)]

theorem tryFrom_none {n : Nat} (hn : 256 ^ O.bytes P ≤ n) : O.tryFrom P n = none := by
  simp only [SizeTy.tryFrom, pow_bytes]
  rw [if_pos (by omega)]

/-- A stored number which reads as `n`. -/
theorem asUsize_swapBytes (h : O.ok P) {n : Nat} (hn : n < 256 ^ O.bytes P) (ho : O ≠ .usize ∨ P.order = E) :
    O.asUsize P E (O.swapBytes P E n) = n := by
  rw [asUsize_eq h (swapBytes_lt hn) ho, swapBytes_eq hn, orderSwap_orderSwap P E hn]

theorem swapBytes_asUsize (h : O.ok P) {n : Nat} (hn : n < 256 ^ O.bytes P) (ho : O ≠ .usize ∨ P.order = E) :
    O.swapBytes P E (O.asUsize P E n) = n := by
  rw [asUsize_eq h hn ho, swapBytes_eq (orderSwap_lt P E hn), orderSwap_orderSwap P E hn]

theorem asUsize_lt (h : O.ok P) {n : Nat} (hn : n < 256 ^ O.bytes P) (ho : O ≠ .usize ∨ P.order = E) :
    O.asUsize P E n < 256 ^ O.bytes P := by
  rw [asUsize_eq h hn ho]; exact orderSwap_lt P E hn

theorem numBytes_swapBytes {n : Nat} (hn : n < 256 ^ O.bytes P) :
    numBytes P.order (O.bytes P) (O.swapBytes P E n) = numBytes E (O.bytes P) n := by
  rw [swapBytes_eq hn, numBytes_orderSwap]

theorem new_ok {n : Nat} (hn : n < 256 ^ O.bytes P) : ZRef.new P O E n = .ok ⟨O.swapBytes P E n, none⟩ := by
  simp only [ZRef.new, tryFrom_some hn]

theorem withMetadata_ok {n : Nat} {l : Option Nat} (hn : n < 256 ^ O.bytes P) (hl : ∀ k, l = some k → k < 256 ^ O.bytes P) :
    ZRef.withMetadata P O E n l = .ok ⟨O.swapBytes P E n, l.map (O.swapBytes P E)⟩ := by
  simp only [ZRef.withMetadata, tryFrom_some hn]
  cases l with
  | none => rfl
  | some k => simp [tryFromMetadata, tryFrom_some (hl k rfl), swapMeta]

end Musli.Zero
