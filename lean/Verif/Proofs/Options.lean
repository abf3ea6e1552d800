import Verif.Model.Options
namespace Musli.Opt

/-- Bits of a mask of `len` ones. -/
def ones (len : Nat) : BitVec 32 := BitVec.ofNat 32 (2 ^ len - 1)

theorem getLsbD_ones (len i : Nat) (hi : i < 32) : (ones len).getLsbD i = decide (i < len) := by
  rw [ones, BitVec.getLsbD_ofNat, Nat.testBit_two_pow_sub_one]; simp [hi]

theorem getLsbD_set (o v : Options) (len bit j : Nat) (hj : j < 32) :
    (set o (ones len) v bit).getLsbD j =
      if bit ≤ j then
        if j < bit + len then v.getLsbD (j - bit) else (o.getLsbD j || v.getLsbD (j - bit))
      else o.getLsbD j := by
  unfold set
  simp only [BitVec.getLsbD_or, BitVec.getLsbD_and, BitVec.getLsbD_not, BitVec.getLsbD_shiftLeft,
    hj, decide_true, Bool.true_and]
  by_cases h1 : bit ≤ j
  · have h2 : ¬ j < bit := by omega
    have h3 : j - bit < 32 := by omega
    simp only [h1, if_true, h2, decide_false, Bool.not_false, Bool.true_and, getLsbD_ones _ _ h3]
    by_cases h4 : j < bit + len
    · have : j - bit < len := by omega
      simp [h4, this]
    · have : ¬ j - bit < len := by omega
      simp [h4, this]
  · have h2 : j < bit := by omega
    simp [h1, h2]

theorem getLsbD_field (o : Options) (len bit i : Nat) (hi : i < 32) :
    (field o (ones len) bit).getLsbD i = (decide (i < len) && o.getLsbD (bit + i)) := by
  rw [field, BitVec.getLsbD_and, BitVec.getLsbD_ushiftRight, getLsbD_ones _ _ hi, Bool.and_comm]

/-- Reading the field that was just written. -/
theorem get_set_same (o v : Options) (len bit : Nat) (hb : bit + len ≤ 32)
    (hv : v &&& ones len = v) :
    field (set o (ones len) v bit) (ones len) bit = v := by
  apply BitVec.eq_of_getLsbD_eq
  intro i hi
  rw [getLsbD_field _ _ _ _ hi]
  by_cases h : i < len
  · rw [getLsbD_set _ _ _ _ _ (by omega)]
    have h1 : bit ≤ bit + i := by omega
    have h2 : bit + i < bit + len := by omega
    simp [h, h2]
  · have := congrArg (fun x => x.getLsbD i) hv
    simp only [BitVec.getLsbD_and, getLsbD_ones _ _ hi, h, decide_false, Bool.and_false] at this
    simp [h, ← this]

/-- Reading a field that does not overlap the written one. -/
theorem get_set_other (o v : Options) (len bit len' bit' : Nat)
    (hv : v &&& ones len = v) (hb' : bit' + len' ≤ 32)
    (hd : bit' + len' ≤ bit ∨ bit + len ≤ bit') :
    field (set o (ones len) v bit) (ones len') bit' = field o (ones len') bit' := by
  apply BitVec.eq_of_getLsbD_eq
  intro i hi
  rw [getLsbD_field _ _ _ _ hi, getLsbD_field _ _ _ _ hi]
  by_cases h : i < len'
  · rw [getLsbD_set _ _ _ _ _ (by omega)]
    simp only [h, decide_true, Bool.true_and]
    by_cases h1 : bit ≤ bit' + i
    · have h2 : ¬ bit' + i < bit + len := by omega
      rw [if_pos h1, if_neg h2]
      have := congrArg (fun x => x.getLsbD (bit' + i - bit)) hv
      have h3 : ¬ bit' + i - bit < len := by omega
      simp only [BitVec.getLsbD_and, getLsbD_ones len _ (show bit' + i - bit < 32 by omega), h3,
        decide_false, Bool.and_false] at this
      simp [← this]
    · rw [if_neg h1]
  · simp [h]

end Musli.Opt
