import Verif.Proofs.Float.Lemire
import Verif.Model.Dec2Flt.Main
import Mathlib.Tactic.IntervalCases
/-!
# The algorithm of Eisel and Lemire is correct: the result
-/
set_option linter.unusedSectionVars false
namespace Musli.Dec2Flt
open Musli.Spec.Float

/-- What the proofs use of the constants of a float type. -/
structure Lawful (R : RawFloat) (s : Nat) : Prop where
  mant : R.mantBits = R.fmt.mant
  one : 1 ≤ R.fmt.mant
  tie : TieRange R.mantBits s R.minRoundEven R.maxRoundEven
  minExp : R.minExp = -R.fmt.bias
  minExp100 : R.minExp ≤ -100
  infPower : R.infPower = ((2 ^ R.fmt.expBits - 1 : Nat) : Int)
  infPos : 1 ≤ 2 ^ R.fmt.expBits - 1
  lo10 : -342 ≤ R.smallest10
  hi10 : R.largest10 ≤ 308
  zero : 2 * (2 ^ 64 * (10 : ℚ) ^ (R.smallest10 - 1)) ≤ R.fmt.value 1
  big : R.fmt.value R.fmt.inf ≤ (10 : ℚ) ^ (R.largest10 + 1)

theorem and_low (x m : Nat) : x &&& (1 <<< m - 1) = x % 2 ^ m := by
  rw [Nat.shiftLeft_eq, Nat.one_mul, Nat.and_two_pow_sub_one_eq_mod]

theorem and_one (x : Nat) : x &&& 1 = x % 2 := Nat.and_two_pow_sub_one_eq_mod x 1
theorem and_three (x : Nat) : x &&& 3 = x % 4 := Nat.and_two_pow_sub_one_eq_mod x 2

theorem clear_bit (m r : Nat) (hm : m < 63) (hr : r < 2 ^ m) :
    (2 ^ m + r) &&& (0xFFFFFFFFFFFFFFFF - 1 <<< m) = r := by
  have hpow : 2 ^ m < 2 ^ 64 := Nat.pow_lt_pow_right (by norm_num) (by omega)
  have he : (0xFFFFFFFFFFFFFFFF - 1 <<< m : Nat) = 2 ^ 64 - (2 ^ m + 1) := by
    rw [Nat.shiftLeft_eq, Nat.one_mul]; omega
  rw [he]
  apply Nat.eq_of_testBit_eq
  intro i
  rw [Nat.testBit_and, Nat.testBit_two_pow_sub_succ hpow, Nat.testBit_two_pow]
  rcases Nat.lt_trichotomy i m with h | h | h
  · rw [Nat.testBit_two_pow_add_gt h]
    have h1 : i < 64 := by omega
    have h2 : ¬ m = i := by omega
    simp [h1, h2]
  · subst h
    have : r.testBit i = false := Nat.testBit_lt_two_pow hr
    simp [this]
  · have : (2 ^ m + r).testBit i = false := by
      apply Nat.testBit_lt_two_pow
      calc 2 ^ m + r < 2 ^ m + 2 ^ m := by omega
        _ = 2 ^ (m + 1) := by rw [Nat.pow_succ]; omega
        _ ≤ 2 ^ i := Nat.pow_le_pow_right (by norm_num) (by omega)
    rw [this, Nat.testBit_lt_two_pow (lt_of_lt_of_le hr (Nat.pow_le_pow_right (by norm_num) (by omega)))]
    simp

theorem or_shift (f e m : Nat) (hf : f < 2 ^ m) : f ||| e <<< m = e * 2 ^ m + f := by
  rw [Nat.or_comm, ← Nat.shiftLeft_add_eq_or_of_lt hf, Nat.shiftLeft_eq]

/-- Rounding half of a number whose integer part is known. -/
theorem roundsTo_half {Y : ℚ} {M : Nat} (tie : Bool) (h1 : (M : ℚ) ≤ Y) (h2 : Y < M + 1)
    (ht : M % 4 = 1 → (tie = true ↔ Y = M)) :
    RoundsTo (Y / 2) (((if M % 4 = 1 ∧ tie = true then M - M % 2 else M) +
      (if M % 4 = 1 ∧ tie = true then M - M % 2 else M) % 2) / 2) := by
  unfold RoundsTo
  obtain ⟨n, r, hM, hr⟩ : ∃ n r, M = 4 * n + r ∧ r < 4 := ⟨M / 4, M % 4, by omega, by omega⟩
  have hMq : (M : ℚ) = 4 * n + r := by exact_mod_cast hM
  have hr4 : M % 4 = r := by omega
  rw [hr4] at ht ⊢
  rw [hMq] at h1 h2 ht
  interval_cases r
  · have : ((if (0 = 1 ∧ tie = true) then M - M % 2 else M) + (if (0 = 1 ∧ tie = true) then M - M % 2 else M) % 2) / 2 = 2 * n := by
      simp; omega
    rw [this]; push_cast at *
    refine ⟨Or.inl (by linarith), Or.inl (by linarith)⟩
  · by_cases hte : tie = true
    · have hy := (ht rfl).1 hte
      have : ((if ((1 : Nat) = 1 ∧ tie = true) then M - M % 2 else M) + (if ((1 : Nat) = 1 ∧ tie = true) then M - M % 2 else M) % 2) / 2 = 2 * n := by
        simp [hte]; omega
      rw [this]; push_cast at *
      refine ⟨Or.inl (by linarith), Or.inr ⟨by linarith, by omega⟩⟩
    · have hy : Y ≠ 4 * n + ((1 : Nat) : ℚ) := fun h => hte ((ht rfl).2 h)
      have : ((if ((1 : Nat) = 1 ∧ tie = true) then M - M % 2 else M) + (if ((1 : Nat) = 1 ∧ tie = true) then M - M % 2 else M) % 2) / 2 = 2 * n + 1 := by
        simp [hte]; omega
      rw [this]
      have hlt := lt_of_le_of_ne h1 (Ne.symm hy)
      push_cast at *
      refine ⟨Or.inl (by linarith), Or.inl (by linarith)⟩
  · have : ((if (2 = 1 ∧ tie = true) then M - M % 2 else M) + (if (2 = 1 ∧ tie = true) then M - M % 2 else M) % 2) / 2 = 2 * n + 1 := by
      simp; omega
    rw [this]; push_cast at *
    refine ⟨Or.inl (by linarith), Or.inl (by linarith)⟩
  · have : ((if (3 = 1 ∧ tie = true) then M - M % 2 else M) + (if (3 = 1 ∧ tie = true) then M - M % 2 else M) % 2) / 2 = 2 * n + 2 := by
      simp; omega
    rw [this]; push_cast at *
    refine ⟨?_, Or.inl (by linarith)⟩
    rcases lt_or_eq_of_le h1 with h | h
    · left; linarith
    · right; exact ⟨by linarith, by omega⟩

/-- The number in terms of the exact product. -/
theorem number_eq (q : Int) (w lz : Nat) :
    (w : ℚ) * 10 ^ q = exactProduct q (w * 2 ^ lz) * 2 ^ (power q - lz - 126) := by
  unfold exactProduct scaled
  have h10 : (10 : ℚ) ^ q = 5 ^ q * 2 ^ q := by rw [← mul_zpow]; norm_num
  rw [h10]
  have h64 : (2 : ℚ) ^ 64 = 2 ^ (64 : Int) := by norm_cast
  have hlz : ((2 : ℚ) ^ lz) = 2 ^ (lz : Int) := by rw [zpow_natCast]
  push_cast
  rw [hlz, h64, show (127 - e5 q) = 190 - power q + q by unfold e5; ring]
  have h2 : (2 : ℚ) ≠ 0 := by norm_num
  have : (2 : ℚ) ^ q = 2 ^ (lz : Int) * 2 ^ (190 - power q + q) / 2 ^ (64 : Int) * 2 ^ (power q - lz - 126) := by
    rw [← zpow_add₀ h2, ← zpow_sub₀ h2, ← zpow_add₀ h2]
    congr 1; ring
  rw [this]; ring

/-- The integer part of the exact product, scaled to the significand and one more bit. -/
theorem significand {q : Int} {w a b lo hi s : Nat} (sp : EntrySpec q a b)
    (hw1 : 2 ^ 63 ≤ w) (hhi : hi < 2 ^ 64) (hs : s ≤ 61)
    (hU : ((hi / 2 ^ s : Nat) : ℚ) * 2 ^ s * 2 ^ 64 ≤ exactProduct q w ∧
      exactProduct q w < ((hi / 2 ^ s : Nat) + 1 : ℚ) * 2 ^ s * 2 ^ 64) :
    ((hi / 2 ^ (s + hi / 2 ^ 63) : Nat) : ℚ) ≤ exactProduct q w / 2 ^ (64 + (s + hi / 2 ^ 63)) ∧
    exactProduct q w / 2 ^ (64 + (s + hi / 2 ^ 63)) < ((hi / 2 ^ (s + hi / 2 ^ 63) : Nat) : ℚ) + 1 ∧
    2 ^ (62 - s) ≤ hi / 2 ^ (s + hi / 2 ^ 63) ∧ hi / 2 ^ (s + hi / 2 ^ 63) < 2 ^ (63 - s) := by
  have hub : hi / 2 ^ 63 = 0 ∨ hi / 2 ^ 63 = 1 := by omega
  have hdd : hi / 2 ^ (s + hi / 2 ^ 63) = hi / 2 ^ s / 2 ^ (hi / 2 ^ 63) := by
    rw [Nat.pow_add, Nat.div_div_eq_div_mul]
  have hEp : (2 : ℚ) ^ 126 ≤ exactProduct q w := by
    unfold exactProduct
    have h1 : (2 : ℚ) ^ 63 ≤ w := by exact_mod_cast hw1
    have h2 := sp.lo
    have : (2 : ℚ) ^ 63 * 2 ^ 127 ≤ w * scaled q := mul_le_mul h1 h2 (by positivity) (by positivity)
    rw [le_div_iff₀ (by positivity)]
    calc (2 : ℚ) ^ 126 * 2 ^ 64 = 2 ^ 63 * 2 ^ 127 := by norm_num
      _ ≤ _ := this
  have hpos : (0 : ℚ) < 2 ^ (64 + (s + hi / 2 ^ 63)) := by positivity
  have hUlo : 2 ^ (62 - s) ≤ hi / 2 ^ s := by
    have h1 : (2 : ℚ) ^ 126 < ((hi / 2 ^ s : Nat) + 1 : ℚ) * 2 ^ s * 2 ^ 64 := lt_of_le_of_lt hEp hU.2
    have h2 : 2 ^ 126 < (hi / 2 ^ s + 1) * 2 ^ s * 2 ^ 64 := by exact_mod_cast h1
    have h3 : 2 ^ 126 = 2 ^ (62 - s) * 2 ^ s * 2 ^ 64 := by
      rw [← Nat.pow_add, ← Nat.pow_add]; congr 1; omega
    rw [h3] at h2
    have := Nat.lt_of_mul_lt_mul_right (Nat.lt_of_mul_lt_mul_right h2)
    omega
  rw [le_div_iff₀ hpos, div_lt_iff₀ hpos, hdd]
  have hsplit : (2 : ℚ) ^ (64 + (s + hi / 2 ^ 63)) = 2 ^ (hi / 2 ^ 63) * (2 ^ s * 2 ^ 64) := by
    rw [← pow_add, ← pow_add]; congr 1; omega
  rw [hsplit]
  have hs64 : (0 : ℚ) < 2 ^ s * 2 ^ 64 := by positivity
  have hhis : hi / 2 ^ s < 2 ^ (64 - s) := by
    apply Nat.div_lt_of_lt_mul
    rw [← Nat.pow_add, show s + (64 - s) = 64 by omega]; exact hhi
  rcases hub with h | h
  · rw [h]
    simp only [Nat.pow_zero, Nat.div_one, pow_zero, one_mul]
    refine ⟨by linarith [hU.1], by linarith [hU.2], hUlo, ?_⟩
    apply Nat.div_lt_of_lt_mul
    rw [← Nat.pow_add, show s + (63 - s) = 63 by omega]
    omega
  · rw [h]
    simp only [Nat.pow_one, pow_one]
    have hm := Nat.div_add_mod (hi / 2 ^ s) 2
    have hl := Nat.mod_lt (hi / 2 ^ s) (show 0 < 2 by norm_num)
    have h63 : 2 ^ (63 - s) ≤ hi / 2 ^ s := by
      rw [Nat.le_div_iff_mul_le (Nat.two_pow_pos s), ← Nat.pow_add, show 63 - s + s = 63 by omega]
      omega
    have e1 : 2 ^ (63 - s) = 2 * 2 ^ (62 - s) := by
      rw [show 63 - s = (62 - s) + 1 by omega, Nat.pow_succ]; omega
    have e2 : 2 ^ (64 - s) = 2 * 2 ^ (63 - s) := by
      rw [show 64 - s = (63 - s) + 1 by omega, Nat.pow_succ]; omega
    generalize hi / 2 ^ s = U at *
    have c1 : ((U / 2 : Nat) : ℚ) * 2 ≤ U := by
      have : U / 2 * 2 ≤ U := by omega
      exact_mod_cast this
    have c2 : (U : ℚ) + 1 ≤ (((U / 2 : Nat) : ℚ) + 1) * 2 := by
      have : U + 1 ≤ (U / 2 + 1) * 2 := by omega
      exact_mod_cast this
    refine ⟨?_, ?_, by omega, by omega⟩
    · calc ((U / 2 : Nat) : ℚ) * (2 * (2 ^ s * 2 ^ 64) : ℚ) = (((U / 2 : Nat) : ℚ) * 2) * (2 ^ s * 2 ^ 64 : ℚ) := by ring
        _ ≤ (U : ℚ) * (2 ^ s * 2 ^ 64) := mul_le_mul_of_nonneg_right c1 (le_of_lt hs64)
        _ ≤ _ := by linarith [hU.1]
    · calc exactProduct q w < ((U : ℚ) + 1) * (2 ^ s * 2 ^ 64) := by linarith [hU.2]
        _ ≤ ((((U / 2 : Nat) : ℚ) + 1) * 2) * (2 ^ s * 2 ^ 64) := mul_le_mul_of_nonneg_right c2 (le_of_lt hs64)
        _ = _ := by ring

/-- There are no ties among subnormal numbers. -/
theorem no_tie_small {q : Int} {w N x : Nat} (hq : q ≤ -28) (he : e5 q ≤ -1) (hw : w < 2 ^ 64)
    (hw0 : 0 < w) : exactProduct q w ≠ (N : ℚ) * 2 ^ x * 2 ^ 64 := by
  intro h
  obtain ⟨n, hn, hnw⟩ := exactProduct_neg (w := w) (show q < 0 by omega) he
  rw [h, hnw] at hn
  have key : N * 2 ^ x * 5 ^ (-q).toNat = w * 2 ^ (-1 - e5 q).toNat := by
    have : ((N * 2 ^ x * 5 ^ (-q).toNat : Nat) : ℚ) = ((w * 2 ^ (-1 - e5 q).toNat : Nat) : ℚ) := by
      push_cast at *; linarith
    exact_mod_cast this
  have hd : 5 ^ (-q).toNat ∣ w * 2 ^ (-1 - e5 q).toNat := ⟨N * 2 ^ x, by rw [← key]; ring⟩
  have hc : Nat.Coprime (5 ^ (-q).toNat) (2 ^ (-1 - e5 q).toNat) := Nat.Coprime.pow _ _ (by decide)
  have := Nat.le_of_dvd hw0 (hc.dvd_of_dvd_mul_right hd)
  have h28 : 5 ^ 28 ≤ 5 ^ (-q).toNat := Nat.pow_le_pow_right (by norm_num) (by omega)
  have : (5 ^ 28 : Nat) > 2 ^ 64 := by norm_num
  omega

variable {R : RawFloat} {s : Nat}

/-- The part of `compute_float` after the product, `lemire.rs:62-118`, as a function. -/
theorem rounding (L : Lawful R s) {q : Int} {w0 lz w a b lo hi : Nat}
    (hw : w = w0 * 2 ^ lz) (hlz : lz ≤ 63) (sp : EntrySpec q a b)
    (he : powerOfFive128[(q - smallestPowerOfFive).toNat]? = some (a, b))
    (hw1 : 2 ^ 63 ≤ w) (hw2 : w < 2 ^ 64) (hlo : lo < 2 ^ 64) (hhi : hi < 2 ^ 64)
    (hz : hi * 2 ^ 64 + lo = w * (a * 2 ^ 64 + b) / 2 ^ 64 ∨
      (hi * 2 ^ 64 + lo = w * a ∧ hi % 2 ^ s ≠ 2 ^ s - 1))
    (hok : ¬ (lo = 2 ^ 64 - 1 ∧ ¬ (q ≥ -27 ∧ q ≤ 55)))
    {ub t M : Nat} {power2 : Int} (hub : ub = hi / 2 ^ 63) (ht : t = s + ub) (hMd : M = hi / 2 ^ t)
    (hp2 : power2 = power q + ub - lz - R.minExp) :
    (power2 ≤ 0 → -power2 + 1 ≥ 64 → R.fmt.Nearest (w0 * 10 ^ q) 0) ∧
    (power2 ≤ 0 → ∀ M', M' = M / 2 ^ (-power2 + 1).toNat →
      (M' + M' % 2) / 2 ≤ 2 ^ R.mantBits ∧ R.fmt.Nearest (w0 * 10 ^ q) ((M' + M' % 2) / 2)) ∧
    (0 < power2 → ∀ M', M' = (if lo ≤ 1 ∧ q ≥ R.minRoundEven ∧ q ≤ R.maxRoundEven ∧ M % 4 = 1 ∧
        (M * 2 ^ t) % 2 ^ 64 = hi then M - M % 2 else M) →
      2 ^ R.mantBits ≤ (M' + M' % 2) / 2 ∧ (M' + M' % 2) / 2 ≤ 2 * 2 ^ R.mantBits ∧
      R.fmt.Nearest (w0 * 10 ^ q)
        (min ((power2 - 1).toNat * 2 ^ R.mantBits + (M' + M' % 2) / 2) R.fmt.inf)) := by
  have hbits := L.tie.bits
  have hU := upper_bits sp hw2 hlo hz hok
  obtain ⟨hY1, hY2, hM1, hM2⟩ := significand (lo := lo) sp hw1 hhi (by omega) hU
  rw [← hub, ← ht, ← hMd] at hY1 hY2 hM1 hM2
  rw [show 62 - s = R.mantBits + 1 by omega] at hM1
  rw [show 63 - s = R.mantBits + 2 by omega] at hM2
  have hub1 : ub ≤ 1 := by omega
  -- the number in terms of the significand
  have hnum : ((w0 : ℚ) * 10 ^ q) = exactProduct q w / 2 ^ (64 + t) / 2 * 2 ^ (R.fmt.tiny + (power2 - 1)) := by
    rw [number_eq q w0 lz, ← hw]
    have h2 : (2 : ℚ) ≠ 0 := by norm_num
    have hcast : (2 : ℚ) ^ (64 + t) = 2 ^ ((64 + t : Nat) : Int) := by rw [zpow_natCast]
    rw [hcast, div_div, div_mul_eq_mul_div, mul_div_assoc]
    congr 1
    rw [eq_div_iff (by positivity), show ((2 : ℚ) ^ ((64 + t : Nat) : Int) * 2) = 2 ^ (((64 + t : Nat) : Int) + 1) by
      rw [zpow_add₀ h2, zpow_one], ← zpow_add₀ h2]
    congr 1
    have hfm := L.mant
    have hmin := L.minExp
    rw [hp2, hmin]
    unfold Format.tiny
    rw [← hfm]
    have : ((R.mantBits : Nat) : Int) = 61 - s := by omega
    rw [this, ht]; push_cast; ring
  have hMpos : 0 < M := lt_of_lt_of_le (Nat.two_pow_pos _) hM1
  have hf1 := L.one
  refine ⟨?_, ?_, ?_⟩
  · -- far below the smallest number
    intro h0 h64
    have hb : exactProduct q w / 2 ^ (64 + t) < (2 : ℚ) ^ (63 : Int) := by
      have : (M : ℚ) + 1 ≤ 2 ^ (R.mantBits + 2) := by exact_mod_cast hM2
      have h1 : (2 : ℚ) ^ (R.mantBits + 2) ≤ 2 ^ 63 := pow_le_pow_right₀ (by norm_num) (by omega)
      have h2 : (2 : ℚ) ^ 63 = 2 ^ (63 : Int) := by norm_cast
      linarith
    have hp : (2 : ℚ) ^ (power2 - 1) ≤ 2 ^ (-64 : Int) := zpow_le_zpow_right₀ (by norm_num) (by omega)
    have hpp : (0 : ℚ) < 2 ^ (power2 - 1) := by positivity
    have hY0 : (0 : ℚ) ≤ exactProduct q w / 2 ^ (64 + t) := le_trans (by positivity) hY1
    have hlt : exactProduct q w / 2 ^ (64 + t) / 2 * 2 ^ (power2 - 1) < 1 / 2 := by
      calc exactProduct q w / 2 ^ (64 + t) / 2 * 2 ^ (power2 - 1)
          < (2 : ℚ) ^ (63 : Int) / 2 * 2 ^ (power2 - 1) := by
            apply mul_lt_mul_of_pos_right _ hpp; linarith
        _ ≤ (2 : ℚ) ^ (63 : Int) / 2 * 2 ^ (-64 : Int) := by
            apply mul_le_mul_of_nonneg_left hp; positivity
        _ < 1 / 2 := by norm_num
    have hge : 0 ≤ exactProduct q w / 2 ^ (64 + t) / 2 * 2 ^ (power2 - 1) := by positivity
    have hx : R.fmt.Nearest (w0 * 10 ^ q) (min (0 * 2 ^ R.fmt.mant + 0) R.fmt.inf) := by
      apply R.fmt.nearest_of_scaled L.one (X := exactProduct q w / 2 ^ (64 + t) / 2 * 2 ^ (power2 - 1)) (j := 0)
      · rw [hnum, zpow_add₀ (by norm_num)]; push_cast; rw [add_zero]; ring
      · exact Or.inl rfl
      · have : (1 : ℚ) ≤ ((2 ^ R.fmt.mant : Nat) : ℚ) := by exact_mod_cast Nat.one_le_two_pow
        linarith
      · unfold RoundsTo
        push_cast
        exact ⟨Or.inl (by linarith), Or.inl (by linarith)⟩
    simpa using hx
  · -- subnormal numbers
    intro h0 M' hM'
    have hsh : ((-power2 + 1).toNat : Int) = -power2 + 1 := Int.toNat_of_nonneg (by omega)
    generalize hsd : (-power2 + 1).toNat = sh at *
    have hsh1 : 1 ≤ sh := by omega
    have hpsh : (0 : ℚ) < 2 ^ sh := by positivity
    have hdm := Nat.div_add_mod M (2 ^ sh)
    have hml := Nat.mod_lt M (Nat.two_pow_pos sh)
    rw [← hM'] at hdm
    -- the integer part after the second shift
    have hY1' : (M' : ℚ) ≤ exactProduct q w / 2 ^ (64 + t) / 2 ^ sh := by
      rw [le_div_iff₀ hpsh]
      have : M' * 2 ^ sh ≤ M := by rw [Nat.mul_comm]; omega
      have : (M' : ℚ) * 2 ^ sh ≤ M := by exact_mod_cast this
      linarith
    have hY2' : exactProduct q w / 2 ^ (64 + t) / 2 ^ sh < (M' : ℚ) + 1 := by
      rw [div_lt_iff₀ hpsh]
      have : M + 1 ≤ (M' + 1) * 2 ^ sh := by rw [Nat.add_mul, Nat.mul_comm]; omega
      have : (M : ℚ) + 1 ≤ ((M' : ℚ) + 1) * 2 ^ sh := by exact_mod_cast this
      linarith
    have hM'lt : M' < 2 * 2 ^ R.mantBits := by
      rw [hM']
      apply Nat.div_lt_of_lt_mul
      calc M < 2 ^ (R.mantBits + 2) := hM2
        _ = 2 ^ 1 * (2 * 2 ^ R.mantBits) := by rw [Nat.pow_add]; ring
        _ ≤ _ := Nat.mul_le_mul_right _ (Nat.pow_le_pow_right (by norm_num) hsh1)
    have hq28 : q ≤ -28 := by
      have h1 : power q ≤ R.minExp + 63 := by omega
      have h2 := L.minExp100
      unfold power at h1
      omega
    have hround := roundsTo_half (Y := exactProduct q w / 2 ^ (64 + t) / 2 ^ sh) (M := M') false hY1' hY2' (by
      intro _
      constructor
      · intro h; exact absurd h (by decide)
      · intro h
        exfalso
        rw [div_eq_iff (by positivity), div_eq_iff (by positivity)] at h
        apply no_tie_small (N := M') (x := sh + t) hq28 (sp.neg (by omega)) hw2 (by omega)
        rw [h, pow_add, pow_add]; ring)
    simp only [Bool.false_eq_true, and_false, if_false] at hround
    have hk : (M' + M' % 2) / 2 ≤ 2 ^ R.mantBits := by omega
    refine ⟨hk, ?_⟩
    have hx : R.fmt.Nearest (w0 * 10 ^ q) (min (0 * 2 ^ R.fmt.mant + (M' + M' % 2) / 2) R.fmt.inf) := by
      apply R.fmt.nearest_of_scaled L.one (X := exactProduct q w / 2 ^ (64 + t) / 2 ^ sh / 2) (j := 0) _ (Or.inl rfl) _ hround
      · rw [hnum, zpow_add₀ (by norm_num), show power2 - 1 = -(sh : Int) by omega, zpow_neg, zpow_natCast]
        push_cast; rw [add_zero]; field_simp
      · have : (M' : ℚ) + 1 ≤ 2 * 2 ^ R.mantBits := by exact_mod_cast hM'lt
        rw [← L.mant]; push_cast
        linarith
    have hle : (M' + M' % 2) / 2 ≤ R.fmt.inf := by
      apply Nat.le_trans hk
      unfold Format.inf
      rw [L.mant]
      exact Nat.le_mul_of_pos_left _ L.infPos
    rw [Nat.zero_mul, Nat.zero_add, Nat.min_eq_left hle] at hx
    exact hx
  · -- normal numbers
    intro h0 M' hM'
    have ht64 : M * 2 ^ t < 2 ^ 64 := by
      have : hi / 2 ^ t * 2 ^ t ≤ hi := Nat.div_mul_le_self _ _
      rw [hMd]; omega
    rw [Nat.mod_eq_of_lt ht64] at hM'
    have hround := roundsTo_half (Y := exactProduct q w / 2 ^ (64 + t)) (M := M)
      (decide (lo ≤ 1 ∧ q ≥ R.minRoundEven ∧ q ≤ R.maxRoundEven ∧ M * 2 ^ t = hi)) hY1 hY2 (by
        intro hM4
        rw [decide_eq_true_eq, tie_iff L.tie sp he hw2 (by omega) hlo hz (by omega) (by omega) hM1 hM2,
          div_eq_iff (by positivity)]
        rw [show (M : ℚ) * 2 ^ t * 2 ^ 64 = M * 2 ^ (64 + t) by rw [pow_add]; ring])
    have hM'' : M' = if M % 4 = 1 ∧ decide (lo ≤ 1 ∧ q ≥ R.minRoundEven ∧ q ≤ R.maxRoundEven ∧ M * 2 ^ t = hi) = true
        then M - M % 2 else M := by
      rw [hM']
      congr 1
      apply propext
      rw [decide_eq_true_eq]
      tauto
    rw [← hM''] at hround
    have hM'b : M' = M ∨ (M' = M - M % 2) := by
      rw [hM']; split
      · exact Or.inr rfl
      · exact Or.inl rfl
    have e1 : 2 ^ (R.mantBits + 1) = 2 * 2 ^ R.mantBits := by rw [Nat.pow_succ]; omega
    have e2 : 2 ^ (R.mantBits + 2) = 4 * 2 ^ R.mantBits := by rw [Nat.pow_add]; omega
    refine ⟨by omega, by omega, ?_⟩
    have hj : ((power2 - 1).toNat : Int) = power2 - 1 := Int.toNat_of_nonneg (by omega)
    rw [L.mant]
    apply R.fmt.nearest_of_scaled L.one (X := exactProduct q w / 2 ^ (64 + t) / 2) _ _ _ hround
    · rw [hj]; exact hnum
    · right
      rw [← L.mant]
      have : (2 * 2 ^ R.mantBits : Nat) ≤ M := by omega
      have : (2 : ℚ) * ((2 ^ R.mantBits : Nat) : ℚ) ≤ M := by exact_mod_cast this
      linarith
    · rw [← L.mant]
      have : M + 1 ≤ 4 * 2 ^ R.mantBits := by omega
      have : (M : ℚ) + 1 ≤ 4 * ((2 ^ R.mantBits : Nat) : ℚ) := by exact_mod_cast this
      linarith

end Musli.Dec2Flt
