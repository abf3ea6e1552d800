import Verif.Proofs.Float.Compute
/-!
# `compute_float` is correct
-/
set_option linter.unusedSectionVars false
namespace Musli.Dec2Flt
open Musli.Spec.Float

variable {R : RawFloat} {s : Nat}

/-- Shifting out the leading zeros. -/
theorem normalize {w : Nat} (hw0 : w ≠ 0) (hw : w < 2 ^ 64) :
    (w <<< (63 - Nat.log2 w)) % 2 ^ 64 = w * 2 ^ (63 - Nat.log2 w) ∧
    2 ^ 63 ≤ w * 2 ^ (63 - Nat.log2 w) ∧ w * 2 ^ (63 - Nat.log2 w) < 2 ^ 64 := by
  have h1 : Nat.log2 w < 64 := (Nat.log2_lt hw0).2 hw
  have h2 : 2 ^ Nat.log2 w ≤ w := Nat.log2_self_le hw0
  have h3 : w < 2 ^ (Nat.log2 w + 1) := Nat.lt_log2_self
  have e1 : 2 ^ Nat.log2 w * 2 ^ (63 - Nat.log2 w) = 2 ^ 63 := by
    rw [← Nat.pow_add]; congr 1; omega
  have e2 : 2 ^ (Nat.log2 w + 1) * 2 ^ (63 - Nat.log2 w) = 2 ^ 64 := by
    rw [← Nat.pow_add]; congr 1; omega
  have h4 : w * 2 ^ (63 - Nat.log2 w) < 2 ^ 64 := by
    rw [← e2]; exact Nat.mul_lt_mul_of_pos_right h3 (Nat.two_pow_pos _)
  refine ⟨?_, ?_, h4⟩
  · rw [Nat.shiftLeft_eq, Nat.mod_eq_of_lt h4]
  · rw [← e1]; exact Nat.mul_le_mul_right _ h2

/-- The result for infinity. -/
theorem bits_inf (L : Lawful R s) : biasedFpToFloat R (zeroPow2 R.infPower) = R.fmt.inf := by
  unfold biasedFpToFloat zeroPow2
  rw [or_shift _ _ _ (Nat.two_pow_pos _), L.infPower, Int.toNat_natCast, Nat.add_zero]
  unfold Format.inf
  rw [L.mant]

theorem bits_zero : biasedFpToFloat R (zeroPow2 0) = 0 := by
  unfold biasedFpToFloat zeroPow2
  simp

/-- `compute_float` does not panic, and if it decides, its result is correctly rounded. -/
theorem computeFloat_correct (L : Lawful R s) (q : Int) {w : Nat} (hw : w < 2 ^ 64) :
    ∃ fp, computeFloat R q w = some fp ∧
      (0 ≤ fp.e → R.fmt.Nearest (w * 10 ^ q) (biasedFpToFloat R fp)) := by
  have hbits := L.tie.bits
  have hthree := L.tie.three
  unfold computeFloat
  dsimp only
  by_cases hz : w = 0 ∨ q < R.smallest10
  · rw [if_pos hz]
    refine ⟨_, rfl, fun _ => ?_⟩
    rw [bits_zero]
    apply R.fmt.nearest_zero
    rcases hz with h | h
    · subst h
      have : R.fmt.value 0 < R.fmt.value 1 := R.fmt.value_strictMono (by norm_num)
      rw [R.fmt.value_zero] at this
      simpa using this
    · have h1 : (10 : ℚ) ^ q ≤ 10 ^ (R.smallest10 - 1) := zpow_le_zpow_right₀ (by norm_num) (by omega)
      have h2 : (w : ℚ) < 2 ^ 64 := by exact_mod_cast hw
      have h3 : (0 : ℚ) < 10 ^ q := by positivity
      have h4 : (w : ℚ) * 10 ^ q < 2 ^ 64 * 10 ^ (R.smallest10 - 1) :=
        lt_of_lt_of_le (mul_lt_mul_of_pos_right h2 h3) (mul_le_mul_of_nonneg_left h1 (by positivity))
      linarith [L.zero]
  rw [if_neg hz]
  rw [not_or] at hz
  obtain ⟨hw0, hq1⟩ := hz
  by_cases hq2 : q > R.largest10
  · rw [if_pos hq2]
    refine ⟨_, rfl, fun _ => ?_⟩
    rw [bits_inf L]
    apply R.fmt.nearest_inf
    have h1 : (10 : ℚ) ^ (R.largest10 + 1) ≤ 10 ^ q := zpow_le_zpow_right₀ (by norm_num) (by omega)
    have h2 : (1 : ℚ) ≤ w := by exact_mod_cast (show 1 ≤ w by omega)
    have h3 : (0 : ℚ) < 10 ^ q := by positivity
    calc _ ≤ (10 : ℚ) ^ (R.largest10 + 1) := L.big
      _ ≤ 10 ^ q := h1
      _ ≤ _ := by nlinarith
  rw [if_neg hq2]
  have hlo10 := L.lo10
  have hhi10 := L.hi10
  obtain ⟨a, b, he, hok⟩ := entry q (by omega) (by omega)
  have sp := entry_spec hok
  obtain ⟨hn1, hn2, hn3⟩ := normalize hw0 hw
  rw [hn1]
  generalize hlz : 63 - Nat.log2 w = lz at *
  obtain ⟨lo, hi, hprod, hlo, hhi, hpz⟩ := product_spec (q := q) (w := w * 2 ^ lz) (p := R.mantBits + 3)
    hn3 (by omega) he sp.ha sp.hb
  rw [hprod]
  simp only [Option.bind_eq_bind, Option.bind_some]
  rw [show 64 - (R.mantBits + 3) = s by omega] at hpz
  by_cases herr : lo = 0xFFFFFFFFFFFFFFFF ∧ ¬ (q ≥ -27 ∧ q ≤ 55)
  · rw [if_pos herr]
    refine ⟨_, rfl, fun h => ?_⟩
    exact absurd h (by decide)
  rw [if_neg herr]
  have hR := rounding L (w0 := w) (lz := lz) rfl (by omega) sp he hn2 hn3 hlo hhi hpz herr
    (ub := hi / 2 ^ 63) (t := s + hi / 2 ^ 63) (M := hi / 2 ^ (s + hi / 2 ^ 63)) rfl rfl rfl rfl
  obtain ⟨r1, r2, r3⟩ := hR
  have hsh : hi >>> 63 + 64 - R.mantBits - 3 = s + hi / 2 ^ 63 := by
    rw [Nat.shiftRight_eq_div_pow]; omega
  rw [hsh]
  simp only [Nat.shiftRight_eq_div_pow, Nat.shiftLeft_eq, and_one, and_three, Nat.one_mul]
  generalize hp : power q + ((hi / 2 ^ 63 : Nat) : Int) - lz - R.minExp = power2 at *
  generalize hM : hi / 2 ^ (s + hi / 2 ^ 63) = M at *
  by_cases hneg : power2 ≤ 0
  · rw [if_pos hneg]
    by_cases h64 : -power2 + 1 ≥ 64
    · rw [if_pos h64]
      refine ⟨_, rfl, fun _ => ?_⟩
      rw [bits_zero]
      exact r1 hneg h64
    · rw [if_neg h64]
      refine ⟨_, rfl, fun _ => ?_⟩
      obtain ⟨hk, hN⟩ := r2 hneg _ rfl
      rw [Nat.pow_one]
      generalize (M / 2 ^ (-power2 + 1).toNat + M / 2 ^ (-power2 + 1).toNat % 2) / 2 = k at *
      convert hN using 1
      unfold biasedFpToFloat
      dsimp only
      by_cases hkk : k ≥ 2 ^ R.mantBits
      · have : k = 2 ^ R.mantBits := by omega
        rw [if_pos hkk, this, Nat.shiftLeft_eq]
        simp
      · rw [if_neg hkk]; simp
  · rw [if_neg hneg]
    obtain ⟨hk1, hk2, hN⟩ := r3 (by omega) _ rfl
    rw [Nat.pow_one]
    generalize hM' : (if lo ≤ 1 ∧ q ≥ R.minRoundEven ∧ q ≤ R.maxRoundEven ∧ M % 4 = 1 ∧
        (M * 2 ^ (s + hi / 2 ^ 63)) % 2 ^ 64 = hi then M - M % 2 else M) = M' at *
    generalize hkd : (M' + M' % 2) / 2 = k at *
    have hP := Nat.two_pow_pos R.mantBits
    -- the pair after the carry
    obtain ⟨m, p, hmp, hm1, hm2, hp1, hsum⟩ : ∃ m p, (if k ≥ 2 * 2 ^ R.mantBits then (2 ^ R.mantBits, power2 + 1) else (k, power2)) = (m, p) ∧
        2 ^ R.mantBits ≤ m ∧ m < 2 * 2 ^ R.mantBits ∧ 0 < p ∧
        (power2 - 1).toNat * 2 ^ R.mantBits + k = p.toNat * 2 ^ R.mantBits + (m - 2 ^ R.mantBits) := by
      by_cases hc : k ≥ 2 * 2 ^ R.mantBits
      · refine ⟨_, _, if_pos hc, by omega, by omega, by omega, ?_⟩
        have : (power2 + 1).toNat = (power2 - 1).toNat + 2 := by omega
        rw [this, Nat.add_mul]; omega
      · refine ⟨_, _, if_neg hc, by omega, by omega, by omega, ?_⟩
        have : power2.toNat = (power2 - 1).toNat + 1 := by omega
        rw [this, Nat.add_mul]; omega
    rw [hsum] at hN
    rw [hmp]
    dsimp only
    obtain ⟨r, hr⟩ : ∃ r, m = 2 ^ R.mantBits + r := ⟨m - 2 ^ R.mantBits, by omega⟩
    have hcb := clear_bit R.mantBits r (by omega) (by omega)
    rw [Nat.shiftLeft_eq, Nat.one_mul] at hcb
    have hmand : m &&& (0xFFFFFFFFFFFFFFFF - 2 ^ R.mantBits) = r := by rw [hr]; exact hcb
    have hmr : m - 2 ^ R.mantBits = r := by omega
    rw [hmr] at hN
    rw [hmand]
    have hinf : R.fmt.inf = R.infPower.toNat * 2 ^ R.mantBits := by
      unfold Format.inf; rw [L.infPower, Int.toNat_natCast, L.mant]
    have hip := L.infPower
    have hipos := L.infPos
    by_cases hi' : p ≥ R.infPower
    · rw [if_pos hi']
      refine ⟨_, rfl, fun _ => ?_⟩
      rw [bits_inf L]
      rwa [Nat.min_eq_right] at hN
      rw [hinf]
      have : R.infPower.toNat ≤ p.toNat := by omega
      have := Nat.mul_le_mul_right (2 ^ R.mantBits) this
      omega
    · rw [if_neg hi']
      refine ⟨_, rfl, fun _ => ?_⟩
      unfold biasedFpToFloat
      dsimp only
      rw [or_shift _ _ _ (by omega)]
      rwa [Nat.min_eq_left] at hN
      rw [hinf]
      have : p.toNat + 1 ≤ R.infPower.toNat := by omega
      have := Nat.mul_le_mul_right (2 ^ R.mantBits) this
      rw [Nat.add_mul] at this
      omega

theorem value_tiny (F : Format) (h : 1 ≤ F.mant) : F.value 1 = 2 ^ F.tiny := by
  unfold Format.value Format.tiny
  have h2 : 1 < 2 ^ F.mant := Nat.one_lt_two_pow (by omega)
  rw [if_pos (Nat.div_eq_of_lt h2), Nat.mod_eq_of_lt h2]
  simp

set_option exponentiation.threshold 2000 in
theorem lawful64 : Lawful rawF64 9 where
  mant := rfl
  one := by decide
  tie := {
    bits := rfl
    three := by decide
    min0 := by decide
    min17 := by decide
    max0 := by decide
    max26 := by decide
    pow_max := by decide +kernel
    pow_min := by decide +kernel
    inverse := by
      intro q h1 h2
      have h1' : -4 ≤ q := h1
      have := inverse64_ok (-q - 1).toNat (by omega)
      rw [show -(((-q - 1).toNat : Nat) : Int) - 1 = q by omega] at this
      exact ⟨_, this⟩ }
  minExp := by decide
  minExp100 := by decide
  infPower := by decide
  infPos := by decide
  lo10 := by decide
  hi10 := by decide
  zero := by
    rw [value_tiny _ (by decide), show rawF64.fmt.tiny = -1074 by decide, show rawF64.smallest10 - 1 = -343 by decide]
    norm_num
  big := by
    rw [show rawF64.fmt.inf = 2047 * 2 ^ 52 by decide, show rawF64.largest10 + 1 = 309 by decide]
    unfold Format.value
    rw [show rawF64.fmt.bias = 1023 by decide]
    norm_num [rawF64, f64]

theorem lawful32 : Lawful rawF32 38 where
  mant := rfl
  one := by decide
  tie := {
    bits := rfl
    three := by decide
    min0 := by decide
    min17 := by decide
    max0 := by decide
    max26 := by decide
    pow_max := by decide +kernel
    pow_min := by decide +kernel
    inverse := by
      intro q h1 h2
      have h1' : -17 ≤ q := h1
      have := inverse32_ok (-q - 1).toNat (by omega)
      rw [show -(((-q - 1).toNat : Nat) : Int) - 1 = q by omega] at this
      exact ⟨_, this⟩ }
  minExp := by decide
  minExp100 := by decide
  infPower := by decide
  infPos := by decide
  lo10 := by decide
  hi10 := by decide
  zero := by
    rw [value_tiny _ (by decide), show rawF32.fmt.tiny = -149 by decide, show rawF32.smallest10 - 1 = -66 by decide]
    norm_num
  big := by
    rw [show rawF32.fmt.inf = 255 * 2 ^ 23 by decide, show rawF32.largest10 + 1 = 39 by decide]
    unfold Format.value
    rw [show rawF32.fmt.bias = 127 by decide]
    norm_num [rawF32, f32]

end Musli.Dec2Flt
