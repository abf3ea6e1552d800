import Verif.Proofs.Float.ComputeFloat
/-!
# The fast path

Two numbers which the format represents exactly, and one operation of the hardware:
the result is the exact product or quotient, rounded once.
-/
set_option linter.unusedSectionVars false
namespace Musli.Dec2Flt
open Musli.Spec.Float

theorem divRound_spec (a b : Nat) (hb : 0 < b) : RoundsTo ((a : ℚ) / b) (divRound a b) := by
  unfold divRound RoundsTo
  dsimp only
  have hbq : (0 : ℚ) < b := by exact_mod_cast hb
  have hdm : (a : ℚ) = b * ((a / b : Nat) : ℚ) + ((a % b : Nat) : ℚ) := by
    exact_mod_cast (Nat.div_add_mod a b).symm
  have hr := Nat.mod_lt a hb
  have hrq : ((a % b : Nat) : ℚ) < b := by exact_mod_cast hr
  have hr0 : (0 : ℚ) ≤ ((a % b : Nat) : ℚ) := by positivity
  have hx : (a : ℚ) / b = ((a / b : Nat) : ℚ) + ((a % b : Nat) : ℚ) / b := by
    rw [hdm]; field_simp
  rw [hx]
  generalize a / b = q at *
  generalize a % b = r at *
  have hf0 : (0 : ℚ) ≤ (r : ℚ) / b := by positivity
  by_cases h1 : 2 * r < b
  · rw [if_pos h1]
    have : 2 * ((r : ℚ) / b) < 1 := by
      rw [← mul_div_assoc, div_lt_one hbq]; exact_mod_cast h1
    exact ⟨Or.inl (by linarith), Or.inl (by linarith)⟩
  rw [if_neg h1]
  have hf1 : (r : ℚ) / b < 1 := by rw [div_lt_one hbq]; exact hrq
  by_cases h2 : b < 2 * r
  · rw [if_pos h2]
    have : 1 < 2 * ((r : ℚ) / b) := by
      rw [← mul_div_assoc, lt_div_iff₀ hbq, one_mul]; exact_mod_cast h2
    push_cast
    exact ⟨Or.inl (by linarith), Or.inl (by linarith)⟩
  · rw [if_neg h2]
    have h3 : b = 2 * r := by omega
    have hh : 2 * ((r : ℚ) / b) = 1 := by
      rw [← mul_div_assoc, div_eq_one_iff_eq (ne_of_gt hbq)]; exact_mod_cast h3.symm
    rcases Nat.mod_two_eq_zero_or_one q with h | h
    · rw [h]; push_cast
      exact ⟨Or.inl (by linarith), Or.inr ⟨by linarith, by omega⟩⟩
    · rw [h]; push_cast
      exact ⟨Or.inr ⟨by linarith, by omega⟩, Or.inl (by linarith)⟩

/-- The model of the rounding of the hardware meets the specification. -/
theorem roundRat_nearest (F : Format) (hm : 1 ≤ F.mant) (ht : F.tiny ≤ 0) (n d : Nat) (hd : 0 < d) :
    F.Nearest ((n : ℚ) / d) (roundRat F n d) := by
  unfold roundRat
  dsimp only
  generalize hN : n * 2 ^ (-F.tiny).toNat = N
  generalize hj : Nat.log2 (N / d) - F.mant = j
  have hdq : (0 : ℚ) < d := by exact_mod_cast hd
  have h2 : (2 : ℚ) ≠ 0 := by norm_num
  have hNq : (N : ℚ) = n * 2 ^ (-F.tiny) := by
    rw [← hN]; push_cast
    rw [← zpow_natCast, Int.toNat_of_nonneg (by omega)]
  have hpj : (0 : ℚ) < 2 ^ j := by positivity
  apply F.nearest_of_scaled hm (X := (N : ℚ) / ((d * 2 ^ j : Nat) : ℚ))
  · rw [hNq, zpow_add₀ h2, zpow_natCast, zpow_neg]; push_cast; field_simp
  · by_cases hj0 : j = 0
    · exact Or.inl hj0
    · right
      have h0 : N / d ≠ 0 := by
        intro h; rw [h] at hj; simp at hj; omega
      have h1 : 2 ^ Nat.log2 (N / d) ≤ N / d := Nat.log2_self_le h0
      rw [show Nat.log2 (N / d) = F.mant + j by omega, Nat.le_div_iff_mul_le hd] at h1
      rw [le_div_iff₀ (by exact_mod_cast Nat.mul_pos hd (Nat.two_pow_pos j))]
      have : 2 ^ F.mant * (d * 2 ^ j) ≤ N := by
        calc _ = 2 ^ (F.mant + j) * d := by rw [Nat.pow_add]; ring
          _ ≤ N := h1
      exact_mod_cast this
  · have h1 : N / d < 2 ^ (Nat.log2 (N / d) + 1) := Nat.lt_log2_self
    have h3 : N / d < 2 ^ (F.mant + j + 1) :=
      Nat.lt_of_lt_of_le h1 (Nat.pow_le_pow_right (by norm_num) (by omega))
    rw [Nat.div_lt_iff_lt_mul hd] at h3
    rw [div_lt_iff₀ (by exact_mod_cast Nat.mul_pos hd (Nat.two_pow_pos j))]
    have : N < 2 * 2 ^ F.mant * (d * 2 ^ j) := by
      calc N < _ := h3
        _ = _ := by rw [Nat.pow_succ, Nat.pow_add]; ring
    exact_mod_cast this
  · exact divRound_spec _ _ (Nat.mul_pos hd (Nat.two_pow_pos j))

theorem ieee_nearest (F : Format) (hm : 1 ≤ F.mant) (ht : F.tiny ≤ 0) {x : ℚ} (hx : 0 ≤ x) :
    F.Nearest x (ieee F x) := by
  have := roundRat_nearest F hm ht x.num.toNat x.den x.pos
  unfold ieee
  have e : (x.num.toNat : ℚ) / x.den = x := by
    have h0 : 0 ≤ x.num := Rat.num_nonneg.2 hx
    have : ((x.num.toNat : Nat) : ℚ) = (x.num : ℚ) := by
      have := Int.toNat_of_nonneg h0
      exact_mod_cast congrArg (Int.cast : Int → ℚ) this
    rw [this, Rat.num_div_den]
  rwa [e] at this

/-- A number which the format represents is its own rounded result. -/
theorem nearest_self (F : Format) {c : Nat} (hc : c ≤ F.inf) : F.Nearest (F.value c) c := by
  refine ⟨hc, fun d _ hne => Or.inl ?_⟩
  rw [sub_self, abs_zero, abs_pos, sub_ne_zero]
  rcases Nat.lt_or_gt_of_ne hne with h | h
  · exact ne_of_gt (F.value_strictMono h)
  · exact ne_of_lt (F.value_strictMono h)

/-- Small multiples of powers of two are represented. -/
theorem representable (F : Format) (v u : Nat) (hu : u ≤ 2 * 2 ^ F.mant) :
    ∃ c, F.value c = u * 2 ^ (F.tiny + v) := by
  induction v generalizing u with
  | zero => exact ⟨_, by simpa using F.value_at 0 u (Or.inl rfl) hu⟩
  | succ v ih =>
    by_cases h : 2 ^ F.mant ≤ u
    · exact ⟨_, F.value_at (v + 1) u (Or.inr h) hu⟩
    · obtain ⟨c, hc⟩ := ih (2 * u) (by omega)
      refine ⟨c, hc.trans ?_⟩
      push_cast
      rw [← add_assoc, zpow_add₀ (show (2 : ℚ) ≠ 0 by norm_num) _ 1, zpow_one]
      ring

/-- What the fast path uses of the constants of a float type. -/
structure LawfulFast (R : RawFloat) : Prop where
  mant : R.mantBits = R.fmt.mant
  one : 1 ≤ R.fmt.mant
  tiny : R.fmt.tiny ≤ 0
  max0 : 0 ≤ R.maxFast
  min : -R.maxFast ≤ R.minFast
  pows : R.maxFast.toNat < R.tablePows
  len : R.tablePows ≤ R.tableLen
  fives : 5 ^ R.maxFast.toNat ≤ 2 * 2 ^ R.fmt.mant
  shift : R.maxDisguised - R.maxFast ≤ 15
  room : 2 * 2 ^ R.fmt.mant * 10 ^ R.maxFast.toNat ≤ R.fmt.value R.fmt.inf

variable {R : RawFloat}

theorem ieee_exact (L : LawfulFast R) (u v : Nat) (hu : u ≤ 2 * 2 ^ R.fmt.mant)
    (hle : ((u * 2 ^ v : Nat) : ℚ) ≤ R.fmt.value R.fmt.inf) :
    R.fmt.value (ieee R.fmt ((u * 2 ^ v : Nat) : ℚ)) = ((u * 2 ^ v : Nat) : ℚ) := by
  have ht := L.tiny
  obtain ⟨c, hc⟩ := representable R.fmt ((-R.fmt.tiny).toNat + v) u hu
  have hx : R.fmt.value c = ((u * 2 ^ v : Nat) : ℚ) := by
    rw [hc]
    have : R.fmt.tiny + (((-R.fmt.tiny).toNat + v : Nat) : Int) = (v : Int) := by push_cast; omega
    rw [this, zpow_natCast]; push_cast; rfl
  have hci : c ≤ R.fmt.inf := by
    by_contra h
    have := R.fmt.value_strictMono (Nat.lt_of_not_le h)
    rw [hx] at this; linarith
  have h1 := nearest_self R.fmt hci
  rw [hx] at h1
  have h2 := ieee_nearest R.fmt L.one L.tiny (x := ((u * 2 ^ v : Nat) : ℚ)) (by positivity)
  rw [R.fmt.nearest_unique h2 h1, hx]

theorem fromU64_exact (L : LawfulFast R) {m : Nat} (hm : m ≤ R.maxMantissaFast) :
    R.fmt.value (R.fromU64 m) = m := by
  have h0 : m ≤ 2 * 2 ^ R.fmt.mant := by
    unfold RawFloat.maxMantissaFast at hm
    rwa [Nat.shiftLeft_eq, L.mant] at hm
  have := ieee_exact L m 0 h0 (by
    have h1 : (m : ℚ) ≤ 2 * 2 ^ R.fmt.mant := by exact_mod_cast h0
    have h2 : (1 : ℚ) ≤ 10 ^ R.maxFast.toNat := one_le_pow₀ (by norm_num)
    have h3 : (0 : ℚ) ≤ 2 * 2 ^ R.fmt.mant := by positivity
    have := L.room
    push_cast
    nlinarith)
  simpa [RawFloat.fromU64] using this

theorem pow10_exact (L : LawfulFast R) {e : Nat} (he : (e : Int) ≤ R.maxFast) :
    R.fmt.value (R.pow10FastPath e) = 10 ^ e := by
  have hp := L.pows
  have hl := L.len
  have hm0 := L.max0
  have he' : e ≤ R.maxFast.toNat := by omega
  unfold RawFloat.pow10FastPath
  dsimp only
  rw [Nat.mod_eq_of_lt (by omega), if_pos (by omega)]
  have hsplit : 10 ^ e = 5 ^ e * 2 ^ e := by rw [← Nat.mul_pow]
  rw [hsplit, ieee_exact L (5 ^ e) e]
  · push_cast; rw [← mul_pow]; norm_num
  · exact Nat.le_trans (Nat.pow_le_pow_right (by norm_num) he') L.fives
  · rw [← hsplit]; push_cast
    have h1 : (10 : ℚ) ^ e ≤ 10 ^ R.maxFast.toNat := pow_le_pow_right₀ (by norm_num) he'
    have h2 : (1 : ℚ) ≤ 2 * 2 ^ R.fmt.mant := by
      have : (1 : ℚ) ≤ 2 ^ R.fmt.mant := one_le_pow₀ (by norm_num)
      linarith
    have h3 : (0 : ℚ) ≤ 10 ^ R.maxFast.toNat := by positivity
    have := L.room
    nlinarith

theorem intPow10_get (i : Nat) (h : i ≤ 15) : intPow10[i]? = some (10 ^ i) := by
  have : ∀ i, i ≤ 15 → intPow10[i]? = some (10 ^ i) := by decide
  exact this i h

/-- The fast path does not panic, and if it applies, its result is correctly rounded. -/
theorem tryFastPath_correct (L : LawfulFast R) (n : Number) :
    ∃ r, n.tryFastPath R = some r ∧ ∀ v, r = some v → n.manyDigits = false ∧
      ∃ b, R.fmt.Nearest (n.mantissa * 10 ^ n.exponent) b ∧ v = if n.negative then R.neg b else b := by
  unfold Number.tryFastPath
  dsimp only
  by_cases hf : n.isFastPath R = true
  swap
  · rw [if_neg hf]; exact ⟨none, rfl, fun v h => by simp at h⟩
  rw [if_pos hf]
  unfold Number.isFastPath at hf
  simp only [decide_eq_true_eq] at hf
  obtain ⟨h1, h2, h3, h4⟩ := hf
  have hmin := L.min
  by_cases he : n.exponent ≤ R.maxFast
  · rw [if_pos he]
    by_cases hneg : n.exponent < 0
    · rw [if_pos hneg]
      refine ⟨_, rfl, fun v hv => ⟨by simpa using h4, _, ?_, (Option.some.inj hv).symm⟩⟩
      unfold RawFloat.div
      rw [fromU64_exact L h3, pow10_exact L (by omega)]
      have e : (n.mantissa : ℚ) / 10 ^ (-n.exponent).toNat = n.mantissa * 10 ^ n.exponent := by
        rw [← zpow_natCast, Int.toNat_of_nonneg (by omega), zpow_neg, div_inv_eq_mul]
      rw [e]
      exact ieee_nearest _ L.one L.tiny (by positivity)
    · rw [if_neg hneg]
      refine ⟨_, rfl, fun v hv => ⟨by simpa using h4, _, ?_, (Option.some.inj hv).symm⟩⟩
      unfold RawFloat.mul
      rw [fromU64_exact L h3, pow10_exact L (by omega)]
      have e : (n.mantissa : ℚ) * 10 ^ n.exponent.toNat = n.mantissa * 10 ^ n.exponent := by
        rw [← zpow_natCast, Int.toNat_of_nonneg (by omega)]
      rw [e]
      exact ieee_nearest _ L.one L.tiny (by positivity)
  · rw [if_neg he]
    have hsh := L.shift
    rw [intPow10_get _ (by omega)]
    simp only [Option.bind_eq_bind, Option.bind_some]
    by_cases hov : n.mantissa * 10 ^ (n.exponent - R.maxFast).toNat ≥ 2 ^ 64
    · rw [if_pos hov]; exact ⟨none, rfl, fun v h => by simp at h⟩
    rw [if_neg hov]
    by_cases hbig : n.mantissa * 10 ^ (n.exponent - R.maxFast).toNat > R.maxMantissaFast
    · rw [if_pos hbig]; exact ⟨none, rfl, fun v h => by simp at h⟩
    rw [if_neg hbig]
    refine ⟨_, rfl, fun v hv => ⟨by simpa using h4, _, ?_, (Option.some.inj hv).symm⟩⟩
    have hm0 := L.max0
    unfold RawFloat.mul
    rw [fromU64_exact L (by omega), pow10_exact L (by omega)]
    have e : ((n.mantissa * 10 ^ (n.exponent - R.maxFast).toNat : Nat) : ℚ) * 10 ^ R.maxFast.toNat
        = n.mantissa * 10 ^ n.exponent := by
      push_cast
      rw [← zpow_natCast, ← zpow_natCast, Int.toNat_of_nonneg (by omega), Int.toNat_of_nonneg hm0,
        mul_assoc, ← zpow_add₀ (by norm_num)]
      congr 2; ring
    rw [e]
    exact ieee_nearest _ L.one L.tiny (by positivity)

theorem lawfulFast64 : LawfulFast rawF64 where
  mant := rfl
  one := by decide
  tiny := by decide
  max0 := by decide
  min := by decide
  pows := by decide
  len := by decide
  fives := by decide +kernel
  shift := by decide
  room := by
    rw [show rawF64.fmt.inf = 2046 * 2 ^ 52 + 2 ^ 52 by decide, show rawF64.maxFast.toNat = 22 by decide]
    have := rawF64.fmt.value_at 2046 (2 ^ 52) (Or.inr (by decide)) (by decide)
    rw [show rawF64.fmt.mant = 52 by decide] at *
    rw [this, show rawF64.fmt.tiny + (2046 : Nat) = 972 by decide]
    have h1 : (2 : ℚ) ^ (100 : Int) ≤ 2 ^ (972 : Int) := zpow_le_zpow_right₀ (by norm_num) (by norm_num)
    have h2 : (2 : ℚ) * 2 ^ 52 * 10 ^ 22 ≤ ((2 ^ 52 : Nat) : ℚ) * 2 ^ (100 : Int) := by norm_num
    have h3 : ((2 ^ 52 : Nat) : ℚ) * 2 ^ (100 : Int) ≤ ((2 ^ 52 : Nat) : ℚ) * 2 ^ (972 : Int) :=
      mul_le_mul_of_nonneg_left h1 (by positivity)
    exact le_trans h2 h3

theorem lawfulFast32 : LawfulFast rawF32 where
  mant := rfl
  one := by decide
  tiny := by decide
  max0 := by decide
  min := by decide
  pows := by decide
  len := by decide
  fives := by decide +kernel
  shift := by decide
  room := by
    rw [show rawF32.fmt.inf = 254 * 2 ^ 23 + 2 ^ 23 by decide, show rawF32.maxFast.toNat = 10 by decide]
    have := rawF32.fmt.value_at 254 (2 ^ 23) (Or.inr (by decide)) (by decide)
    rw [show rawF32.fmt.mant = 23 by decide] at *
    rw [this, show rawF32.fmt.tiny + (254 : Nat) = 105 by decide]
    norm_num

end Musli.Dec2Flt
