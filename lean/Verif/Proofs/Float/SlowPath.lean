import Verif.Proofs.Float.SlowRound
import Verif.Proofs.Float.ComputeFloat
/-!
# The slow path is correct
-/
set_option linter.unusedSectionVars false
set_option exponentiation.threshold 2000
namespace Musli.Dec2Flt
open Musli.Spec.Float

/-- What the slow path uses of the constants of a float type. -/
structure LawfulSlow (R : RawFloat) : Prop where
  mant : R.mantBits = R.fmt.mant
  one : 1 ≤ R.fmt.mant
  mant52 : R.mantBits ≤ 52
  minExp : R.minExp = -R.fmt.bias
  minLo : -1023 ≤ R.minExp
  minHi : R.minExp ≤ -100
  digits : (R.mantBits : Int) - R.minExp - 1 ≤ 1074
  infPower : R.infPower = ((2 ^ R.fmt.expBits - 1 : Nat) : Int)
  inf2 : 2 ≤ 2 ^ R.fmt.expBits - 1
  zero : 2 * (10 : ℚ) ^ (-325 : Int) < R.fmt.value 1
  big : R.fmt.value R.fmt.inf ≤ (10 : ℚ) ^ (309 : Int)

variable {R : RawFloat}

theorem roundsTo_unique {X : ℚ} {a b : Nat} (ha : RoundsTo X a) (hb : RoundsTo X b) : a = b := by
  obtain ⟨a1, a2⟩ := ha
  obtain ⟨b1, b2⟩ := hb
  by_contra hne
  rcases Nat.lt_or_gt_of_ne hne with h | h
  · have hq : (a : ℚ) + 1 ≤ b := by exact_mod_cast h
    have h1 : 2 * X ≤ 2 * (a : ℚ) + 1 := by rcases a2 with h | h; exact le_of_lt h; exact le_of_eq h.1
    have h3 : 2 * (b : ℚ) - 1 ≤ 2 * X := by rcases b1 with h | h; exact le_of_lt h; exact le_of_eq h.1
    have he : b = a + 1 := by
      have : (b : ℚ) ≤ a + 1 := by linarith
      have : b ≤ a + 1 := by exact_mod_cast this
      omega
    subst he
    push_cast at *
    rcases a2 with h | ⟨_, ha⟩
    · linarith
    · rcases b1 with h | ⟨_, hb⟩
      · linarith
      · omega
  · have hq : (b : ℚ) + 1 ≤ a := by exact_mod_cast h
    have h1 : 2 * X ≤ 2 * (b : ℚ) + 1 := by rcases b2 with h | h; exact le_of_lt h; exact le_of_eq h.1
    have h3 : 2 * (a : ℚ) - 1 ≤ 2 * X := by rcases a1 with h | h; exact le_of_lt h; exact le_of_eq h.1
    have he : a = b + 1 := by
      have : (a : ℚ) ≤ b + 1 := by linarith
      have : a ≤ b + 1 := by exact_mod_cast this
      omega
    subst he
    push_cast at *
    rcases b2 with h | ⟨_, ha⟩
    · linarith
    · rcases a1 with h | ⟨_, hb⟩
      · linarith
      · omega

/-- The last part: shift to the integer significand and round. -/
theorem slowRound_spec (L : LawfulSlow R) {d : Decimal} {x : ℚ} {K : Nat} {e : Int}
    (t : Track d (x * 2 ^ (-(e + 1))) K) (hdp : d.dp ≤ 0) (hlo : R.minExp + 1 ≤ e) (hx1 : R.minExp + 1 < e → 2 ^ e ≤ x)
    (hx2 : x < 2 ^ (e + 1)) (hK : K + R.mantBits + 1 ≤ 1074) :
    ∃ fp, slowRound R d e = some fp ∧ 0 ≤ fp.e ∧ R.fmt.Nearest x (biasedFpToFloat R fp) := by
  have hm52 := L.mant52
  have hmant := L.mant
  have hinf : R.fmt.inf = R.infPower.toNat * 2 ^ R.mantBits := by
    unfold Format.inf; rw [L.infPower, Int.toNat_natCast, L.mant]
  have hip := L.infPower
  have hi2 := L.inf2
  have hPpos := Nat.two_pow_pos R.mantBits
  have bitsInf : biasedFpToFloat R (zeroPow2 R.infPower) = R.fmt.inf := by
    unfold biasedFpToFloat zeroPow2
    rw [or_shift _ _ _ hPpos, hinf, Nat.add_zero]
  unfold slowRound
  simp only []
  by_cases hbig : e - R.minExp ≥ R.infPower
  · rw [if_pos hbig]
    refine ⟨_, rfl, by unfold zeroPow2; dsimp only; omega, ?_⟩
    rw [bitsInf]
    apply R.fmt.nearest_inf
    have h1 : R.fmt.value R.fmt.inf = 2 ^ (R.minExp + R.infPower) := by
      have he : R.fmt.inf = (R.infPower.toNat - 1) * 2 ^ R.fmt.mant + 2 ^ R.fmt.mant := by
        rw [hinf, hmant, ← Nat.succ_mul]; congr 1; omega
      rw [he, R.fmt.value_at _ _ (Or.inr (le_refl _)) (by omega)]
      push_cast
      rw [← zpow_natCast, ← zpow_add₀ h2]
      congr 1
      unfold Format.tiny
      have := L.minExp
      omega
    rw [h1]
    calc (2 : ℚ) ^ (R.minExp + R.infPower) ≤ 2 ^ e := zpow_le_zpow_right₀ (by norm_num) (by omega)
      _ ≤ x := hx1 (by omega)
  rw [if_neg hbig]
  obtain ⟨d1, hr1, hs1⟩ := leftShift_spec t.ok (k := R.mantBits + 1) (by omega) (by omega)
  simp only [hr1, Option.bind_eq_bind, Option.bind_some]
  -- the size
  have hval1 : d.val < 1 := by
    calc d.val < 10 ^ d.dp := t.ok.lt
      _ ≤ 10 ^ (0 : Int) := zpow_le_zpow_right₀ (by norm_num) hdp
      _ = 1 := by simp
  have hd1v : d1.val < 2 ^ (R.mantBits + 1) := by
    calc d1.val ≤ d.val * 2 ^ ((R.mantBits + 1 : Nat) : Int) := hs1.le
      _ < 1 * 2 ^ ((R.mantBits + 1 : Nat) : Int) := mul_lt_mul_of_pos_right hval1 (by positivity)
      _ = _ := by rw [one_mul, zpow_natCast]
  have h253 : (2 : ℚ) ^ (R.mantBits + 1) ≤ 2 ^ 53 := pow_le_pow_right₀ (by norm_num) (by omega)
  have hdp1 : d1.dp ≤ 768 := by
    have h1 : (10 : ℚ) ^ (d1.dp - 1) < 10 ^ (53 : Int) := by
      calc (10 : ℚ) ^ (d1.dp - 1) ≤ d1.val := hs1.ok.ge
        _ < 2 ^ 53 := lt_of_lt_of_le hd1v h253
        _ ≤ 10 ^ (53 : Int) := by norm_num
    have := (zpow_lt_zpow_iff_right₀ (show (1 : ℚ) < 10 by norm_num)).1 h1
    omega
  have t1 := t.left hs1 hdp1
  have hX : x * 2 ^ (-(e + 1)) * 2 ^ (R.mantBits + 1) = x * 2 ^ ((R.mantBits : Int) - e) := by
    rw [mul_assoc, ← zpow_natCast, ← zpow_add₀ h2]; congr 2; push_cast; ring
  rw [hX] at t1
  have half : ∀ a : Nat, a ≤ 2 ^ 54 → Cmp d1 (x * 2 ^ ((R.mantBits : Int) - e)) (a / 2) := by
    intro a ha
    have := t1.cmp a (-1) (fine_half ha (by omega)) (fine_half ha (by push_cast; omega))
    rwa [show (a : ℚ) * 2 ^ (-1 : Int) = a / 2 by rw [zpow_neg, zpow_one]; rfl] at this
  obtain ⟨k, hk, hkr⟩ := round_spec hs1.ok hs1.trimmed (lt_of_lt_of_le hd1v h253) half
  rw [hk]
  simp only [Option.bind_some]
  -- the scaled number
  obtain ⟨j, hj⟩ : ∃ j : Nat, (j : Int) = e - R.minExp - 1 := ⟨(e - R.minExp - 1).toNat, by omega⟩
  have hxX : x = x * 2 ^ ((R.mantBits : Int) - e) * (2 : ℚ) ^ (R.fmt.tiny + j) := by
    rw [mul_assoc, ← zpow_add₀ h2]
    have : (R.mantBits : Int) - e + (R.fmt.tiny + j) = 0 := by
      unfold Format.tiny; have := L.minExp; omega
    rw [this]; simp
  have hXlo : j = 0 ∨ ((2 ^ R.fmt.mant : Nat) : ℚ) ≤ x * 2 ^ ((R.mantBits : Int) - e) := by
    by_cases hj0 : j = 0
    · exact Or.inl hj0
    · right
      have h1 := hx1 (by omega)
      calc ((2 ^ R.fmt.mant : Nat) : ℚ) = 2 ^ e * 2 ^ ((R.mantBits : Int) - e) := by
            rw [← zpow_add₀ h2, show e + ((R.mantBits : Int) - e) = (R.mantBits : Int) by ring, zpow_natCast, hmant]
            push_cast; rfl
        _ ≤ _ := mul_le_mul_of_nonneg_right h1 (by positivity)
  have hXhi : x * 2 ^ ((R.mantBits : Int) - e) < 2 * ((2 ^ R.fmt.mant : Nat) : ℚ) := by
    calc x * 2 ^ ((R.mantBits : Int) - e) < 2 ^ (e + 1) * 2 ^ ((R.mantBits : Int) - e) :=
          mul_lt_mul_of_pos_right hx2 (by positivity)
      _ = 2 ^ (1 + (R.mantBits : Int)) := by rw [← zpow_add₀ h2]; congr 1; ring
      _ = _ := by rw [zpow_add₀ h2, zpow_natCast, zpow_one, hmant]; push_cast; rfl
  have hN := R.fmt.nearest_of_scaled L.one hxX hXlo hXhi hkr
  rw [← hmant] at hN hXhi hXlo
  -- bounds on the significand
  have hkhi : k ≤ 2 * 2 ^ R.mantBits := by
    by_contra h
    have hkq : ((2 * 2 ^ R.mantBits + 1 : Nat) : ℚ) ≤ k := by exact_mod_cast (show 2 * 2 ^ R.mantBits + 1 ≤ k by omega)
    push_cast at hkq hXhi
    rcases hkr.1 with h1 | h1 <;> linarith [h1]
  have hklo : j = 0 ∨ 2 ^ R.mantBits ≤ k := by
    rcases hXlo with h | h
    · exact Or.inl h
    · right
      by_contra hc
      have hkq : (k : ℚ) + 1 ≤ ((2 ^ R.mantBits : Nat) : ℚ) := by exact_mod_cast (show k + 1 ≤ 2 ^ R.mantBits by omega)
      rcases hkr.2 with h1 | h1 <;> linarith [h1]
  have e1 : (1 : Nat) <<< (R.mantBits + 1) = 2 * 2 ^ R.mantBits := by rw [Nat.shiftLeft_eq, Nat.pow_succ]; omega
  have e2 : (1 : Nat) <<< R.mantBits = 2 ^ R.mantBits := by rw [Nat.shiftLeft_eq, Nat.one_mul]
  rw [e1]
  by_cases hcarry : k ≥ 2 * 2 ^ R.mantBits
  · rw [if_pos hcarry]
    have hkeq : k = 2 * 2 ^ R.mantBits := by omega
    obtain ⟨d2, hr2, hs2⟩ := rightShift_spec hs1.ok (k := 1) (by omega) (by
      -- the number is at least one
      have h1 : (1 : ℚ) ≤ d1.val := by
        by_contra hc
        have hlt := lt_of_not_ge hc
        have := (half 2 (by norm_num)).1 (by push_cast; linarith)
        push_cast at this
        have hk1 : (1 : ℚ) ≤ ((2 ^ R.mantBits : Nat) : ℚ) := by exact_mod_cast hPpos
        have hkq : (k : ℚ) = 2 * ((2 ^ R.mantBits : Nat) : ℚ) := by exact_mod_cast hkeq
        rcases hkr.1 with h1 | h1 <;> linarith [h1]
      have h3 : (10 : ℚ) ^ (0 : Int) < 10 ^ d1.dp := by
        rw [zpow_zero]; exact lt_of_le_of_lt h1 hs1.ok.lt
      have := (zpow_lt_zpow_iff_right₀ (show (1 : ℚ) < 10 by norm_num)).1 h3
      omega)
    simp only [hr2, Option.bind_some]
    obtain ⟨b1, _⟩ := hs2.dp_right hs1.ok (by omega)
    have t2 := t1.right (K' := K + R.mantBits + 1) hs2 (by omega) (by omega)
    have hvv : d2.val < 2 ^ 53 := by
      have h1 := hs2.le
      have h3 : d1.val * 2 ^ (-((1 : Nat) : Int)) ≤ d1.val * 1 := by
        apply mul_le_mul_of_nonneg_left _ (le_of_lt hs1.ok.val_pos)
        norm_num
      linarith
    obtain ⟨k', hk', hkr'⟩ := round_spec hs2.ok hs2.trimmed hvv (by
      intro a ha
      have := t2.cmp a (-1) (fine_half ha (by omega)) (fine_half ha (by push_cast; omega))
      rwa [show (a : ℚ) * 2 ^ (-1 : Int) = a / 2 by rw [zpow_neg, zpow_one]; rfl] at this)
    rw [hk']
    simp only [Option.bind_some]
    have hk'eq : k' = 2 ^ R.mantBits := by
      apply roundsTo_unique hkr'
      have hkq : (k : ℚ) = 2 * ((2 ^ R.mantBits : Nat) : ℚ) := by exact_mod_cast hkeq
      have hlow : 2 * (k : ℚ) - 1 ≤ 2 * (x * 2 ^ ((R.mantBits : Int) - e)) := by
        rcases hkr.1 with h1 | h1
        · exact le_of_lt h1
        · exact le_of_eq h1.1
      have e3 : (2 : ℚ) ^ (-((1 : Nat) : Int)) = 1 / 2 := by norm_num
      unfold RoundsTo
      rw [e3]
      generalize x * 2 ^ ((R.mantBits : Int) - e) = X at *
      exact ⟨Or.inl (by linarith), Or.inl (by linarith)⟩
    have hmin : j * 2 ^ R.mantBits + k = (j + 2) * 2 ^ R.mantBits := by rw [hkeq]; ring
    rw [hmin] at hN
    by_cases hb2 : e + 1 - R.minExp ≥ R.infPower
    · rw [if_pos hb2]
      refine ⟨_, rfl, by unfold zeroPow2; dsimp only; omega, ?_⟩
      rw [bitsInf]
      rwa [Nat.min_eq_right] at hN
      rw [hinf]
      exact Nat.mul_le_mul_right _ (by omega)
    · rw [if_neg hb2, hk'eq, e2, if_neg (by omega)]
      refine ⟨_, rfl, by dsimp only; omega, ?_⟩
      unfold biasedFpToFloat
      dsimp only
      rw [Nat.and_two_pow_sub_one_eq_mod, Nat.mod_self, or_shift _ _ _ hPpos]
      have : (e + 1 - R.minExp).toNat = j + 2 := by omega
      rw [this, Nat.add_zero]
      rwa [Nat.min_eq_left] at hN
      rw [hinf]
      exact Nat.mul_le_mul_right _ (by omega)
  · rw [if_neg hcarry, e2]
    by_cases hsub : k < 2 ^ R.mantBits
    · rw [if_pos hsub]
      have hj0 : j = 0 := by omega
      refine ⟨_, rfl, by dsimp only; omega, ?_⟩
      unfold biasedFpToFloat
      dsimp only
      rw [Nat.and_two_pow_sub_one_eq_mod, Nat.mod_eq_of_lt hsub, or_shift _ _ _ hsub]
      have : (e - R.minExp - 1).toNat = 0 := by omega
      rw [this]
      rw [hj0] at hN
      rwa [Nat.min_eq_left] at hN
      rw [hinf]
      have : 1 * 2 ^ R.mantBits ≤ R.infPower.toNat * 2 ^ R.mantBits := Nat.mul_le_mul_right _ (by omega)
      omega
    · rw [if_neg hsub]
      refine ⟨_, rfl, by dsimp only; omega, ?_⟩
      unfold biasedFpToFloat
      dsimp only
      obtain ⟨r, hr⟩ : ∃ r, k = 2 ^ R.mantBits + r := ⟨k - 2 ^ R.mantBits, by omega⟩
      have hrlt : r < 2 ^ R.mantBits := by omega
      rw [Nat.and_two_pow_sub_one_eq_mod, hr, Nat.add_mod_left, Nat.mod_eq_of_lt hrlt, or_shift _ _ _ hrlt]
      have : (e - R.minExp).toNat = j + 1 := by omega
      rw [this]
      have e3 : j * 2 ^ R.mantBits + k = (j + 1) * 2 ^ R.mantBits + r := by rw [hr]; ring
      rw [e3] at hN
      rwa [Nat.min_eq_left] at hN
      rw [hinf]
      have : (j + 2) * 2 ^ R.mantBits ≤ R.infPower.toNat * 2 ^ R.mantBits := Nat.mul_le_mul_right _ (by omega)
      rw [Nat.add_mul] at this ⊢
      omega

/-- What the digits read from a text say about the number. -/
def Reads (d : Decimal) (x : ℚ) : Prop :=
  (d.num = 0 ∧ x = 0) ∨ (d.Ok ∧ (d.truncated = false → x = d.val) ∧
    (d.truncated = true → d.val < x ∧ x < d.val + 10 ^ (d.dp - 768)))

theorem Reads.lt {d : Decimal} {x : ℚ} (h : Reads d x) (h0 : d.num ≠ 0) : x < 10 ^ d.dp ∧ d.val ≤ x := by
  rcases h with h | ⟨ok, h1, h3⟩
  · exact absurd h.1 h0
  cases ht : d.truncated with
  | false => rw [h1 ht]; exact ⟨ok.lt, le_refl _⟩
  | true =>
    obtain ⟨a, b⟩ := h3 ht
    refine ⟨?_, le_of_lt a⟩
    obtain ⟨m, hm, hml⟩ := ok.grid
    calc x < d.val + 10 ^ (d.dp - 768) := b
      _ = ((m + 1 : Nat) : ℚ) * 10 ^ (d.dp - 768) := by rw [hm]; push_cast; ring
      _ ≤ 10 ^ 768 * 10 ^ (d.dp - 768) := by
          apply mul_le_mul_of_nonneg_right _ (by positivity)
          have : m + 1 ≤ 10 ^ 768 := hml
          exact_mod_cast this
      _ = 10 ^ (768 + (d.dp - 768)) := by rw [zpow_add₀ h10, zpow_ofNat]
      _ = _ := by congr 1; ring

/-- The slow path does not panic, and its result is correctly rounded. -/
theorem slowDecimal_spec (L : LawfulSlow R) {d : Decimal} {x : ℚ} (hd : Reads d x) :
    ∃ fp, slowDecimal R d = some fp ∧ 0 ≤ fp.e ∧ R.fmt.Nearest x (biasedFpToFloat R fp) := by
  have hi2 := L.inf2
  have hip := L.infPower
  have bitsInf : biasedFpToFloat R (zeroPow2 R.infPower) = R.fmt.inf := by
    unfold biasedFpToFloat zeroPow2
    rw [or_shift _ _ _ (Nat.two_pow_pos _), L.infPower, Int.toNat_natCast, Nat.add_zero]
    unfold Format.inf
    rw [L.mant]
  unfold slowDecimal
  by_cases hz : d.num = 0 ∨ d.dp < -324
  · rw [if_pos hz]
    refine ⟨_, rfl, by unfold zeroPow2; dsimp only; omega, ?_⟩
    rw [bits_zero]
    apply R.fmt.nearest_zero
    by_cases h0 : d.num = 0
    · rcases hd with h | ⟨ok, _⟩
      · rw [h.2]
        have h1 : (0 : ℚ) < 10 ^ (-325 : Int) := by positivity
        linarith [L.zero]
      · exact absurd h0 (by have := ok.pos; omega)
    · have h1 := (hd.lt h0).1
      have h3 : (10 : ℚ) ^ d.dp ≤ 10 ^ (-325 : Int) := zpow_le_zpow_right₀ (by norm_num) (by omega)
      have h4 := L.zero
      generalize (10 : ℚ) ^ (-325 : Int) = w at *
      linarith
  rw [if_neg hz]
  rw [not_or] at hz
  obtain ⟨h0, hlow⟩ := hz
  obtain ⟨hxlt, hxge⟩ := hd.lt h0
  obtain ⟨ok, hd0, hd1⟩ := hd.resolve_left (fun h => h0 h.1)
  by_cases hb : d.dp ≥ 310
  · rw [if_pos hb]
    refine ⟨_, rfl, by unfold zeroPow2; dsimp only; omega, ?_⟩
    rw [bitsInf]
    apply R.fmt.nearest_inf
    calc _ ≤ (10 : ℚ) ^ (309 : Int) := L.big
      _ ≤ 10 ^ (d.dp - 1) := zpow_le_zpow_right₀ (by norm_num) (by omega)
      _ ≤ d.val := ok.ge
      _ ≤ x := hxge
  rw [if_neg hb]
  have t0 := Track.init ok (by omega) hd0 hd1
  obtain ⟨d1, E, hr1, t1, hdp1, hE⟩ := shiftRightLoop_spec 2000 d x 0 t0 (by omega) (by omega) (by
    calc d.val < 10 ^ d.dp := ok.lt
      _ ≤ 10 ^ (310 : Int) := zpow_le_zpow_right₀ (by norm_num) (by omega)
      _ = 10 ^ 310 := zpow_ofNat _ _
      _ ≤ 16 ^ 310 := pow_le_pow_left₀ (by norm_num) (by norm_num) _
      _ ≤ 64 ^ 310 := pow_le_pow_left₀ (by norm_num) (by norm_num) _
      _ = 8 ^ 620 := by rw [show (64 : ℚ) = 8 ^ 2 by norm_num, ← pow_mul]
      _ ≤ 8 ^ 2000 := pow_le_pow_right₀ (by norm_num) (by norm_num))
  rw [hr1]
  simp only [Option.bind_eq_bind, Option.bind_some]
  have hd1v : (10 : ℚ) ^ (-325 : Int) ≤ d1.val := by
    calc (10 : ℚ) ^ (-325 : Int) ≤ 10 ^ (d1.dp - 1) := by
          apply zpow_le_zpow_right₀ (by norm_num)
          rcases hE with ⟨_, h⟩ | h
          · rw [h]; omega
          · omega
      _ ≤ _ := t1.ok.ge
  obtain ⟨d2, K, hr2, t2, hd2v, hdp2, hδ, hK⟩ := shiftLeftLoop_spec (δ := d1.val - 10 ^ (-768 : Int)) (by
      have : (2 : ℚ) ^ (-1080 : Int) + 10 ^ (-768 : Int) ≤ 10 ^ (-325 : Int) := by norm_num
      linarith) 2000 d1 _ (0 + E) 0 t1 hdp1 (by rw [pow_zero, mul_one]) (by omega)
  rw [hr2]
  simp only [Option.bind_some]
  simp only [Nat.zero_add] at t2 hδ hK
  -- the number is between a half and one
  have hd2lt : d2.val < 1 := by have := t2.ok.lt; rw [hdp2] at this; simpa using this
  have hsc : x * 2 ^ (-(E : Int)) * 2 ^ K = x * 2 ^ ((K : Int) - E) := by
    rw [mul_assoc, ← zpow_natCast, ← zpow_add₀ h2]; congr 2; ring
  rw [hsc] at t2
  have hge : (1 : ℚ) / 2 ≤ x * 2 ^ ((K : Int) - E) := by
    have hc := t2.cmp 1 (-1) (fine_one (by omega)) (fine_one (by omega))
    rw [show ((1 : Nat) : ℚ) * 2 ^ (-1 : Int) = 1 / 2 by norm_num] at hc
    rcases lt_or_eq_of_le hd2v with h | h
    · exact le_of_lt (hc.2.2 h)
    · have h3 := hc.2.1 h.symm
      split at h3
      · exact le_of_lt h3
      · exact le_of_eq h3.symm
  have hlt : x * 2 ^ ((K : Int) - E) < 1 := by
    have hc := t2.cmp 1 0 (fine_one (by omega)) (fine_one (by omega))
    rw [show ((1 : Nat) : ℚ) * 2 ^ (0 : Int) = 1 by norm_num] at hc
    exact hc.1 hd2lt
  -- if the first loop did something, the second does little
  have hK3 : E = 0 ∨ K ≤ 3 := by
    rcases hE with ⟨h, _⟩ | h
    · exact Or.inl h
    · right
      by_contra hk
      have h1 : (10 : ℚ) ^ (d1.dp - 1) ≤ d1.val := t1.ok.ge
      rw [h] at h1
      have h3 : (2 : ℚ) ^ 4 ≤ 2 ^ K := pow_le_pow_right₀ (by norm_num) (by omega)
      have h4 : (0 : ℚ) < 10 ^ (-768 : Int) := by positivity
      have h5 : (10 : ℚ) ^ (-768 : Int) ≤ 1 / 100 := by
        calc (10 : ℚ) ^ (-768 : Int) ≤ 10 ^ (-2 : Int) := zpow_le_zpow_right₀ (by norm_num) (by norm_num)
          _ = 1 / 100 := by norm_num
      norm_num at h1
      generalize (10 : ℚ) ^ (-768 : Int) = ε at *
      nlinarith
  have hx1 : (2 : ℚ) ^ ((E : Int) - K - 1) ≤ x := by
    have : (2 : ℚ) ^ ((E : Int) - K - 1) = 1 / 2 * 2 ^ ((E : Int) - K) := by
      rw [zpow_sub₀ h2 _ 1, zpow_one]; ring
    rw [this]
    calc (1 : ℚ) / 2 * 2 ^ ((E : Int) - K) ≤ x * 2 ^ ((K : Int) - E) * 2 ^ ((E : Int) - K) :=
          mul_le_mul_of_nonneg_right hge (by positivity)
      _ = x := by rw [mul_assoc, ← zpow_add₀ h2]; simp
  have hx2 : x < (2 : ℚ) ^ ((E : Int) - K) := by
    calc x = x * 2 ^ ((K : Int) - E) * 2 ^ ((E : Int) - K) := by rw [mul_assoc, ← zpow_add₀ h2]; simp
      _ < 1 * 2 ^ ((E : Int) - K) := mul_lt_mul_of_pos_right hlt (by positivity)
      _ = _ := one_mul _
  have hminLo := L.minLo
  have hminHi := L.minHi
  obtain ⟨d3, n, hr3, hn, t3, hdp3, _⟩ := subnormalLoop_spec (minExp := R.minExp) 2000 d2 _ (0 + (E : Int) - K - 1) K t2
    (by omega) (by omega) (by omega) (by omega)
  rw [hr3]
  simp only [Option.bind_some]
  have hsc3 : x * 2 ^ ((K : Int) - E) * 2 ^ (-(n : Int)) = x * 2 ^ (-((0 + (E : Int) - K - 1 + n) + 1)) := by
    rw [mul_assoc, ← zpow_add₀ h2]; congr 2; ring
  rw [hsc3] at t3
  have hdig := L.digits
  have hm52 := L.mant52
  apply slowRound_spec L t3 hdp3 (by omega)
  · intro h
    have : (0 : Int) + E - K - 1 + n = E - K - 1 := by omega
    rw [this]; exact hx1
  · refine lt_of_lt_of_le hx2 (zpow_le_zpow_right₀ (by norm_num) (by omega))
  · omega

theorem lawfulSlow64 : LawfulSlow rawF64 where
  mant := rfl
  one := by decide
  mant52 := by decide
  minExp := by decide
  minLo := by decide
  minHi := by decide
  digits := by decide
  infPower := by decide
  inf2 := by decide
  zero := by
    rw [value_tiny _ (by decide), show rawF64.fmt.tiny = -1074 by decide]
    norm_num
  big := by
    have := lawful64.big
    rwa [show rawF64.largest10 + 1 = 309 by decide] at this

theorem lawfulSlow32 : LawfulSlow rawF32 where
  mant := rfl
  one := by decide
  mant52 := by decide
  minExp := by decide
  minLo := by decide
  minHi := by decide
  digits := by decide
  infPower := by decide
  inf2 := by decide
  zero := by
    rw [value_tiny _ (by decide), show rawF32.fmt.tiny = -149 by decide]
    norm_num
  big := by
    have := lawful32.big
    rw [show rawF32.largest10 + 1 = 39 by decide] at this
    exact le_trans this (zpow_le_zpow_right₀ (by norm_num) (by norm_num))

end Musli.Dec2Flt
