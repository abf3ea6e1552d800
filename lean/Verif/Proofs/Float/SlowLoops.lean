import Verif.Proofs.Float.Track
/-!
# The loops of the slow path
-/
set_option linter.unusedSectionVars false
set_option exponentiation.threshold 2000
namespace Musli.Dec2Flt
open Musli.Spec.Float

theorem fine_one {i : Int} (h : -1098 ≤ i) : Fine 1 i := by
  have : Fine 1 (-1098) := by
    unfold Fine
    rw [show (-(-1098 : Int)).toNat = 1098 by decide]
    decide +kernel
  exact this.mono h

theorem fine_half {a : Nat} {i : Int} (ha : a ≤ 2 ^ 54) (h : -1075 ≤ i) : Fine a i := by
  have : Fine (2 ^ 54) (-1075) := by
    unfold Fine
    rw [show (-(-1075 : Int)).toNat = 1075 by decide]
    decide +kernel
  exact (this.mono h).le ha

theorem getShift_spec {n : Nat} (hn : 1 ≤ n) : 3 ≤ getShift n ∧ getShift n ≤ 60 ∧ 2 ^ getShift n ≤ 10 ^ n := by
  by_cases h : n < 19
  · have : ∀ n < 19, 1 ≤ n → 3 ≤ getShift n ∧ getShift n ≤ 60 ∧ 2 ^ getShift n ≤ 10 ^ n := by decide +kernel
    exact this n h hn
  · unfold getShift
    rw [if_neg h]
    refine ⟨by norm_num, by norm_num, ?_⟩
    calc (2 : Nat) ^ 60 ≤ 10 ^ 19 := by norm_num
      _ ≤ _ := Nat.pow_le_pow_right (by norm_num) (by omega)

theorem two_pow_neg_lt {k : Nat} (hk : k ≤ 60) : (10 : ℚ) ^ (-19 : Int) ≤ 2 ^ (-(k : Int)) := by
  calc (10 : ℚ) ^ (-19 : Int) ≤ 2 ^ (-60 : Int) := by norm_num
    _ ≤ _ := zpow_le_zpow_right₀ (by norm_num) (by omega)

/-- A shift to the right moves the point by at most 19 places. -/
theorem Shifted.dp_right {d d' : Decimal} {k : Nat} (h : Shifted d d' (-(k : Int))) (hd : d.Ok) (hk : k ≤ 60) :
    d'.dp ≤ d.dp ∧ d.dp - 19 ≤ d'.dp := by
  constructor
  · apply h.dp_le
    have h1 : (2 : ℚ) ^ (-(k : Int)) ≤ 1 := by
      calc (2 : ℚ) ^ (-(k : Int)) ≤ 2 ^ (0 : Int) := zpow_le_zpow_right₀ (by norm_num) (by omega)
        _ = 1 := by simp
    calc d.val * 2 ^ (-(k : Int)) ≤ d.val * 1 := mul_le_mul_of_nonneg_left h1 (le_of_lt hd.val_pos)
      _ < _ := by rw [mul_one]; exact hd.lt
  · have : d.dp - 20 < d'.dp := by
      apply h.dp_ge
      calc (10 : ℚ) ^ (d.dp - 20) = 10 ^ (d.dp - 1) * 10 ^ (-19 : Int) := by
            rw [← zpow_add₀ h10]; congr 1; ring
        _ ≤ d.val * 2 ^ (-(k : Int)) :=
            mul_le_mul hd.ge (two_pow_neg_lt hk) (by positivity) (le_of_lt hd.val_pos)
    omega

/-- The first loop: numbers from one on are made smaller than one. -/
theorem shiftRightLoop_spec : ∀ (fuel : Nat) (d : Decimal) (x : ℚ) (e : Int), Track d x 0 → d.dp ≤ 700 →
    -324 ≤ d.dp → d.val < 8 ^ fuel →
    ∃ (d' : Decimal) (E : Nat), shiftRightLoop fuel d e = some (some (d', e + E)) ∧ Track d' (x * 2 ^ (-(E : Int))) 0 ∧
      d'.dp ≤ 0 ∧ ((E = 0 ∧ d' = d) ∨ d'.dp = 0) := by
  intro fuel
  induction fuel with
  | zero =>
    intro d x e ht hdp hlo hv
    have h0 : ¬ d.dp > 0 := by
      intro h
      have h1 := ht.ok.ge
      have h2 : (1 : ℚ) ≤ 10 ^ (d.dp - 1) := one_le_zpow₀ (by norm_num) (by omega)
      simp at hv
      linarith
    unfold shiftRightLoop
    rw [if_neg h0]
    exact ⟨d, 0, by simp, by simpa using ht, by omega, Or.inl ⟨rfl, rfl⟩⟩
  | succ fuel ih =>
    intro d x e ht hdp hlo hv
    unfold shiftRightLoop
    by_cases h0 : d.dp > 0
    · rw [if_pos h0]
      obtain ⟨g1, g2, g3⟩ := getShift_spec (n := d.dp.toNat) (by omega)
      generalize getShift d.dp.toNat = k at *
      obtain ⟨d1, hr, hs⟩ := rightShift_spec ht.ok g2 (by omega)
      simp only [hr, Option.bind_eq_bind, Option.bind_some]
      obtain ⟨b1, b2⟩ := hs.dp_right ht.ok g2
      rw [if_neg (by unfold decimalPointRange; omega)]
      have ht1 := ht.right (K' := 0) hs (by omega) (by omega)
      have h8 : (2 : ℚ) ^ (-(k : Int)) ≤ 1 / 8 := by
        calc (2 : ℚ) ^ (-(k : Int)) ≤ 2 ^ (-3 : Int) := zpow_le_zpow_right₀ (by norm_num) (by omega)
          _ = 1 / 8 := by norm_num
      -- not below a tenth
      have hge : 0 ≤ d1.dp := by
        have : -1 < d1.dp := by
          apply hs.dp_ge
          have h1 : (2 : ℚ) ^ k ≤ 10 ^ d.dp := by
            have : (2 : ℚ) ^ k ≤ 10 ^ d.dp.toNat := by exact_mod_cast g3
            rwa [← zpow_natCast (10 : ℚ), Int.toNat_of_nonneg (by omega)] at this
          rw [zpow_neg 2, zpow_natCast, ← div_eq_mul_inv, le_div_iff₀ (by positivity)]
          calc (10 : ℚ) ^ (-1 : Int) * 2 ^ k ≤ 10 ^ (-1 : Int) * 10 ^ d.dp := mul_le_mul_of_nonneg_left h1 (by positivity)
            _ = 10 ^ (d.dp - 1) := by rw [← zpow_add₀ h10]; congr 1; ring
            _ ≤ _ := ht.ok.ge
        omega
      obtain ⟨d', E, hr', ht', h1, h3⟩ := ih d1 _ (e + k) ht1 (by omega) (by omega) (by
        have hvp := ht.ok.val_pos
        calc d1.val ≤ d.val * 2 ^ (-(k : Int)) := hs.le
          _ ≤ d.val * (1 / 8) := mul_le_mul_of_nonneg_left h8 (le_of_lt hvp)
          _ < 8 ^ (fuel + 1) * (1 / 8) := mul_lt_mul_of_pos_right hv (by norm_num)
          _ = 8 ^ fuel := by rw [pow_succ]; ring)
      refine ⟨d', k + E, ?_, ?_, h1, Or.inr ?_⟩
      · rw [hr']; congr 3; push_cast; ring
      · have : x * (2 : ℚ) ^ (-((k + E : Nat) : Int)) = x * 2 ^ (-(k : Int)) * 2 ^ (-(E : Int)) := by
          rw [mul_assoc, ← zpow_add₀ h2]; congr 2; push_cast; ring
        rw [this]; exact ht'
      · rcases h3 with ⟨_, h3⟩ | h3
        · rw [h3] at h1 ⊢; omega
        · exact h3
    · rw [if_neg h0]
      exact ⟨d, 0, by simp, by simpa using ht, by omega, Or.inl ⟨rfl, rfl⟩⟩

/-- The first digit tells the size. -/
theorem Decimal.Ok.head_bounds {d : Decimal} (h : d.Ok) :
    (d.digits.headD 0 : ℚ) * 10 ^ (d.dp - 1) ≤ d.val ∧ d.val < (d.digits.headD 0 + 1 : ℚ) * 10 ^ (d.dp - 1) := by
  obtain ⟨num, dp, t, digits⟩ := d
  have hnum : num = digits.length := h.num
  cases digits with
  | nil => exact absurd rfl h.ne
  | cons a l =>
    have hl := num10_lt (ds := l) (fun x hx => h.dig x (by simp [hx]))
    unfold Decimal.val
    simp only [List.headD_cons, num10, List.length_cons] at *
    have hlq : (num10 l : ℚ) < 10 ^ l.length := by exact_mod_cast hl
    have e : (10 : ℚ) ^ (dp - 1) = 10 ^ l.length * 10 ^ (dp - num) := by
      rw [← zpow_natCast, ← zpow_add₀ h10]; congr 1; omega
    have hp : (0 : ℚ) < 10 ^ (dp - (num : Int)) := by positivity
    rw [e]
    push_cast
    constructor
    · have : (0 : ℚ) ≤ (num10 l : ℚ) * 10 ^ (dp - num) := by positivity
      linarith
    · have := mul_lt_mul_of_pos_right hlq hp
      linarith

/-- The second loop: numbers below a half are made larger. -/
theorem shiftLeftLoop_spec {δ : ℚ} (hδ : (2 : ℚ) ^ (-1080 : Int) ≤ δ) : ∀ (fuel : Nat) (d : Decimal) (x : ℚ) (e : Int) (K : Nat),
    Track d x K → d.dp ≤ 0 → δ * 2 ^ K ≤ d.val - 10 ^ (-768 : Int) → 1080 ≤ K + fuel →
    ∃ (d' : Decimal) (k : Nat), shiftLeftLoop fuel d e = some (some (d', e - k)) ∧ Track d' (x * 2 ^ k) (K + k) ∧
      1 / 2 ≤ d'.val ∧ d'.dp = 0 ∧ δ * 2 ^ (K + k) ≤ d'.val - 10 ^ (-768 : Int) ∧ K + k < 1080 := by
  have hε : (0 : ℚ) < 10 ^ (-768 : Int) := by positivity
  have hδ0 : 0 < δ := lt_of_lt_of_le (by positivity) hδ
  -- the scale is bounded
  have bound : ∀ (d : Decimal) (K : Nat), d.Ok → d.dp ≤ 0 → δ * 2 ^ K ≤ d.val - 10 ^ (-768 : Int) → K < 1080 := by
    intro d K ok hdp hv
    have h1 : d.val < 1 := by
      calc d.val < 10 ^ d.dp := ok.lt
        _ ≤ 10 ^ (0 : Int) := zpow_le_zpow_right₀ (by norm_num) hdp
        _ = 1 := by simp
    have h3 : (2 : ℚ) ^ (-1080 : Int) * 2 ^ (K : Int) < 2 ^ (0 : Int) := by
      rw [zpow_natCast, zpow_zero]
      have : (2 : ℚ) ^ (-1080 : Int) * 2 ^ K ≤ δ * 2 ^ K := mul_le_mul_of_nonneg_right hδ (by positivity)
      linarith
    rw [← zpow_add₀ h2] at h3
    have := (zpow_lt_zpow_iff_right₀ (show (1 : ℚ) < 2 by norm_num)).1 h3
    omega
  intro fuel
  induction fuel with
  | zero =>
    intro d x e K ht hdp hv hf
    exact absurd (bound d K ht.ok hdp hv) (by omega)
  | succ fuel ih =>
    intro d x e K ht hdp hv hf
    have hK := bound d K ht.ok hdp hv
    obtain ⟨hb1, hb2⟩ := ht.ok.head_bounds
    unfold shiftLeftLoop
    rw [if_pos hdp]
    generalize d.digits.headD 0 = hd at *
    by_cases hbr : d.dp = 0 ∧ hd ≥ 5
    · rw [if_pos hbr]
      refine ⟨d, 0, by simp, by simpa using ht, ?_, hbr.1, by simpa using hv, by omega⟩
      have h5 : (5 : ℚ) ≤ (hd : ℚ) := by exact_mod_cast hbr.2
      rw [hbr.1] at hb1
      norm_num at hb1
      linarith
    · rw [if_neg hbr]
      simp only []
      -- the amount
      obtain ⟨s, hsd, hs1, hs60, hsm⟩ : ∃ s, (if d.dp = 0 then (if hd ≤ 1 then 2 else 1) else getShift (-d.dp).toNat) = s ∧
          1 ≤ s ∧ s ≤ 60 ∧ d.val * 2 ^ s < 1 := by
        by_cases hz : d.dp = 0
        · rw [if_pos hz]
          rw [hz] at hb2
          norm_num at hb2
          by_cases h1 : hd ≤ 1
          · rw [if_pos h1]
            refine ⟨2, rfl, by norm_num, by norm_num, ?_⟩
            have : (hd : ℚ) ≤ 1 := by exact_mod_cast h1
            norm_num
            linarith
          · rw [if_neg h1]
            refine ⟨1, rfl, by norm_num, by norm_num, ?_⟩
            have h4 : hd ≤ 4 := by
              by_contra h; exact hbr ⟨hz, by omega⟩
            have : (hd : ℚ) ≤ 4 := by exact_mod_cast h4
            norm_num
            linarith
        · rw [if_neg hz]
          obtain ⟨g1, g2, g3⟩ := getShift_spec (n := (-d.dp).toNat) (by omega)
          refine ⟨_, rfl, by omega, g2, ?_⟩
          have h1 : (2 : ℚ) ^ getShift (-d.dp).toNat ≤ 10 ^ (-d.dp) := by
            have : (2 : ℚ) ^ getShift (-d.dp).toNat ≤ 10 ^ (-d.dp).toNat := by exact_mod_cast g3
            rwa [← zpow_natCast (10 : ℚ), Int.toNat_of_nonneg (by omega)] at this
          calc d.val * 2 ^ getShift (-d.dp).toNat ≤ d.val * 10 ^ (-d.dp) :=
                mul_le_mul_of_nonneg_left h1 (le_of_lt ht.ok.val_pos)
            _ < 10 ^ d.dp * 10 ^ (-d.dp) := mul_lt_mul_of_pos_right ht.ok.lt (by positivity)
            _ = 1 := by rw [← zpow_add₀ h10]; simp
      rw [hsd]
      obtain ⟨d1, hr, hs⟩ := leftShift_spec ht.ok hs1 hs60
      simp only [hr, Option.bind_eq_bind, Option.bind_some]
      have hdp1 : d1.dp ≤ 0 := by
        apply hs.dp_le
        rw [zpow_natCast, zpow_zero]; exact hsm
      rw [if_neg (by unfold decimalPointRange; omega)]
      have ht1 := ht.left hs (by omega)
      have hlt := hs.lt
      have hg : (10 : ℚ) ^ (d1.dp - 768) ≤ 10 ^ (-768 : Int) := zpow_le_zpow_right₀ (by norm_num) (by omega)
      rw [zpow_natCast] at hlt
      have h2s : (2 : ℚ) ≤ 2 ^ s := by
        calc (2 : ℚ) = 2 ^ 1 := by norm_num
          _ ≤ _ := pow_le_pow_right₀ (by norm_num) hs1
      have hv1 : δ * 2 ^ (K + s) ≤ d1.val - 10 ^ (-768 : Int) := by
        have h1 : (δ * 2 ^ K) * 2 ^ s ≤ (d.val - 10 ^ (-768 : Int)) * 2 ^ s := mul_le_mul_of_nonneg_right hv (by positivity)
        have h3 : (10 : ℚ) ^ (-768 : Int) * 2 ≤ 10 ^ (-768 : Int) * 2 ^ s := mul_le_mul_of_nonneg_left h2s (le_of_lt hε)
        rw [pow_add, ← mul_assoc]
        generalize (10 : ℚ) ^ (-768 : Int) = ε at *
        linarith
      obtain ⟨d', k, hr', ht', c1, c2, c3, c4⟩ := ih d1 _ (e - s) (K + s) ht1 hdp1 hv1 (by omega)
      refine ⟨d', s + k, ?_, ?_, c1, c2, ?_, by omega⟩
      · rw [hr']; congr 3; push_cast; ring
      · rw [pow_add, ← mul_assoc, ← Nat.add_assoc]; exact ht'
      · rw [← Nat.add_assoc]; exact c3

/-- The third loop: subnormal numbers. -/
theorem subnormalLoop_spec {minExp : Int} : ∀ (fuel : Nat) (d : Decimal) (x : ℚ) (e : Int) (K : Nat),
    Track d x K → d.dp ≤ 0 → minExp + 1 - e ≤ fuel → (minExp + 1 ≤ e ∨ -1900 * 60 + 19 * (minExp + 1 - e + 60) ≤ 60 * d.dp) → -1900 ≤ d.dp →
    ∃ (d' : Decimal) (n : Nat), subnormalLoop minExp fuel d e = some (d', e + n) ∧ e + n = max e (minExp + 1) ∧
      Track d' (x * 2 ^ (-(n : Int))) (K - n) ∧ d'.dp ≤ 0 ∧ -1900 ≤ d'.dp := by
  intro fuel
  induction fuel with
  | zero =>
    intro d x e K ht hdp hf hlo hlo2
    unfold subnormalLoop
    rw [if_neg (by omega)]
    exact ⟨d, 0, by simp, by omega, by simpa using ht, hdp, hlo2⟩
  | succ fuel ih =>
    intro d x e K ht hdp hf hlo hlo2
    unfold subnormalLoop
    by_cases hc : minExp + 1 > e
    · rw [if_pos hc]
      simp only []
      generalize hn : (if (minExp + 1 - e).toNat > 60 then 60 else (minExp + 1 - e).toNat) = n
      have hn60 : n ≤ 60 := by rw [← hn]; split <;> omega
      have hncase : (n : Int) = minExp + 1 - e ∨ (n = 60 ∧ 60 < minExp + 1 - e) := by
        rw [← hn]; split
        · right; omega
        · left; omega
      obtain ⟨d1, hr, hs⟩ := rightShift_spec ht.ok hn60 (by omega)
      simp only [hr, Option.bind_eq_bind, Option.bind_some]
      obtain ⟨b1, b2⟩ := hs.dp_right ht.ok hn60
      have ht1 := ht.right (K' := K - n) hs (by omega) (by omega)
      obtain ⟨d', m, hr', h1, ht', h3, h4⟩ := ih d1 _ (e + n) (K - n) ht1 (by omega) (by omega) (by omega) (by omega)
      refine ⟨d', n + m, ?_, by omega, ?_, h3, h4⟩
      · rw [hr']; congr 2; push_cast; ring
      · have : x * (2 : ℚ) ^ (-((n + m : Nat) : Int)) = x * 2 ^ (-(n : Int)) * 2 ^ (-(m : Int)) := by
          rw [mul_assoc, ← zpow_add₀ h2]; congr 2; push_cast; ring
        rw [this, ← Nat.sub_sub]; exact ht'
    · rw [if_neg hc]
      exact ⟨d, 0, by simp, by omega, by simpa using ht, hdp, hlo2⟩

end Musli.Dec2Flt
