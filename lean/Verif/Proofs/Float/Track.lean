import Verif.Proofs.Float.RightShift
/-!
# Comparing with cut decimals

A decimal of the slow path has lost digits, and the losses add up. What is kept is how
the exact number compares with all numbers that have few enough digits: those are not
moved by cutting off. The points half-way between two floats are among them.
-/
set_option linter.unusedSectionVars false
namespace Musli.Dec2Flt

/-- The decimal, with its note on lost digits, compares with `h` as `x` does. -/
def Cmp (d : Decimal) (x h : ℚ) : Prop :=
  (d.val < h → x < h) ∧ (d.val = h → if d.truncated then h < x else x = h) ∧ (h < d.val → h < x)

/-- `a * 2 ^ i` has at most 768 digits. -/
def Fine (a : Nat) (i : Int) : Prop := a * 5 ^ (-i).toNat < 10 ^ 768

theorem Fine.mono {a : Nat} {i i' : Int} (h : Fine a i) (hi : i ≤ i') : Fine a i' :=
  lt_of_le_of_lt (Nat.mul_le_mul_left _ (Nat.pow_le_pow_right (by norm_num) (by omega))) h

theorem Fine.le {a a' : Nat} {i : Int} (h : Fine a i) (ha : a' ≤ a) : Fine a' i :=
  lt_of_le_of_lt (Nat.mul_le_mul_right _ ha) h

theorem h10 : (10 : ℚ) ≠ 0 := by norm_num
theorem h2 : (2 : ℚ) ≠ 0 := by norm_num

theorem Fine.grid {a : Nat} {i dp : Int} (h : Fine a i) (hdp : dp ≤ 768) :
    (∃ m : Nat, (a : ℚ) * 2 ^ i = m * 10 ^ (dp - 768)) ∨ (a : ℚ) * 2 ^ i < 10 ^ (dp - 1) := by
  by_cases hi : 0 ≤ i
  · left
    refine ⟨a * 2 ^ i.toNat * 10 ^ (768 - dp).toNat, ?_⟩
    push_cast
    rw [← zpow_natCast, ← zpow_natCast, Int.toNat_of_nonneg hi, Int.toNat_of_nonneg (by omega), mul_assoc _ ((10 : ℚ) ^ _),
      ← zpow_add₀ h10]
    simp
  · have hp : ((-i).toNat : Int) = -i := Int.toNat_of_nonneg (by omega)
    have hv : (a : ℚ) * 2 ^ i = ((a * 5 ^ (-i).toNat : Nat) : ℚ) * 10 ^ i := by
      push_cast
      rw [← zpow_natCast, hp, show (10 : ℚ) ^ i = 2 ^ i * 5 ^ i by rw [← mul_zpow]; norm_num]
      have : (5 : ℚ) ^ (-i) * 5 ^ i = 1 := by rw [← zpow_add₀ (by norm_num)]; simp
      calc (a : ℚ) * 2 ^ i = a * 2 ^ i * (5 ^ (-i) * 5 ^ i) := by rw [this, mul_one]
        _ = _ := by ring
    rw [hv]
    by_cases hc : dp - 768 ≤ i
    · left
      refine ⟨a * 5 ^ (-i).toNat * 10 ^ (i - (dp - 768)).toNat, ?_⟩
      push_cast
      rw [mul_assoc _ ((10 : ℚ) ^ (i - (dp - 768)).toNat), ← zpow_natCast (10 : ℚ), Int.toNat_of_nonneg (by omega), ← zpow_add₀ h10]
      congr 2; ring
    · right
      have h1 : ((a * 5 ^ (-i).toNat : Nat) : ℚ) < 10 ^ 768 := by exact_mod_cast h
      calc ((a * 5 ^ (-i).toNat : Nat) : ℚ) * 10 ^ i < 10 ^ 768 * 10 ^ i := mul_lt_mul_of_pos_right h1 (by positivity)
        _ = 10 ^ (768 + i) := by rw [zpow_add₀ h10, zpow_ofNat]
        _ ≤ _ := zpow_le_zpow_right₀ (by norm_num) (by omega)

theorem Decimal.Ok.grid {d : Decimal} (h : d.Ok) : ∃ m : Nat, d.val = m * 10 ^ (d.dp - 768) ∧ m < 10 ^ 768 := by
  have hm := h.max
  refine ⟨num10 d.digits * 10 ^ (768 - d.num), ?_, ?_⟩
  · unfold Decimal.val
    push_cast
    rw [mul_assoc, ← zpow_natCast, ← zpow_add₀ h10, Nat.cast_sub hm]
    congr 2; push_cast; ring
  · have h1 := num10_lt h.dig
    rw [← h.num] at h1
    calc _ < 10 ^ d.num * 10 ^ (768 - d.num) := Nat.mul_lt_mul_of_pos_right h1 (Nat.pow_pos (by norm_num))
      _ = _ := by rw [← Nat.pow_add]; congr 1; omega

theorem Shifted.dp_le {d d' : Decimal} {s e : Int} (h : Shifted d d' s) (hlt : d.val * 2 ^ s < 10 ^ e) : d'.dp ≤ e := by
  have h1 : (10 : ℚ) ^ (d'.dp - 1) < 10 ^ e := lt_of_le_of_lt h.ok.ge (lt_of_le_of_lt h.le hlt)
  have := (zpow_lt_zpow_iff_right₀ (show (1 : ℚ) < 10 by norm_num)).1 h1
  omega

theorem Shifted.dp_ge {d d' : Decimal} {s e : Int} (h : Shifted d d' s) (hge : (10 : ℚ) ^ e ≤ d.val * 2 ^ s) : e < d'.dp := by
  obtain ⟨m, hm, hml⟩ := h.ok.grid
  have h1 : (10 : ℚ) ^ e < 10 ^ d'.dp := by
    calc (10 : ℚ) ^ e ≤ d.val * 2 ^ s := hge
      _ < d'.val + 10 ^ (d'.dp - 768) := h.lt
      _ = ((m + 1 : Nat) : ℚ) * 10 ^ (d'.dp - 768) := by rw [hm]; push_cast; ring
      _ ≤ 10 ^ 768 * 10 ^ (d'.dp - 768) := by
          apply mul_le_mul_of_nonneg_right _ (by positivity)
          have : m + 1 ≤ 10 ^ 768 := hml
          exact_mod_cast this
      _ = 10 ^ (768 + (d'.dp - 768)) := by rw [zpow_add₀ h10, zpow_ofNat]
      _ = _ := by congr 1; ring
  exact (zpow_lt_zpow_iff_right₀ (show (1 : ℚ) < 10 by norm_num)).1 h1

/-- Comparisons survive a shift. -/
theorem Cmp.shift {d d' : Decimal} {x h : ℚ} {s : Int} (hc : Cmp d x h) (hs : Shifted d d' s)
    (hg : (∃ m : Nat, h * 2 ^ s = m * 10 ^ (d'.dp - 768)) ∨ h * 2 ^ s < 10 ^ (d'.dp - 1)) :
    Cmp d' (x * 2 ^ s) (h * 2 ^ s) := by
  have hp : (0 : ℚ) < 2 ^ s := by positivity
  obtain ⟨c1, c2, c3⟩ := hc
  have hle := hs.le
  have hlt := hs.lt
  have gt : h * 2 ^ s < d'.val → h * 2 ^ s < x * 2 ^ s := by
    intro hd
    have : h * 2 ^ s < d.val * 2 ^ s := lt_of_lt_of_le hd hle
    exact mul_lt_mul_of_pos_right (c3 (lt_of_mul_lt_mul_right this (le_of_lt hp))) hp
  rcases hg with ⟨m, hm⟩ | hsmall
  · refine ⟨?_, ?_, gt⟩
    · intro hd
      obtain ⟨m', hm', _⟩ := hs.ok.grid
      have hgp : (0 : ℚ) < 10 ^ (d'.dp - 768) := by positivity
      have h1 : m' < m := by
        rw [hm, hm'] at hd
        exact_mod_cast lt_of_mul_lt_mul_right hd (le_of_lt hgp)
      have h3 : d'.val + 10 ^ (d'.dp - 768) ≤ h * 2 ^ s := by
        rw [hm, hm']
        have : ((m' + 1 : Nat) : ℚ) ≤ m := by exact_mod_cast h1
        calc (m' : ℚ) * 10 ^ (d'.dp - 768) + 10 ^ (d'.dp - 768) = ((m' + 1 : Nat) : ℚ) * 10 ^ (d'.dp - 768) := by push_cast; ring
          _ ≤ _ := mul_le_mul_of_nonneg_right this (le_of_lt hgp)
      have : d.val * 2 ^ s < h * 2 ^ s := lt_of_lt_of_le hlt h3
      exact mul_lt_mul_of_pos_right (c1 (lt_of_mul_lt_mul_right this (le_of_lt hp))) hp
    · intro hd
      have ht := hs.trunc
      by_cases he : d'.val = d.val * 2 ^ s
      · have hdh : d.val = h := mul_right_cancel₀ (ne_of_gt hp) (by rw [← he, hd])
        simp only [he, ne_eq, not_true_eq_false, decide_false, Bool.or_false] at ht
        rw [ht]
        have := c2 hdh
        split
        · rename_i h1; rw [if_pos h1] at this; exact mul_lt_mul_of_pos_right this hp
        · rename_i h1; rw [if_neg h1] at this; rw [this]
      · have htt : d'.truncated = true := by rw [ht]; simp [he]
        rw [if_pos htt]
        have h1 : h * 2 ^ s < d.val * 2 ^ s := by
          rw [← hd]; exact lt_of_le_of_ne hle he
        exact mul_lt_mul_of_pos_right (c3 (lt_of_mul_lt_mul_right h1 (le_of_lt hp))) hp
  · have hge := hs.ok.ge
    refine ⟨fun hd => ?_, fun hd => ?_, gt⟩
    · linarith
    · linarith

/-- The decimal compares as `x` does with all numbers which had few enough digits at
each step, `K` being the number of bits by which the scale has grown. -/
structure Track (d : Decimal) (x : ℚ) (K : Nat) : Prop where
  ok : d.Ok
  cmp : ∀ (a : Nat) (i : Int), Fine a i → Fine a (i - K) → Cmp d x (a * 2 ^ i)

theorem Track.right {d d' : Decimal} {x : ℚ} {K K' k : Nat} (t : Track d x K) (h : Shifted d d' (-(k : Int)))
    (hdp : d'.dp ≤ 768) (hK : K ≤ K' + k) : Track d' (x * 2 ^ (-(k : Int))) K' := by
  refine ⟨h.ok, fun a i h1 h3 => ?_⟩
  have e : (a : ℚ) * 2 ^ i = (a * 2 ^ (i + k)) * 2 ^ (-(k : Int)) := by
    rw [mul_assoc, ← zpow_add₀ h2]; congr 2; ring
  rw [e]
  refine (t.cmp a (i + k) (h1.mono (by omega)) (h3.mono (by omega))).shift h ?_
  rw [← e]
  exact h1.grid hdp

theorem Track.left {d d' : Decimal} {x : ℚ} {K k : Nat} (t : Track d x K) (h : Shifted d d' k)
    (hdp : d'.dp ≤ 768) : Track d' (x * 2 ^ k) (K + k) := by
  refine ⟨h.ok, fun a i h1 h3 => ?_⟩
  have e : (a : ℚ) * 2 ^ i = (a * 2 ^ (i - k)) * 2 ^ (k : Int) := by
    rw [mul_assoc, ← zpow_add₀ h2]; congr 2; ring
  rw [e, show (x : ℚ) * 2 ^ k = x * 2 ^ (k : Int) by rw [zpow_natCast]]
  refine (t.cmp a (i - k) (h3.mono (by omega)) (h3.mono (by push_cast; omega))).shift h ?_
  rw [← e]
  exact h1.grid hdp

/-- Nothing has been cut off, or less than one unit in the last of 768 places. -/
theorem Track.init {d : Decimal} {x : ℚ} (ok : d.Ok) (hdp : d.dp ≤ 768)
    (h0 : d.truncated = false → x = d.val)
    (h1 : d.truncated = true → d.val < x ∧ x < d.val + 10 ^ (d.dp - 768)) : Track d x 0 := by
  refine ⟨ok, fun a i hf _ => ?_⟩
  have hge := ok.ge
  cases ht : d.truncated with
  | false =>
    have hx := h0 ht
    refine ⟨fun h => by rw [hx]; exact h, fun h => by rw [ht, if_neg (by simp), hx, h], fun h => by rw [hx]; exact h⟩
  | true =>
    obtain ⟨hx1, hx2⟩ := h1 ht
    refine ⟨fun h => ?_, fun h => by rw [ht, if_pos rfl, ← h]; exact hx1, fun h => lt_trans h hx1⟩
    rcases hf.grid hdp with ⟨m, hm⟩ | hs
    · obtain ⟨m', hm', _⟩ := ok.grid
      have hgp : (0 : ℚ) < 10 ^ (d.dp - 768) := by positivity
      have h3 : m' < m := by
        rw [hm, hm'] at h
        exact_mod_cast lt_of_mul_lt_mul_right h (le_of_lt hgp)
      have h4 : ((m' + 1 : Nat) : ℚ) ≤ m := by exact_mod_cast h3
      rw [hm]
      calc x < d.val + 10 ^ (d.dp - 768) := hx2
        _ = ((m' + 1 : Nat) : ℚ) * 10 ^ (d.dp - 768) := by rw [hm']; push_cast; ring
        _ ≤ _ := mul_le_mul_of_nonneg_right h4 (le_of_lt hgp)
    · linarith

end Musli.Dec2Flt
