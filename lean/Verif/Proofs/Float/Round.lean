import Verif.Spec.Float
import Mathlib.Tactic.Ring
import Mathlib.Tactic.Linarith
import Mathlib.Tactic.Positivity
import Mathlib.Tactic.NormNum
import Mathlib.Tactic.FieldSimp
/-!
# Rounding to nearest

Facts on the specification of rounding: values are increasing, it is enough to look at
the two neighbours, the rounded result is unique, the numbers which round to a given
result form an interval, and a criterion in terms of integers which the algorithms are
reduced to.
-/
set_option linter.unusedSectionVars false
namespace Musli.Spec.Float.Format
variable (F : Format)

/-- A number of the format as a multiple of a power of two. -/
theorem value_at (j k : Nat) (h : j = 0 ∨ 2 ^ F.mant ≤ k) (hk : k ≤ 2 * 2 ^ F.mant) :
    F.value (j * 2 ^ F.mant + k) = k * (2 : ℚ) ^ (F.tiny + j) := by
  have hP : 0 < 2 ^ F.mant := Nat.two_pow_pos _
  have h2 : (2 : ℚ) ≠ 0 := by norm_num
  generalize hPd : 2 ^ F.mant = P at *
  by_cases h1 : k < P
  · rcases h with rfl | h
    · simp [value, hPd, Nat.div_eq_of_lt h1, Nat.mod_eq_of_lt h1, tiny]
    · omega
  by_cases h3 : k = 2 * P
  · subst h3
    have hd : (j * P + 2 * P) / P = j + 2 := by
      rw [← Nat.add_mul, Nat.mul_div_cancel _ hP]
    have hm : (j * P + 2 * P) % P = 0 := by
      rw [← Nat.add_mul]; exact Nat.mul_mod_left _ _
    simp only [value, hPd, hd, hm]
    rw [if_neg (by omega)]
    have : ((j + 2 : Nat) : Int) - F.bias - F.mant = F.tiny + j + 1 := by unfold tiny; push_cast; ring
    rw [this, zpow_add₀ h2]
    push_cast; ring
  · have hd : (j * P + k) / P = j + 1 := by
      apply Nat.div_eq_of_lt_le
      · rw [Nat.add_mul]; omega
      · rw [Nat.add_mul, Nat.add_mul]; omega
    have hm : (j * P + k) % P = k - P := by
      have : j * P + k = (k - P) + P * (j + 1) := by rw [Nat.mul_add, Nat.mul_comm P j]; omega
      rw [this, Nat.add_mul_mod_self_left, Nat.mod_eq_of_lt (by omega)]
    simp only [value, hPd, hd, hm]
    rw [if_neg (by omega)]
    have : ((j + 1 : Nat) : Int) - F.bias - F.mant = F.tiny + j := by unfold tiny; push_cast; ring
    rw [this, show P + (k - P) = k by omega]

/-- Every pattern is of that form. -/
theorem split (b : Nat) : ∃ j k, b = j * 2 ^ F.mant + k ∧ (j = 0 ∨ 2 ^ F.mant ≤ k) ∧
    k < 2 * 2 ^ F.mant := by
  have hP : 0 < 2 ^ F.mant := Nat.two_pow_pos _
  generalize 2 ^ F.mant = P at *
  by_cases h : b < 2 * P
  · exact ⟨0, b, by simp, Or.inl rfl, h⟩
  · refine ⟨b / P - 1, P + b % P, ?_, Or.inr (by omega), ?_⟩
    · have := Nat.div_add_mod b P
      have h1 : 1 ≤ b / P := (Nat.le_div_iff_mul_le hP).2 (by omega)
      obtain ⟨d, hd⟩ : ∃ d, b / P = d + 1 := ⟨b / P - 1, by omega⟩
      rw [hd, Nat.mul_add, Nat.mul_comm P d] at this
      rw [hd, Nat.add_sub_cancel]; omega
    · have := Nat.mod_lt b hP; omega

theorem value_lt_succ (b : Nat) : F.value b < F.value (b + 1) := by
  obtain ⟨j, k, rfl, h, hk⟩ := F.split b
  rw [F.value_at j k h (by omega), Nat.add_assoc, F.value_at j (k + 1) (by omega) (by omega)]
  have : (0 : ℚ) < (2 : ℚ) ^ (F.tiny + j) := by positivity
  push_cast
  nlinarith

theorem value_strictMono {a b : Nat} (h : a < b) : F.value a < F.value b := by
  induction b with
  | zero => omega
  | succ b ih =>
    rcases Nat.lt_succ_iff_lt_or_eq.1 h with h | rfl
    · exact lt_trans (ih h) (F.value_lt_succ b)
    · exact F.value_lt_succ a

theorem value_mono {a b : Nat} (h : a ≤ b) : F.value a ≤ F.value b := by
  rcases Nat.lt_or_eq_of_le h with h | rfl
  · exact le_of_lt (F.value_strictMono h)
  · exact le_refl _

theorem value_zero : F.value 0 = 0 := by simp [value]

theorem value_nonneg (b : Nat) : 0 ≤ F.value b := by
  rw [← F.value_zero]; exact F.value_mono (Nat.zero_le _)

/-- Comparing with the two neighbours is enough. -/
theorem nearest_iff (x : ℚ) (b : Nat) : F.Nearest x b ↔ b ≤ F.inf ∧
    (∀ a, b = a + 1 → F.value a + F.value b < 2 * x ∨
      (F.value a + F.value b = 2 * x ∧ b % 2 = 0)) ∧
    (b < F.inf → 2 * x < F.value b + F.value (b + 1) ∨
      (2 * x = F.value b + F.value (b + 1) ∧ b % 2 = 0)) := by
  constructor
  · rintro ⟨hb, h⟩
    refine ⟨hb, ?_, ?_⟩
    · rintro a rfl
      have hlt := F.value_lt_succ a
      rcases h a (by omega) (by omega) with h | ⟨h, he⟩
      · left
        by_contra hc
        rw [not_lt] at hc
        have := sq_lt_sq.2 h
        nlinarith
      · rcases (abs_eq_abs.1 h) with h | h
        · linarith
        · right; exact ⟨by linarith, he⟩
    · intro hi
      have hlt := F.value_lt_succ b
      rcases h (b + 1) (by omega) (by omega) with h | ⟨h, he⟩
      · left
        by_contra hc
        rw [not_lt] at hc
        have := sq_lt_sq.2 h
        nlinarith
      · rcases (abs_eq_abs.1 h) with h | h
        · linarith
        · right; exact ⟨by linarith, he⟩
  · rintro ⟨hb, hl, hu⟩
    refine ⟨hb, fun c hc hne => ?_⟩
    rcases Nat.lt_or_gt_of_ne hne with hcb | hcb
    · obtain ⟨a, rfl⟩ : ∃ a, b = a + 1 := ⟨b - 1, by omega⟩
      have hca : F.value c ≤ F.value a := F.value_mono (by omega)
      have hlt := F.value_lt_succ a
      rcases hl a rfl with h | ⟨h, he⟩
      · left; apply sq_lt_sq.1; nlinarith
      · rcases lt_or_eq_of_le hca with hca | hca
        · left; apply sq_lt_sq.1; nlinarith
        · right; exact ⟨by rw [abs_eq_abs]; right; linarith, he⟩
    · have hca : F.value (b + 1) ≤ F.value c := F.value_mono (by omega)
      have hlt := F.value_lt_succ b
      rcases hu (by omega) with h | ⟨h, he⟩
      · left; apply sq_lt_sq.1; nlinarith
      · rcases lt_or_eq_of_le hca with hca | hca
        · left; apply sq_lt_sq.1; nlinarith
        · right; exact ⟨by rw [abs_eq_abs]; right; linarith, he⟩

/-- There is only one correctly rounded result. -/
theorem nearest_unique {x : ℚ} {a b : Nat} (ha : F.Nearest x a) (hb : F.Nearest x b) : a = b := by
  by_contra hne
  have h1 := ha.2 b hb.1 (Ne.symm hne)
  have h2 := hb.2 a ha.1 hne
  have key : |x - F.value a| = |x - F.value b| ∧ a % 2 = 0 ∧ b % 2 = 0 := by
    rcases h1 with h1 | ⟨h1, e1⟩
    · rcases h2 with h2 | ⟨h2, _⟩
      · exact absurd (lt_trans h1 h2) (lt_irrefl _)
      · rw [h2] at h1; exact absurd h1 (lt_irrefl _)
    · rcases h2 with h2 | ⟨_, e2⟩
      · rw [h1] at h2; exact absurd h2 (lt_irrefl _)
      · exact ⟨h1, e1, e2⟩
  obtain ⟨he, ea, eb⟩ := key
  -- a pattern in between would be nearer than both
  have aux : ∀ {a b : Nat}, F.Nearest x a → b ≤ F.inf → |x - F.value a| = |x - F.value b| →
      a % 2 = 0 → b % 2 = 0 → ¬ a < b := by
    intro a b ha hbi he ea eb hlt
    have h1 := F.value_lt_succ a
    have h2 : F.value (a + 1) < F.value b := F.value_strictMono (by omega)
    have h3 := ((F.nearest_iff x a).1 ha).2.2 (by omega)
    rcases abs_eq_abs.1 he with h | h <;> rcases h3 with h3 | ⟨h3, _⟩ <;> linarith
  rcases Nat.lt_or_gt_of_ne hne with h | h
  · exact aux ha hb.1 he ea eb h
  · exact aux hb ha.1 he.symm eb ea h

/-- The numbers with the same rounded result form an interval. -/
theorem nearest_between {x y z : ℚ} {b : Nat} (hx : F.Nearest x b) (hz : F.Nearest z b)
    (h1 : x ≤ y) (h2 : y ≤ z) : F.Nearest y b := by
  rw [nearest_iff] at *
  refine ⟨hx.1, fun a ha => ?_, fun hb => ?_⟩
  · rcases hx.2.1 a ha with h | ⟨h, he⟩
    · left; linarith
    · rcases lt_or_eq_of_le h1 with h1 | rfl
      · left; linarith
      · right; exact ⟨h, he⟩
  · rcases hz.2.2 hb with h | ⟨h, he⟩
    · left; linarith
    · rcases lt_or_eq_of_le h2 with h2 | rfl
      · left; linarith
      · right; exact ⟨h, he⟩

/-- Less than half of the smallest positive number rounds to zero. -/
theorem nearest_zero {x : ℚ} (h : 2 * x < F.value 1) : F.Nearest x 0 := by
  rw [nearest_iff]
  exact ⟨Nat.zero_le _, fun a ha => by omega, fun _ => Or.inl (by rw [F.value_zero]; linarith)⟩

/-- Numbers beyond the largest finite number and its spacing round to infinity. -/
theorem nearest_inf {x : ℚ} (h : F.value F.inf ≤ x) : F.Nearest x F.inf := by
  rw [nearest_iff]
  refine ⟨Nat.le_refl _, fun a ha => Or.inl ?_, fun h => by omega⟩
  have : F.value a < F.value F.inf := F.value_strictMono (by omega)
  linarith

end Musli.Spec.Float.Format

namespace Musli.Spec.Float

/-- `k` is the integer nearest to `X`, ties to even. -/
def RoundsTo (X : ℚ) (k : Nat) : Prop :=
  (2 * (k : ℚ) - 1 < 2 * X ∨ (2 * (k : ℚ) - 1 = 2 * X ∧ k % 2 = 0)) ∧
  (2 * X < 2 * (k : ℚ) + 1 ∨ (2 * X = 2 * (k : ℚ) + 1 ∧ k % 2 = 0))

/-- The criterion the algorithms are reduced to: scale the number by a power of two
such that the significand is an integer part, and round that to an integer. -/
theorem Format.nearest_of_scaled (F : Format) (hm : 1 ≤ F.mant) {x X : ℚ} {j k : Nat}
    (hx : x = X * (2 : ℚ) ^ (F.tiny + j))
    (hlo : j = 0 ∨ ((2 ^ F.mant : Nat) : ℚ) ≤ X) (hhi : X < 2 * ((2 ^ F.mant : Nat) : ℚ))
    (hk : RoundsTo X k) : F.Nearest x (min (j * 2 ^ F.mant + k) F.inf) := by
  have hpe : 2 ^ F.mant % 2 = 0 := by
    obtain ⟨m, hm⟩ : ∃ m, F.mant = m + 1 := ⟨F.mant - 1, by omega⟩
    rw [hm, Nat.pow_succ]; omega
  have hie : F.inf % 2 = 0 := by unfold Format.inf; rw [Nat.mul_mod, hpe]; simp
  have hPpos : 0 < 2 ^ F.mant := Nat.two_pow_pos _
  have hpow : (0 : ℚ) < (2 : ℚ) ^ (F.tiny + j) := by positivity
  obtain ⟨hk1, hk2⟩ := hk
  have hval : ∀ k, (j = 0 ∨ 2 ^ F.mant ≤ k) → k ≤ 2 * 2 ^ F.mant →
    F.value (j * 2 ^ F.mant + k) = k * (2 : ℚ) ^ (F.tiny + j) := fun k => F.value_at j k
  generalize 2 ^ F.mant = P at *
  generalize (2 : ℚ) ^ (F.tiny + j) = t at *
  subst hx
  -- the significand is in range
  have hklo : j = 0 ∨ P ≤ k := by
    rcases hlo with h | h
    · exact Or.inl h
    · right
      have : (P : ℚ) < k + 1 := by rcases hk2 with h2 | ⟨h2, _⟩ <;> linarith
      have : P < k + 1 := by exact_mod_cast this
      omega
  have hkhi : k ≤ 2 * P := by
    have : (k : ℚ) < 2 * P + 1 := by rcases hk1 with h2 | ⟨h2, _⟩ <;> linarith
    have : k < 2 * P + 1 := by exact_mod_cast this
    omega
  have hpar : (j * P + k) % 2 = k % 2 := by
    rw [Nat.add_mod, Nat.mul_mod, hpe]; simp
  have hb : F.value (j * P + k) = k * t := hval k hklo hkhi
  -- the lower neighbour
  have hlow : ∀ a, j * P + k = a + 1 → F.value a + F.value (j * P + k) < 2 * (X * t) ∨
      (F.value a + F.value (j * P + k) = 2 * (X * t) ∧ (j * P + k) % 2 = 0) := by
    intro a ha
    by_cases hc : j = 0 ∨ P < k
    · obtain ⟨k', rfl⟩ : ∃ k', k = k' + 1 := by
        rcases hc with rfl | hc
        · exact ⟨k - 1, by omega⟩
        · exact ⟨k - 1, by omega⟩
      have : a = j * P + k' := by omega
      subst this
      rw [hb, hval k' (by omega) (by omega), hpar]
      push_cast at *
      rcases hk1 with h | ⟨h, he⟩
      · left; nlinarith
      · right; exact ⟨by nlinarith, he⟩
    · -- the significand is a power of two: the spacing below is smaller
      left
      have : k = P := by omega
      subst this
      have h1 : F.value a < F.value (j * k + k) := F.value_strictMono (by omega)
      rw [hb] at h1 ⊢
      rcases hlo with h | h
      · exact absurd (Or.inl h) hc
      · nlinarith
  by_cases hle : j * P + k ≤ F.inf
  · rw [Nat.min_eq_left hle, Format.nearest_iff]
    refine ⟨hle, hlow, fun _ => ?_⟩
    by_cases hc : k < 2 * P
    · rw [hb, Nat.add_assoc, hval (k + 1) (by omega) (by omega), hpar]
      push_cast
      rcases hk2 with h | ⟨h, he⟩
      · left; nlinarith
      · right; exact ⟨by nlinarith, he⟩
    · left
      have h1 := F.value_lt_succ (j * P + k)
      have : k = 2 * P := by omega
      subst this
      rw [hb] at h1 ⊢
      push_cast at *
      nlinarith
  · rw [Nat.min_eq_right (by omega), Format.nearest_iff]
    refine ⟨Nat.le_refl _, fun a ha => Or.inl ?_, fun h => by omega⟩
    obtain ⟨b, hbb⟩ : ∃ b, j * P + k = b + 1 := ⟨j * P + k - 1, by omega⟩
    have h1 : F.value a < F.value b := F.value_strictMono (by omega)
    have h2 : F.value F.inf < F.value (j * P + k) := F.value_strictMono (by omega)
    rcases hlow b hbb with h | ⟨h, _⟩ <;> linarith

end Musli.Spec.Float
