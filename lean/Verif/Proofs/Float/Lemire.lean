import Verif.Proofs.Float.Table
import Verif.Proofs.Float.Round
import Mathlib.Data.Nat.ModEq
import Mathlib.Data.Nat.Prime.Basic
/-!
# The algorithm of Eisel and Lemire is correct

If it returns a result, the result is correctly rounded.
-/
set_option linter.unusedSectionVars false
namespace Musli.Dec2Flt
open Musli.Spec.Float

theorem mask_eq (p : Nat) (hp : p ≤ 64) : 0xFFFFFFFFFFFFFFFF >>> p = 2 ^ (64 - p) - 1 := by
  rw [Nat.shiftRight_eq_div_pow]
  have : (0xFFFFFFFFFFFFFFFF : Nat) = (2 ^ p * 2 ^ (64 - p)) - 1 := by
    rw [← Nat.pow_add, show p + (64 - p) = 64 by omega]
  rw [this]
  have h1 := Nat.two_pow_pos p
  have h2 := Nat.two_pow_pos (64 - p)
  generalize 2 ^ p = x at *
  generalize 2 ^ (64 - p) = y at *
  apply Nat.div_eq_of_lt_le
  · rw [Nat.sub_mul, Nat.mul_comm]; omega
  · rw [show y - 1 + 1 = y by omega, Nat.mul_comm]; have := Nat.mul_pos h1 h2; rw [Nat.mul_comm y x]; omega

/-- The product is the upper part of the exact product with the entry, or the product
with the upper half of the entry alone, if that suffices. -/
theorem product_spec {q : Int} {w p a b : Nat} (hw : w < 2 ^ 64) (hp : p < 64)
    (he : powerOfFive128[(q - smallestPowerOfFive).toNat]? = some (a, b))
    (ha : a < 2 ^ 64) (hb : b < 2 ^ 64) :
    ∃ lo hi, computeProductApprox q w p = some (lo, hi) ∧ lo < 2 ^ 64 ∧ hi < 2 ^ 64 ∧
      (hi * 2 ^ 64 + lo = w * (a * 2 ^ 64 + b) / 2 ^ 64 ∨
        (hi * 2 ^ 64 + lo = w * a ∧ hi % 2 ^ (64 - p) ≠ 2 ^ (64 - p) - 1)) := by
  unfold computeProductApprox
  rw [if_pos hp, mask_eq p (by omega)]
  dsimp only
  rw [he]
  simp only [Option.bind_eq_bind, Option.bind_some, fullMultiplication, Nat.and_two_pow_sub_one_eq_mod]
  have h1 : w * a < 2 ^ 64 * 2 ^ 64 := Nat.mul_lt_mul'' hw ha
  have h2 : w * b < 2 ^ 64 * 2 ^ 64 := Nat.mul_lt_mul'' hw hb
  have h3 : w * (a * 2 ^ 64 + b) / 2 ^ 64 = w * a + w * b / 2 ^ 64 := by
    rw [Nat.mul_add, ← Nat.mul_assoc, Nat.add_comm, Nat.add_mul_div_right _ _ (by norm_num), Nat.add_comm]
  have h4 : w * a + w * b / 2 ^ 64 < 2 ^ 64 * 2 ^ 64 := by
    rw [← h3]
    apply Nat.div_lt_of_lt_mul
    have : a * 2 ^ 64 + b < 2 ^ 64 * 2 ^ 64 := by omega
    calc _ < 2 ^ 64 * (2 ^ 64 * 2 ^ 64) := Nat.mul_lt_mul'' hw this
      _ = _ := by norm_num
  rw [h3]
  clear h3
  generalize w * a = A at *
  generalize w * b = B at *
  split
  · split
    · have : A / 2 ^ 64 + 1 < 2 ^ 64 := by omega
      rw [show u64 (A / 2 ^ 64 + 1) = some (A / 2 ^ 64 + 1) from if_pos this]
      exact ⟨_, _, rfl, by omega, by omega, Or.inl (by omega)⟩
    · exact ⟨_, _, rfl, by omega, by omega, Or.inl (by omega)⟩
  · exact ⟨_, _, rfl, by omega, by omega, Or.inr ⟨by omega, by assumption⟩⟩

/-- The exact product, scaled to 128 bits: the upper half of it is what the algorithm
approximates. -/
def exactProduct (q : Int) (w : Nat) : ℚ := w * scaled q / 2 ^ 64

/-- For negative exponents the exact product times the power of five is a multiple of
`2 ^ 64`. -/
theorem exactProduct_neg {q : Int} {w : Nat} (hq : q < 0) (he : e5 q ≤ -1) :
    ∃ n : Nat, exactProduct q w * ((5 ^ (-q).toNat : Nat) : ℚ) = (n : ℚ) * 2 ^ 64 ∧
      n = w * 2 ^ (-1 - e5 q).toNat := by
  refine ⟨_, ?_, rfl⟩
  have h5 : (5 : ℚ) ^ q * ((5 ^ (-q).toNat : Nat) : ℚ) = 1 := by
    have : ((5 ^ (-q).toNat : Nat) : ℚ) = (5 : ℚ) ^ (-q) := by
      conv_rhs => rw [← Int.toNat_of_nonneg (show 0 ≤ -q by omega)]
      rw [zpow_natCast]; push_cast; rfl
    rw [this, ← zpow_add₀ (by norm_num)]
    simp
  have h2 : (2 : ℚ) ^ (127 - e5 q) = ((2 ^ (-1 - e5 q).toNat : Nat) : ℚ) * 2 ^ 128 := by
    have : ((2 ^ (-1 - e5 q).toNat : Nat) : ℚ) = (2 : ℚ) ^ (-1 - e5 q) := by
      conv_rhs => rw [← Int.toNat_of_nonneg (show 0 ≤ -1 - e5 q by omega)]
      rw [zpow_natCast]; push_cast; rfl
    rw [this, show (127 - e5 q) = (-1 - e5 q) + (128 : Nat) by push_cast; ring, zpow_add₀ (by norm_num), zpow_natCast]
  unfold exactProduct scaled
  rw [h2]
  calc _ = w * ((5 : ℚ) ^ q * ((5 ^ (-q).toNat : Nat) : ℚ)) * ((2 ^ (-1 - e5 q).toNat : Nat) : ℚ) * 2 ^ 128 / 2 ^ 64 := by ring
    _ = _ := by rw [h5]; push_cast; ring

section
variable {q : Int} {w a b lo hi s : Nat}

/-- The upper bits of the approximation are those of the exact product. -/
theorem upper_bits (sp : EntrySpec q a b) (hw : w < 2 ^ 64) (hlo : lo < 2 ^ 64)
    (hz : hi * 2 ^ 64 + lo = w * (a * 2 ^ 64 + b) / 2 ^ 64 ∨
      (hi * 2 ^ 64 + lo = w * a ∧ hi % 2 ^ s ≠ 2 ^ s - 1))
    (hok : ¬ (lo = 2 ^ 64 - 1 ∧ ¬ (q ≥ -27 ∧ q ≤ 55))) :
    ((hi / 2 ^ s : Nat) : ℚ) * 2 ^ s * 2 ^ 64 ≤ exactProduct q w ∧
    exactProduct q w < ((hi / 2 ^ s : Nat) + 1 : ℚ) * 2 ^ s * 2 ^ 64 := by
  have hwq : (w : ℚ) < 2 ^ 64 := by exact_mod_cast hw
  have hw0 : (0 : ℚ) ≤ w := by positivity
  have hdm := Nat.div_add_mod hi (2 ^ s)
  have hml := Nat.mod_lt hi (Nat.two_pow_pos s)
  have hdmq : (2 : ℚ) ^ s * ((hi / 2 ^ s : Nat) : ℚ) + ((hi % 2 ^ s : Nat) : ℚ) = hi := by exact_mod_cast hdm
  have hmlq : ((hi % 2 ^ s : Nat) : ℚ) + 1 ≤ 2 ^ s := by exact_mod_cast hml
  have hm0 : (0 : ℚ) ≤ ((hi % 2 ^ s : Nat) : ℚ) := by positivity
  have hloq : (lo : ℚ) + 1 ≤ 2 ^ 64 := by exact_mod_cast hlo
  have hlo0 : (0 : ℚ) ≤ lo := by positivity
  have hEp : exactProduct q w * 2 ^ 64 = w * scaled q := by unfold exactProduct; ring
  rcases hz with hz | ⟨hz, hne⟩
  · -- both products
    have hz1 : ((hi : ℚ) * 2 ^ 64 + lo) * 2 ^ 64 ≤ w * (a * 2 ^ 64 + b) := by
      have : (hi * 2 ^ 64 + lo) * 2 ^ 64 ≤ w * (a * 2 ^ 64 + b) := by
        rw [hz]; exact Nat.div_mul_le_self _ _
      exact_mod_cast this
    have hz2 : (w : ℚ) * (a * 2 ^ 64 + b) < ((hi : ℚ) * 2 ^ 64 + lo + 1) * 2 ^ 64 := by
      have : w * (a * 2 ^ 64 + b) < (hi * 2 ^ 64 + lo + 1) * 2 ^ 64 := by
        rw [hz]; have := Nat.lt_div_mul_add (a := w * (a * 2 ^ 64 + b)) (b := 2 ^ 64) (by norm_num); omega
      exact_mod_cast this
    by_cases hex : 0 ≤ q ∧ q ≤ 55
    · have hs := sp.exact hex.1 hex.2
      rw [← hs, ← hEp] at hz1 hz2
      constructor <;> nlinarith
    by_cases hc : -27 ≤ q ∧ q < 0
    · obtain ⟨c1, c2, c3⟩ := sp.ceil hc.1 hc.2
      have u1 : (w : ℚ) * scaled q ≤ w * (a * 2 ^ 64 + b) := mul_le_mul_of_nonneg_left c2 hw0
      have u2 : (w : ℚ) * (a * 2 ^ 64 + b - 1) ≤ w * scaled q := mul_le_mul_of_nonneg_left (le_of_lt c1) hw0
      rw [← hEp] at u1 u2
      refine ⟨?_, by nlinarith⟩
      by_contra hlt
      rw [not_le] at hlt
      -- the product is less than one below a multiple of `2 ^ 64`
      have hgap : ((hi / 2 ^ s : Nat) : ℚ) * 2 ^ s * 2 ^ 64 - 1 < exactProduct q w := by nlinarith
      obtain ⟨n, hn, _⟩ := exactProduct_neg (w := w) hc.2 (sp.neg hc.2)
      have h5 : 5 ^ (-q).toNat < 2 ^ 64 := by
        calc 5 ^ (-q).toNat ≤ 5 ^ 27 := Nat.pow_le_pow_right (by norm_num) (by omega)
          _ < 2 ^ 64 := by norm_num
      have h5q : ((5 ^ (-q).toNat : Nat) : ℚ) < 2 ^ 64 := by exact_mod_cast h5
      have h5p : (0 : ℚ) < ((5 ^ (-q).toNat : Nat) : ℚ) := by positivity
      have e1 := mul_lt_mul_of_pos_right hlt h5p
      have e2 := mul_lt_mul_of_pos_right hgap h5p
      rw [hn] at e1 e2
      generalize hU : hi / 2 ^ s = U at *
      generalize 5 ^ (-q).toNat = K at *
      have f1 : (n : ℚ) < (U * 2 ^ s * K : Nat) := by push_cast; nlinarith
      have f2 : ((U * 2 ^ s * K : Nat) : ℚ) < n + 1 := by push_cast; nlinarith
      have f1 : n < U * 2 ^ s * K := by exact_mod_cast f1
      have f2 : U * 2 ^ s * K < n + 1 := by exact_mod_cast f2
      omega
    · have hfl : ¬ (-27 ≤ q ∧ q ≤ 55) := by omega
      obtain ⟨c1, c2⟩ := sp.floor hfl
      have u1 : (w : ℚ) * (a * 2 ^ 64 + b) ≤ w * scaled q := mul_le_mul_of_nonneg_left c1 hw0
      have u2 : (w : ℚ) * scaled q ≤ w * (a * 2 ^ 64 + b + 1) := mul_le_mul_of_nonneg_left (le_of_lt c2) hw0
      rw [← hEp] at u1 u2
      have hl : lo + 2 ≤ 2 ^ 64 := by
        have : lo ≠ 2 ^ 64 - 1 := fun h => hok ⟨h, by omega⟩
        omega
      have hlq : (lo : ℚ) + 2 ≤ 2 ^ 64 := by exact_mod_cast hl
      constructor <;> nlinarith
  · -- one product
    have hzq : (hi : ℚ) * 2 ^ 64 + lo = w * a := by exact_mod_cast hz
    have hm2 : ((hi % 2 ^ s : Nat) : ℚ) + 2 ≤ 2 ^ s := by
      have : hi % 2 ^ s + 2 ≤ 2 ^ s := by omega
      exact_mod_cast this
    have hbq : (b : ℚ) + 1 ≤ 2 ^ 64 := by exact_mod_cast sp.hb
    have hb0 : (0 : ℚ) ≤ b := by positivity
    have c : (a : ℚ) * 2 ^ 64 ≤ scaled q ∧ scaled q ≤ (a : ℚ) * 2 ^ 64 + 2 ^ 64 := by
      by_cases hex : 0 ≤ q ∧ q ≤ 55
      · have hs := sp.exact hex.1 hex.2; rw [hs]; constructor <;> linarith
      by_cases hc : -27 ≤ q ∧ q < 0
      · obtain ⟨c1, c2, c3⟩ := sp.ceil hc.1 hc.2
        have : (1 : ℚ) ≤ b := by exact_mod_cast c3
        constructor <;> linarith
      · obtain ⟨c1, c2⟩ := sp.floor (by omega)
        constructor <;> linarith
    have u1 : (w : ℚ) * (a * 2 ^ 64) ≤ w * scaled q := mul_le_mul_of_nonneg_left c.1 hw0
    have u2 : (w : ℚ) * scaled q ≤ w * (a * 2 ^ 64 + 2 ^ 64) := mul_le_mul_of_nonneg_left c.2 hw0
    rw [← hEp] at u1 u2
    constructor <;> nlinarith

/-- What the tie rule needs of the range of exponents in which there are ties. -/
structure TieRange (mant s : Nat) (minR maxR : Int) : Prop where
  bits : s + mant = 61
  three : 3 ≤ s
  min0 : minR ≤ 0
  min17 : -17 ≤ minR
  max0 : 0 ≤ maxR
  max26 : maxR ≤ 26
  pow_max : 2 ^ (mant + 2) ≤ 5 ^ (maxR + 1).toNat
  pow_min : 2 ^ (63 - mant) ≤ 5 ^ (-minR + 1).toNat
  inverse : ∀ q, minR ≤ q → q < 0 → ∃ inv, inverseOk s q inv = true

theorem not_dvd_of_mod8 (hw : w < 2 ^ 64) (hw0 : 0 < w) (ha : a % 8 ≠ 0) (hs : 3 ≤ s) :
    ¬ 2 ^ (64 + s) ∣ w * a := by
  intro h
  have h67 : 2 ^ 67 ∣ w * a := Nat.dvd_trans (Nat.pow_dvd_pow 2 (by omega)) h
  have key : ∀ v c, 2 ^ 67 ∣ w * (2 ^ v * c) → c % 2 = 1 → v ≤ 2 → False := by
    intro v c h hc hv
    have hcop : Nat.Coprime (2 ^ (67 - v)) c := by
      apply Nat.Coprime.pow_left
      exact (Nat.coprime_two_left).2 (Nat.odd_iff.2 hc)
    have h' : 2 ^ (67 - v) ∣ w * c := by
      have : 2 ^ v * 2 ^ (67 - v) ∣ 2 ^ v * (w * c) := by
        rw [← Nat.pow_add, show v + (67 - v) = 67 by omega]
        rw [show 2 ^ v * (w * c) = w * (2 ^ v * c) by ring]
        exact h
      exact Nat.dvd_of_mul_dvd_mul_left (Nat.two_pow_pos v) this
    have := Nat.le_of_dvd hw0 (hcop.dvd_of_dvd_mul_right h')
    have h64 : 2 ^ 65 ≤ 2 ^ (67 - v) := Nat.pow_le_pow_right (by norm_num) (by omega)
    omega
  by_cases h1 : a % 2 = 1
  · exact key 0 a (by simpa using h67) h1 (by omega)
  by_cases h2 : a % 4 = 2
  · exact key 1 (a / 2) (by rw [show 2 ^ 1 * (a / 2) = a by omega]; exact h67) (by omega) (by omega)
  · exact key 2 (a / 4) (by rw [show 2 ^ 2 * (a / 4) = a by omega]; exact h67) (by omega) (by omega)

/-- The test for a tie is exact. -/
theorem tie_iff {mant t M : Nat} {minR maxR : Int} (tr : TieRange mant s minR maxR)
    (sp : EntrySpec q a b)
    (he : powerOfFive128[(q - smallestPowerOfFive).toNat]? = some (a, b))
    (hw : w < 2 ^ 64) (hw0 : 0 < w) (hlo : lo < 2 ^ 64)
    (hz : hi * 2 ^ 64 + lo = w * (a * 2 ^ 64 + b) / 2 ^ 64 ∨
      (hi * 2 ^ 64 + lo = w * a ∧ hi % 2 ^ s ≠ 2 ^ s - 1))
    (ht : s ≤ t) (hM : M % 2 = 1) (hM1 : 2 ^ (mant + 1) ≤ M) (hM2 : M < 2 ^ (mant + 2)) :
    (lo ≤ 1 ∧ q ≥ minR ∧ q ≤ maxR ∧ M * 2 ^ t = hi) ↔
      exactProduct q w = (M : ℚ) * 2 ^ t * 2 ^ 64 := by
  have hwq : (w : ℚ) < 2 ^ 64 := by exact_mod_cast hw
  have hw0q : (0 : ℚ) < w := by exact_mod_cast hw0
  have hEp : exactProduct q w * 2 ^ 64 = w * scaled q := by unfold exactProduct; ring
  have hdiv1 : w * (a * 2 ^ 64 + b) / 2 ^ 64 * 2 ^ 64 ≤ w * (a * 2 ^ 64 + b) := Nat.div_mul_le_self _ _
  have hdiv2 : w * (a * 2 ^ 64 + b) < (w * (a * 2 ^ 64 + b) / 2 ^ 64 + 1) * 2 ^ 64 := by
    have := Nat.lt_div_mul_add (a := w * (a * 2 ^ 64 + b)) (b := 2 ^ 64) (by norm_num); omega
  -- exponents from 0 to 26: the product is exact
  have hexact : 0 ≤ q → q ≤ 26 → hi * 2 ^ 64 + lo = w * a ∧ a % 2 = 0 ∧ exactProduct q w = w * a := by
    intro h0 h26
    obtain ⟨ha2, hb0⟩ := sp.small h0 h26
    have hs := sp.exact h0 (by omega)
    subst hb0
    refine ⟨?_, ha2, ?_⟩
    · rcases hz with hz | hz
      · rw [hz, Nat.add_zero, ← Nat.mul_assoc, Nat.mul_div_cancel _ (by norm_num)]
      · exact hz.1
    · unfold exactProduct; rw [hs]; push_cast; ring
  -- a multiple of `2 ^ s` ends in zeros
  have hlow : (M * 2 ^ t) % 2 ^ s = 0 := by
    obtain ⟨u, rfl⟩ : ∃ u, t = s + u := ⟨t - s, by omega⟩
    rw [Nat.pow_add, show M * (2 ^ s * 2 ^ u) = 2 ^ s * (M * 2 ^ u) by ring, Nat.mul_mod_right]
  have hMpos : 0 < M * 2 ^ t := Nat.mul_pos (by omega) (Nat.two_pow_pos t)
  constructor
  · rintro ⟨hl1, hq1, hq2, hhi⟩
    by_cases h0 : 0 ≤ q
    · obtain ⟨e1, e2, e3⟩ := hexact h0 (by have := tr.max26; omega)
      have : lo = 0 := by
        have : (w * a) % 2 = 0 := by rw [Nat.mul_mod, e2]; simp
        omega
      rw [e3]
      have : w * a = M * 2 ^ t * 2 ^ 64 := by rw [hhi]; omega
      exact_mod_cast this
    · have hneg : q < 0 := by omega
      have hm17 := tr.min17
      rcases hz with hz | ⟨hz, hne⟩
      · obtain ⟨c1, c2, c3⟩ := sp.ceil (by omega) hneg
        obtain ⟨n, hn, _⟩ := exactProduct_neg (w := w) hneg (sp.neg hneg)
        have h5 : 5 ^ (-q).toNat * 2 < 2 ^ 64 := by
          calc 5 ^ (-q).toNat * 2 ≤ 5 ^ 17 * 2 := Nat.mul_le_mul_right _ (Nat.pow_le_pow_right (by norm_num) (by omega))
            _ < 2 ^ 64 := by norm_num
        have h5p : (0 : ℚ) < ((5 ^ (-q).toNat : Nat) : ℚ) := by positivity
        rw [← hz] at hdiv1 hdiv2
        have d1 : ((hi : ℚ) * 2 ^ 64 + lo) * 2 ^ 64 ≤ w * (a * 2 ^ 64 + b) := by exact_mod_cast hdiv1
        have d2 : (w : ℚ) * (a * 2 ^ 64 + b) < ((hi : ℚ) * 2 ^ 64 + lo + 1) * 2 ^ 64 := by exact_mod_cast hdiv2
        have u1 : (w : ℚ) * scaled q ≤ w * (a * 2 ^ 64 + b) := mul_le_mul_of_nonneg_left c2 (le_of_lt hw0q)
        have u2 : (w : ℚ) * (a * 2 ^ 64 + b - 1) ≤ w * scaled q := mul_le_mul_of_nonneg_left (le_of_lt c1) (le_of_lt hw0q)
        rw [← hEp] at u1 u2
        have hl1q : (lo : ℚ) ≤ 1 := by exact_mod_cast hl1
        have hl0q : (0 : ℚ) ≤ lo := by positivity
        have b1 : exactProduct q w < (hi : ℚ) * 2 ^ 64 + 2 := by nlinarith
        have b2 : (hi : ℚ) * 2 ^ 64 - 1 < exactProduct q w := by nlinarith
        have b1' := mul_lt_mul_of_pos_right b1 h5p
        have b2' := mul_lt_mul_of_pos_right b2 h5p
        rw [hn] at b1' b2'
        have h5q : ((5 ^ (-q).toNat : Nat) : ℚ) * 2 < 2 ^ 64 := by exact_mod_cast h5
        have hnn : n = hi * 5 ^ (-q).toNat := by
          generalize 5 ^ (-q).toNat = K at *
          have f1 : (n : ℚ) < (hi * K + 1 : Nat) := by push_cast; nlinarith
          have f2 : ((hi * K : Nat) : ℚ) < n + 1 := by push_cast; nlinarith
          have f1 : n < hi * K + 1 := by exact_mod_cast f1
          have f2 : hi * K < n + 1 := by exact_mod_cast f2
          omega
        have : exactProduct q w = (hi : ℚ) * 2 ^ 64 := by
          have : exactProduct q w * ((5 ^ (-q).toNat : Nat) : ℚ) = ((hi : ℚ) * 2 ^ 64) * ((5 ^ (-q).toNat : Nat) : ℚ) := by
            rw [hn, hnn]; push_cast; ring
          exact mul_right_cancel₀ (ne_of_gt h5p) this
        rw [this, ← hhi]; push_cast; ring
      · -- one product: a tie cannot be reported
        exfalso
        have hodd := sp.odd (by omega) hneg
        obtain ⟨inv, hinv⟩ := tr.inverse q (by omega) hneg
        unfold inverseOk at hinv
        rw [he] at hinv
        simp only [Bool.or_eq_true, Bool.and_eq_true, beq_iff_eq, decide_eq_true_eq] at hinv
        obtain ⟨u, hu⟩ : ∃ u, hi = 2 ^ s * u := ⟨hi / 2 ^ s, by
          have := Nat.div_add_mod hi (2 ^ s); rw [← hhi] at this ⊢; rw [hlow] at this; omega⟩
        have hwa : w * a = 2 ^ (64 + s) * u + lo := by
          rw [← hz, hu, Nat.pow_add]; ring
        rcases Nat.lt_or_ge lo 1 with hl | hl
        · have : lo = 0 := by omega
          subst this
          exact not_dvd_of_mod8 hw hw0 hodd tr.three ⟨u, by rw [hwa]; omega⟩
        · have : lo = 1 := by omega
          subst this
          have hwa1 : (w * a) % 2 = 1 := by
            rw [hwa, show 64 + s = 1 + (63 + s) by omega, Nat.pow_add]
            rw [Nat.mul_assoc]; omega
          have haodd : a % 2 = 1 := by
            by_contra h
            have : a % 2 = 0 := by omega
            rw [Nat.mul_mod, this] at hwa1
            simp at hwa1
          rcases hinv with h | ⟨⟨h1, h2⟩, h3⟩
          · omega
          · -- `w` is the inverse
            have hw1 : (a * w) % 2 ^ (64 + s) = 1 := by
              rw [Nat.mul_comm, hwa, Nat.mul_add_mod]
              apply Nat.mod_eq_of_lt
              have : 2 ^ 1 ≤ 2 ^ (64 + s) := Nat.pow_le_pow_right (by norm_num) (by omega)
              omega
            have hc : Nat.Coprime (2 ^ (64 + s)) a := by
              apply Nat.Coprime.pow_left
              exact (Nat.coprime_two_left).2 (Nat.odd_iff.2 haodd)
            have hmod : a * w ≡ a * inv [MOD 2 ^ (64 + s)] := by
              unfold Nat.ModEq; rw [hw1, h1]
            have := Nat.ModEq.cancel_left_of_coprime hc hmod
            unfold Nat.ModEq at this
            rw [Nat.mod_eq_of_lt h3, Nat.mod_eq_of_lt (by
              have : 2 ^ 64 ≤ 2 ^ (64 + s) := Nat.pow_le_pow_right (by norm_num) (by omega)
              omega)] at this
            omega
  · intro hex
    by_cases h0 : 0 ≤ q
    · -- five to the power of `q` divides the significand
      have hdvd : 5 ^ q.toNat ∣ M := by
        have h5 : (5 : ℚ) ^ q = ((5 ^ q.toNat : Nat) : ℚ) := by
          conv_lhs => rw [← Int.toNat_of_nonneg h0]
          rw [zpow_natCast]; push_cast; rfl
        have h2 : (2 : ℚ) ^ (127 - e5 q) * ((2 ^ (e5 q).toNat : Nat) : ℚ) = 2 ^ 127 := by
          have : ((2 ^ (e5 q).toNat : Nat) : ℚ) = (2 : ℚ) ^ (e5 q) := by
            conv_rhs => rw [← Int.toNat_of_nonneg (sp.pos h0)]
            rw [zpow_natCast]; push_cast; rfl
          rw [this, ← zpow_add₀ (by norm_num), show 127 - e5 q + e5 q = ((127 : Nat) : Int) by push_cast; ring, zpow_natCast]
        have key : ((w * 5 ^ q.toNat * 2 ^ 127 : Nat) : ℚ) = ((M * 2 ^ (t + 128 + (e5 q).toNat) : Nat) : ℚ) := by
          unfold exactProduct scaled at hex
          rw [h5] at hex
          have hex' : (w : ℚ) * (((5 ^ q.toNat : Nat) : ℚ) * 2 ^ (127 - e5 q)) = M * 2 ^ t * 2 ^ 64 * 2 ^ 64 := by
            rw [← hex]; ring
          push_cast [Nat.pow_add] at *
          calc (w : ℚ) * 5 ^ q.toNat * 2 ^ 127 = w * 5 ^ q.toNat * ((2 : ℚ) ^ (127 - e5 q) * 2 ^ (e5 q).toNat) := by rw [h2]
            _ = (w * (5 ^ q.toNat * (2 : ℚ) ^ (127 - e5 q))) * 2 ^ (e5 q).toNat := by ring
            _ = _ := by rw [hex']; ring
        have key : w * 5 ^ q.toNat * 2 ^ 127 = M * 2 ^ (t + 128 + (e5 q).toNat) := by exact_mod_cast key
        have hd : 5 ^ q.toNat ∣ M * 2 ^ (t + 128 + (e5 q).toNat) := by
          rw [← key]; exact ⟨w * 2 ^ 127, by ring⟩
        have hc : Nat.Coprime (5 ^ q.toNat) (2 ^ (t + 128 + (e5 q).toNat)) :=
          Nat.Coprime.pow _ _ (by decide)
        exact hc.dvd_of_dvd_mul_right hd
      have hle : 5 ^ q.toNat ≤ M := Nat.le_of_dvd (by omega) hdvd
      have hq : q ≤ maxR := by
        by_contra h
        have : 5 ^ (maxR + 1).toNat ≤ 5 ^ q.toNat := Nat.pow_le_pow_right (by norm_num) (by omega)
        have := tr.pow_max
        omega
      obtain ⟨e1, e2, e3⟩ := hexact h0 (by have := tr.max26; omega)
      rw [e3] at hex
      have hn : w * a = M * 2 ^ t * 2 ^ 64 := by exact_mod_cast hex
      have := tr.min0
      refine ⟨by omega, by omega, hq, by omega⟩
    · have hneg : q < 0 := by omega
      obtain ⟨n, hn, hnw⟩ := exactProduct_neg (w := w) hneg (sp.neg hneg)
      have key : M * 2 ^ t * 5 ^ (-q).toNat = w * 2 ^ (-1 - e5 q).toNat := by
        rw [hex, hnw] at hn
        have : ((M * 2 ^ t * 5 ^ (-q).toNat : Nat) : ℚ) = ((w * 2 ^ (-1 - e5 q).toNat : Nat) : ℚ) := by
          push_cast at *; linarith
        exact_mod_cast this
      have hdvd : M * 5 ^ (-q).toNat ∣ w := by
        have hd : M * 5 ^ (-q).toNat ∣ w * 2 ^ (-1 - e5 q).toNat := ⟨2 ^ t, by rw [← key]; ring⟩
        have hc : Nat.Coprime (M * 5 ^ (-q).toNat) (2 ^ (-1 - e5 q).toNat) := by
          apply Nat.Coprime.pow_right
          apply (Nat.coprime_two_right).2
          exact (Nat.odd_iff.2 hM).mul (Odd.pow (by decide))
        exact hc.dvd_of_dvd_mul_right hd
      have hle := Nat.le_of_dvd hw0 hdvd
      have hq : minR ≤ q := by
        by_contra h
        have h5 : 5 ^ (-minR + 1).toNat ≤ 5 ^ (-q).toNat := Nat.pow_le_pow_right (by norm_num) (by omega)
        have h6 := tr.pow_min
        have h7 := Nat.mul_le_mul hM1 (Nat.le_trans h6 h5)
        have := tr.bits
        rw [← Nat.pow_add, show mant + 1 + (63 - mant) = 64 by omega] at h7
        omega
      have hm17 := tr.min17
      have hm0 := tr.max0
      obtain ⟨c1, c2, c3⟩ := sp.ceil (by omega) hneg
      have u1 : (w : ℚ) * scaled q ≤ w * (a * 2 ^ 64 + b) := mul_le_mul_of_nonneg_left c2 (le_of_lt hw0q)
      have u2 : (w : ℚ) * (a * 2 ^ 64 + b - 1) < w * scaled q := mul_lt_mul_of_pos_left c1 hw0q
      rw [← hEp, hex] at u1 u2
      have n1 : M * 2 ^ t * 2 ^ 64 * 2 ^ 64 ≤ w * (a * 2 ^ 64 + b) := by exact_mod_cast u1
      have n2 : w * (a * 2 ^ 64 + b) < M * 2 ^ t * 2 ^ 64 * 2 ^ 64 + w := by
        have : (w : ℚ) * (a * 2 ^ 64 + b) < M * 2 ^ t * 2 ^ 64 * 2 ^ 64 + w := by linarith
        exact_mod_cast this
      rcases hz with hz | ⟨hz, hne⟩
      · rw [← hz] at hdiv1 hdiv2
        refine ⟨by omega, by omega, by omega, by omega⟩
      · have hb := sp.hb
        have n3 : w * (a * 2 ^ 64 + b) = w * a * 2 ^ 64 + w * b := by ring
        have n4 : w * b < w * 2 ^ 64 := Nat.mul_lt_mul_of_pos_left hb hw0
        have n5 : w ≤ w * b := Nat.le_mul_of_pos_right _ (by omega)
        rw [n3, ← hz] at n1 n2
        -- the upper half is the tie, or one below it
        generalize M * 2 ^ t = H at *
        have hcase : hi = H ∨ hi + 1 = H := by omega
        rcases hcase with h | h
        · refine ⟨by omega, by omega, by omega, by omega⟩
        · exfalso
          apply hne
          obtain ⟨u, hu⟩ : ∃ u, H = 2 ^ s * u := ⟨H / 2 ^ s, by
            have := Nat.div_add_mod H (2 ^ s); rw [hlow] at this; omega⟩
          have hp := Nat.two_pow_pos s
          obtain ⟨u', rfl⟩ : ∃ u', u = u' + 1 := ⟨u - 1, by
            rcases Nat.eq_zero_or_pos u with h0 | h0
            · subst h0; omega
            · omega⟩
          have : hi = 2 ^ s * u' + (2 ^ s - 1) := by rw [Nat.mul_add] at hu; omega
          rw [this, Nat.mul_add_mod]
          exact Nat.mod_eq_of_lt (by omega)

end
end Musli.Dec2Flt
