import Verif.Model.Dec2Flt.Lemire
import Mathlib.Tactic.Ring
import Mathlib.Tactic.Linarith
import Mathlib.Tactic.Positivity
import Mathlib.Tactic.NormNum
/-!
# What the table of powers of five contains

Every entry is checked by evaluation in the kernel against the exact power of five.
-/
namespace Musli.Dec2Flt

/-- The exponent of the power of two below `5 ^ q`, as the code computes it. -/
def e5 (q : Int) : Int := power q - 63 - q

/-- What is checked of the entry for `5 ^ q`. -/
def entryOk (q : Int) (a b : Nat) : Bool :=
  let T := a * 2 ^ 64 + b
  let e := e5 q
  decide (a < 2 ^ 64) && decide (b < 2 ^ 64) && decide (2 ^ 127 ≤ T) &&
  if 0 ≤ q then
    decide (0 ≤ e) &&
    if q ≤ 55 then
      decide (e ≤ 127) && decide (T = 5 ^ q.toNat * 2 ^ (127 - e).toNat) &&
        (decide (26 < q) || (decide (a % 2 = 0) && decide (b = 0)))
    else
      decide (127 < e) && decide (T * 2 ^ (e - 127).toNat ≤ 5 ^ q.toNat) &&
        decide (5 ^ q.toNat < (T + 1) * 2 ^ (e - 127).toNat)
  else
    let k := (-q).toNat
    let s := (127 - e).toNat
    decide (e ≤ -1) && decide (2 ^ 127 * 5 ^ k ≤ 2 ^ s) &&
    if -27 ≤ q then
      decide (1 ≤ b) && decide (2 ^ s ≤ T * 5 ^ k) && decide (T * 5 ^ k < 2 ^ s + 5 ^ k) &&
        (decide (q < -17) || decide (a % 8 ≠ 0))
    else
      decide (T * 5 ^ k ≤ 2 ^ s) && decide (2 ^ s < (T + 1) * 5 ^ k)

/-- The check of one entry of the table. -/
def indexOk (i : Nat) : Bool :=
  match powerOfFive128[i]? with
  | some (a, b) => entryOk ((i : Int) - 342) a b
  | none => false

set_option maxRecDepth 100000 in
theorem table_ok : ∀ i < 651, indexOk i = true := by decide +kernel

theorem entry (q : Int) (h1 : -342 ≤ q) (h2 : q ≤ 308) :
    ∃ a b, powerOfFive128[(q - smallestPowerOfFive).toNat]? = some (a, b) ∧ entryOk q a b = true := by
  have h := table_ok (q + 342).toNat (by omega)
  unfold indexOk at h
  have he : (q - smallestPowerOfFive).toNat = (q + 342).toNat := by
    unfold smallestPowerOfFive; omega
  rw [he]
  generalize powerOfFive128[(q + 342).toNat]? = o at *
  rcases o with _ | ⟨a, b⟩
  · simp at h
  · refine ⟨a, b, rfl, ?_⟩
    have : (((q + 342).toNat : Nat) : Int) - 342 = q := by omega
    dsimp only at h
    rwa [this] at h

/-- The inverse of the upper half of the entry for `5 ^ q` modulo `2 ^ (64 + s)` is no
`u64`: a product whose low word is one cannot be a multiple in the bits above. -/
def inverseOk (s : Nat) (q : Int) (inv : Nat) : Bool :=
  match powerOfFive128[(q - smallestPowerOfFive).toNat]? with
  | some (a, _) => a % 2 == 0 || (a * inv % 2 ^ (64 + s) == 1 && decide (2 ^ 64 ≤ inv) &&
      decide (inv < 2 ^ (64 + s)))
  | none => false

/-- The inverses for `q = -1, -2, ...` in the case of `f64` (`s = 9`). -/
def inverses64 : List Nat := [0,
  0,
  8167766518840865956339,
  6777554990888349610371]
/-- The inverses for `q = -1, -2, ...` in the case of `f32` (`s = 38`). -/
def inverses32 : List Nat := [0,
  0,
  4785499808546896019398767780339,
  4680720959665933103288130744707,
  4632272785379648074911651941259,
  838460301513260519709676272797,
  0,
  0,
  759203342249899998222794893863,
  0,
  0,
  3952263070117851425879444528355,
  3230450232306711727843916901403,
  3483661361078927878212553742063,
  2850957334708428538590963503977,
  2621984768953996629380456998611,
  4202047054366778601086253891065]

theorem inverse64_ok : ∀ k : Nat, k < 4 → inverseOk 9 (-(k : Int) - 1) inverses64[k]! = true := by decide +kernel
theorem inverse32_ok : ∀ k : Nat, k < 17 → inverseOk 38 (-(k : Int) - 1) inverses32[k]! = true := by decide +kernel

/-- `5 ^ q`, scaled to 128 bits. -/
def scaled (q : Int) : ℚ := (5 : ℚ) ^ q * 2 ^ (127 - e5 q)

/-- What the table says in terms of numbers. -/
structure EntrySpec (q : Int) (a b : Nat) : Prop where
  ha : a < 2 ^ 64
  hb : b < 2 ^ 64
  lo : (2 : ℚ) ^ 127 ≤ scaled q
  hi : scaled q < 2 ^ 128
  exact : 0 ≤ q → q ≤ 55 → scaled q = a * 2 ^ 64 + b
  small : 0 ≤ q → q ≤ 26 → a % 2 = 0 ∧ b = 0
  ceil : -27 ≤ q → q < 0 → (a : ℚ) * 2 ^ 64 + b - 1 < scaled q ∧ scaled q ≤ a * 2 ^ 64 + b ∧ 1 ≤ b
  odd : -17 ≤ q → q < 0 → a % 8 ≠ 0
  floor : ¬ (-27 ≤ q ∧ q ≤ 55) → (a : ℚ) * 2 ^ 64 + b ≤ scaled q ∧ scaled q < a * 2 ^ 64 + b + 1
  pos : 0 ≤ q → 0 ≤ e5 q
  neg : q < 0 → e5 q ≤ -1

theorem entry_spec {q : Int} {a b : Nat} (h : entryOk q a b = true) : EntrySpec q a b := by
  unfold entryOk at h
  simp only [Bool.and_eq_true, decide_eq_true_eq] at h
  obtain ⟨⟨⟨ha, hb⟩, hT⟩, h⟩ := h
  have hTq : (2 : ℚ) ^ 127 ≤ a * 2 ^ 64 + b := by exact_mod_cast hT
  have hT2 : (a : ℚ) * 2 ^ 64 + b + 1 ≤ 2 ^ 128 := by
    have : a * 2 ^ 64 + b + 1 ≤ 2 ^ 128 := by omega
    exact_mod_cast this
  by_cases hq : 0 ≤ q
  · rw [if_pos hq] at h
    simp only [Bool.and_eq_true, decide_eq_true_eq] at h
    obtain ⟨he, h⟩ := h
    have h5 : (5 : ℚ) ^ q = ((5 ^ q.toNat : Nat) : ℚ) := by
      conv_lhs => rw [← Int.toNat_of_nonneg hq]
      rw [zpow_natCast]; push_cast; rfl
    by_cases h55 : q ≤ 55
    · rw [if_pos h55] at h
      simp only [Bool.and_eq_true, Bool.or_eq_true, decide_eq_true_eq] at h
      obtain ⟨⟨h1, h2⟩, h3⟩ := h
      have hs : scaled q = a * 2 ^ 64 + b := by
        have : (2 : ℚ) ^ (127 - e5 q) = ((2 ^ (127 - e5 q).toNat : Nat) : ℚ) := by
          conv_lhs => rw [← Int.toNat_of_nonneg (show 0 ≤ 127 - e5 q by omega)]
          rw [zpow_natCast]; push_cast; rfl
        unfold scaled
        rw [h5, this, ← Nat.cast_mul, ← h2]
        push_cast; ring
      exact ⟨ha, hb, by rw [hs]; exact hTq, by rw [hs]; linarith, fun _ _ => hs,
        fun _ h => by omega, fun _ h => by omega, fun _ h => by omega, fun h => by omega,
        fun _ => he, fun h => by omega⟩
    · rw [if_neg h55] at h
      simp only [Bool.and_eq_true, decide_eq_true_eq] at h
      obtain ⟨⟨h1, h2⟩, h3⟩ := h
      have hp : (2 : ℚ) ^ (127 - e5 q) * ((2 ^ (e5 q - 127).toNat : Nat) : ℚ) = 1 := by
        have : ((2 ^ (e5 q - 127).toNat : Nat) : ℚ) = (2 : ℚ) ^ (e5 q - 127) := by
          conv_rhs => rw [← Int.toNat_of_nonneg (show 0 ≤ e5 q - 127 by omega)]
          rw [zpow_natCast]; push_cast; rfl
        rw [this, ← zpow_add₀ (by norm_num)]
        simp
      have h2' : ((a : ℚ) * 2 ^ 64 + b) * ((2 ^ (e5 q - 127).toNat : Nat) : ℚ) ≤ ((5 ^ q.toNat : Nat) : ℚ) := by
        exact_mod_cast h2
      have h3' : ((5 ^ q.toNat : Nat) : ℚ) < ((a : ℚ) * 2 ^ 64 + b + 1) * ((2 ^ (e5 q - 127).toNat : Nat) : ℚ) := by
        exact_mod_cast h3
      have hpos : (0 : ℚ) < (2 : ℚ) ^ (127 - e5 q) := by positivity
      have f1 : (a : ℚ) * 2 ^ 64 + b ≤ scaled q := by
        unfold scaled; rw [h5]
        calc (a : ℚ) * 2 ^ 64 + b = (a * 2 ^ 64 + b) * ((2 : ℚ) ^ (127 - e5 q) * ((2 ^ (e5 q - 127).toNat : Nat) : ℚ)) := by rw [hp]; ring
          _ = ((a * 2 ^ 64 + b) * ((2 ^ (e5 q - 127).toNat : Nat) : ℚ)) * (2 : ℚ) ^ (127 - e5 q) := by ring
          _ ≤ _ := by apply mul_le_mul_of_nonneg_right h2' (le_of_lt hpos)
      have f2 : scaled q < (a : ℚ) * 2 ^ 64 + b + 1 := by
        unfold scaled; rw [h5]
        calc _ < ((a * 2 ^ 64 + b + 1) * ((2 ^ (e5 q - 127).toNat : Nat) : ℚ)) * (2 : ℚ) ^ (127 - e5 q) := by
              apply mul_lt_mul_of_pos_right h3' hpos
          _ = (a * 2 ^ 64 + b + 1) * ((2 : ℚ) ^ (127 - e5 q) * ((2 ^ (e5 q - 127).toNat : Nat) : ℚ)) := by ring
          _ = _ := by rw [hp]; ring
      exact ⟨ha, hb, by linarith, by linarith, fun _ h => by omega,
        fun _ h => by omega, fun _ h => by omega, fun _ h => by omega, fun _ => ⟨f1, f2⟩,
        fun _ => he, fun h => by omega⟩
  · rw [if_neg hq] at h
    simp only [Bool.and_eq_true, decide_eq_true_eq] at h
    obtain ⟨⟨he, hlo⟩, h⟩ := h
    have h5 : (5 : ℚ) ^ q * ((5 ^ (-q).toNat : Nat) : ℚ) = 1 := by
      have : ((5 ^ (-q).toNat : Nat) : ℚ) = (5 : ℚ) ^ (-q) := by
        conv_rhs => rw [← Int.toNat_of_nonneg (show 0 ≤ -q by omega)]
        rw [zpow_natCast]; push_cast; rfl
      rw [this, ← zpow_add₀ (by norm_num)]
      simp
    have h2 : (2 : ℚ) ^ (127 - e5 q) = ((2 ^ (127 - e5 q).toNat : Nat) : ℚ) := by
      conv_lhs => rw [← Int.toNat_of_nonneg (show 0 ≤ 127 - e5 q by omega)]
      rw [zpow_natCast]; push_cast; rfl
    have hpos : (0 : ℚ) < ((5 ^ (-q).toNat : Nat) : ℚ) := by positivity
    have hs : scaled q * ((5 ^ (-q).toNat : Nat) : ℚ) = ((2 ^ (127 - e5 q).toNat : Nat) : ℚ) := by
      unfold scaled; rw [h2]
      calc _ = ((5 : ℚ) ^ q * ((5 ^ (-q).toNat : Nat) : ℚ)) * ((2 ^ (127 - e5 q).toNat : Nat) : ℚ) := by ring
        _ = _ := by rw [h5]; ring
    have low : (2 : ℚ) ^ 127 ≤ scaled q := by
      have : (2 : ℚ) ^ 127 * ((5 ^ (-q).toNat : Nat) : ℚ) ≤ ((2 ^ (127 - e5 q).toNat : Nat) : ℚ) := by
        exact_mod_cast hlo
      rw [← hs] at this
      exact le_of_mul_le_mul_right this hpos
    by_cases h27 : -27 ≤ q
    · rw [if_pos h27] at h
      simp only [Bool.and_eq_true, Bool.or_eq_true, decide_eq_true_eq] at h
      obtain ⟨⟨⟨h1, h2⟩, h3⟩, h4⟩ := h
      have f1 : scaled q ≤ (a : ℚ) * 2 ^ 64 + b := by
        have : ((2 ^ (127 - e5 q).toNat : Nat) : ℚ) ≤ ((a : ℚ) * 2 ^ 64 + b) * ((5 ^ (-q).toNat : Nat) : ℚ) := by
          exact_mod_cast h2
        rw [← hs] at this
        exact le_of_mul_le_mul_right this hpos
      have f2 : (a : ℚ) * 2 ^ 64 + b - 1 < scaled q := by
        have : ((a : ℚ) * 2 ^ 64 + b) * ((5 ^ (-q).toNat : Nat) : ℚ) < ((2 ^ (127 - e5 q).toNat : Nat) : ℚ) + ((5 ^ (-q).toNat : Nat) : ℚ) := by
          exact_mod_cast h3
        rw [← hs] at this
        have : ((a : ℚ) * 2 ^ 64 + b - 1) * ((5 ^ (-q).toNat : Nat) : ℚ) < scaled q * ((5 ^ (-q).toNat : Nat) : ℚ) := by linarith
        exact lt_of_mul_lt_mul_right this (le_of_lt hpos)
      exact ⟨ha, hb, low, by linarith, fun h => by omega,
        fun h => by omega, fun _ _ => ⟨f2, f1, h1⟩, fun _ _ => by omega, fun h => by omega,
        fun h => by omega, fun _ => he⟩
    · rw [if_neg h27] at h
      simp only [Bool.and_eq_true, decide_eq_true_eq] at h
      obtain ⟨h2, h3⟩ := h
      have f1 : (a : ℚ) * 2 ^ 64 + b ≤ scaled q := by
        have : ((a : ℚ) * 2 ^ 64 + b) * ((5 ^ (-q).toNat : Nat) : ℚ) ≤ ((2 ^ (127 - e5 q).toNat : Nat) : ℚ) := by
          exact_mod_cast h2
        rw [← hs] at this
        exact le_of_mul_le_mul_right this hpos
      have f2 : scaled q < (a : ℚ) * 2 ^ 64 + b + 1 := by
        have : ((2 ^ (127 - e5 q).toNat : Nat) : ℚ) < ((a : ℚ) * 2 ^ 64 + b + 1) * ((5 ^ (-q).toNat : Nat) : ℚ) := by
          exact_mod_cast h3
        rw [← hs] at this
        exact lt_of_mul_lt_mul_right this (le_of_lt hpos)
      exact ⟨ha, hb, low, by linarith, fun h => by omega,
        fun h => by omega, fun h => by omega, fun h => by omega, fun _ => ⟨f1, f2⟩,
        fun h => by omega, fun _ => he⟩

end Musli.Dec2Flt
