import Verif.Proofs.Float.SlowLoops
import Mathlib.Tactic.IntervalCases
/-!
# Rounding a decimal to an integer
-/
set_option linter.unusedSectionVars false
set_option exponentiation.threshold 2000
namespace Musli.Dec2Flt
open Musli.Spec.Float

/-- The loop over the digits before the point. -/
theorem intPart_spec : ∀ (k : Nat) (ds : List Nat) (n : Nat), (∀ x ∈ ds, x < 10) → (n + 1) * 10 ^ k ≤ 2 ^ 64 →
    Decimal.intPart ds k n = some (n * 10 ^ k + num10 (ds.take k) * 10 ^ (k - ds.length)) := by
  intro k
  induction k with
  | zero => intro ds n _ _; simp [Decimal.intPart, num10]
  | succ k ih =>
    intro ds n hd hn
    have hp : 1 ≤ 10 ^ k := Nat.one_le_pow _ _ (by norm_num)
    have hn' : (n + 1) * 10 * 10 ^ k ≤ 2 ^ 64 := by
      rw [Nat.pow_succ] at hn; calc _ = (n + 1) * (10 ^ k * 10) := by ring
        _ ≤ _ := hn
    have h1 : (n + 1) * 10 ≤ 2 ^ 64 := Nat.le_trans (Nat.le_mul_of_pos_right _ hp) hn'
    unfold Decimal.intPart
    rw [show u64 (n * 10) = some (n * 10) from if_pos (by omega)]
    simp only [Option.bind_eq_bind, Option.bind_some]
    cases ds with
    | nil =>
      dsimp only
      rw [ih [] (n * 10) (by simp) (by nlinarith)]
      simp [num10, Nat.pow_succ]; ring
    | cons d ds =>
      have hd1 := hd d (by simp)
      dsimp only
      rw [show u64 (n * 10 + d) = some (n * 10 + d) from if_pos (by omega)]
      simp only [Option.bind_some]
      rw [ih ds (n * 10 + d) (fun x hx => hd x (by simp [hx])) (by nlinarith)]
      congr 1
      simp only [List.take_succ_cons, num10, List.length_take, List.length_cons]
      have hmm : min k ds.length + (k - ds.length) = k := by omega
      rw [show k + 1 - (ds.length + 1) = k - ds.length by omega, Nat.add_mul _ _ (10 ^ (k - ds.length)), Nat.mul_assoc d,
        ← Nat.pow_add, hmm, Nat.pow_succ]
      ring

theorem num10_pos_of_trimmed {ds : List Nat} (hne : ds ≠ []) (hl : ds.getLast? ≠ some 0) : 0 < num10 ds := by
  rcases Nat.eq_zero_or_pos (num10 ds) with h0 | h0
  · exfalso
    obtain ⟨init, last, hil⟩ : ∃ init last, ds = init ++ [last] :=
      ⟨ds.dropLast, ds.getLast hne, by rw [List.dropLast_append_getLast]⟩
    rw [hil, num10_append] at h0
    rw [hil] at hl
    simp [num10] at h0 hl
    omega
  · exact h0

theorem parity_of_last {l : List Nat} {p : Nat} (hp : p ≠ 0) (hlen : p ≤ l.length) :
    num10 (l.take p) % 2 = l[p - 1]! % 2 := by
  obtain ⟨q, rfl⟩ : ∃ q, p = q + 1 := ⟨p - 1, by omega⟩
  have : l.take (q + 1) = l.take q ++ [l[q]!] := by
    rw [List.take_add_one]
    have : l[q]? = some l[q]! := by
      rw [List.getElem?_eq_getElem (by omega)]
      simp [List.getElem!_eq_getElem?_getD, List.getElem?_eq_getElem (show q < l.length by omega)]
    rw [this]; rfl
  rw [this, num10_append]
  simp [num10]
  omega

/-- `round` yields the nearest integer, ties to even. -/
theorem round_spec {d : Decimal} {X : ℚ} (ok : d.Ok) (htr : d.Trimmed) (hv : d.val < 2 ^ 53)
    (hc : ∀ a : Nat, a ≤ 2 ^ 54 → Cmp d X (a / 2)) : ∃ r, d.round = some r ∧ RoundsTo X r := by
  have hn0 : d.num ≠ 0 := by have := ok.pos; omega
  have hvp := ok.val_pos
  have hX0 : 0 < X := by simpa using (hc 0 (by norm_num)).2.2 (by simpa using hvp)
  unfold Decimal.round
  by_cases hneg : d.dp < 0
  · rw [if_pos (Or.inr hneg)]
    refine ⟨0, rfl, ?_⟩
    have hlt := ok.lt
    have h1 : (10 : ℚ) ^ d.dp ≤ 10 ^ (-1 : Int) := zpow_le_zpow_right₀ (by norm_num) (by omega)
    have h3 : (10 : ℚ) ^ (-1 : Int) < 1 / 2 := by norm_num
    have h4 : d.val < 1 / 2 := lt_trans (lt_of_lt_of_le hlt h1) h3
    have := (hc 1 (by norm_num)).1 (by push_cast; exact h4)
    push_cast at this
    unfold RoundsTo
    exact ⟨Or.inl (by push_cast; linarith), Or.inl (by push_cast; linarith)⟩
  rw [if_neg (by omega)]
  have hdp18 : d.dp ≤ 16 := by
    have h1 : (10 : ℚ) ^ (d.dp - 1) < 10 ^ (16 : Int) := by
      calc (10 : ℚ) ^ (d.dp - 1) ≤ d.val := ok.ge
        _ < 2 ^ 53 := hv
        _ ≤ 10 ^ (16 : Int) := by norm_num
    have := (zpow_lt_zpow_iff_right₀ (show (1 : ℚ) < 10 by norm_num)).1 h1
    omega
  rw [if_neg (by omega)]
  have htake : d.digits.take d.num = d.digits := by rw [ok.num, List.take_length]
  obtain ⟨p, hp⟩ : ∃ p : Nat, d.dp = p := ⟨d.dp.toNat, by omega⟩
  have hp16 : p ≤ 16 := by omega
  simp only [hp, Int.toNat_natCast, htake]
  rw [intPart_spec p d.digits 0 ok.dig (by
    have : 10 ^ p ≤ 10 ^ 16 := Nat.pow_le_pow_right (by norm_num) hp16
    have : (10 ^ 16 : Nat) ≤ 2 ^ 64 := by norm_num
    omega)]
  simp only [Option.bind_eq_bind, Option.bind_some, Nat.zero_mul, Nat.zero_add]
  have hnum := ok.num
  -- compare at an integer and at half-integers
  have cmpInt : ∀ n : Nat, n ≤ 2 ^ 53 → (d.val < n → X < n) ∧ ((n : ℚ) ≤ d.val → (n : ℚ) ≤ X) := by
    intro n hn
    have := hc (2 * n) (by omega)
    rw [show (((2 * n : Nat) : ℚ) / 2) = n by push_cast; ring] at this
    refine ⟨this.1, fun h => ?_⟩
    rcases lt_or_eq_of_le h with h | h
    · exact le_of_lt (this.2.2 h)
    · have h3 := this.2.1 h.symm
      split at h3
      · exact le_of_lt h3
      · exact le_of_eq h3.symm
  have cmpHalf : ∀ n : Nat, n < 2 ^ 53 → Cmp d X ((n : ℚ) + 1 / 2) := by
    intro n hn
    have := hc (2 * n + 1) (by omega)
    rwa [show (((2 * n + 1 : Nat) : ℚ) / 2) = n + 1 / 2 by push_cast; ring] at this
  by_cases hlen : p < d.num
  · rw [if_pos hlen]
    have hsub : p - d.digits.length = 0 := by omega
    rw [hsub, Nat.pow_zero, Nat.mul_one]
    -- the digit after the point
    obtain ⟨c, rest, hdrop⟩ : ∃ c rest, d.digits.drop p = c :: rest := by
      cases hd : d.digits.drop p with
      | nil => have := List.drop_eq_nil_iff.1 hd; omega
      | cons c rest => exact ⟨c, rest, rfl⟩
    have hsplit : d.digits = d.digits.take p ++ c :: rest := by rw [← hdrop, List.take_append_drop]
    have hcget : d.digits[p]! = c := by
      have : d.digits[p]? = some c := by
        have := congrArg (fun l => l[0]?) hdrop
        simpa using this
      simp [List.getElem!_eq_getElem?_getD, this]
    have hlrest : d.num = p + (rest.length + 1) := by
      have := congrArg List.length hdrop
      simp at this; omega
    have hmem : ∀ x ∈ c :: rest, x < 10 := fun x hx => ok.dig x (by rw [hsplit]; exact List.mem_append_right _ hx)
    have hc10 : c < 10 := hmem c (by simp)
    have hrest := num10_lt (ds := rest) (fun x hx => hmem x (by simp [hx]))
    have hrpos : rest ≠ [] → 0 < num10 rest := by
      intro hne
      apply num10_pos_of_trimmed hne
      have h1 := htr
      unfold Decimal.Trimmed at h1
      rw [hsplit, List.getLast?_append_of_ne_nil _ (by simp)] at h1
      cases rest with
      | nil => exact absurd rfl hne
      | cons a l => simpa [List.getLast?_cons_cons] using h1
    generalize hn : num10 (d.digits.take p) = n at *
    have hpar : p ≠ 0 → n % 2 = d.digits[p - 1]! % 2 := by
      intro h0; rw [← hn]; exact parity_of_last h0 (by omega)
    have hn00 : p = 0 → n = 0 := by
      intro h0; rw [← hn, h0]; rfl
    -- the value
    have hval : d.val = n + c / 10 + num10 rest / 10 ^ (rest.length + 1) := by
      unfold Decimal.val
      rw [hsplit, num10_append, hn, hp, hlrest]
      simp only [num10, List.length_cons]
      push_cast
      rw [show (p : Int) - (p + (rest.length + 1)) = -((rest.length + 1 : Nat) : Int) by push_cast; ring, zpow_neg, zpow_natCast, pow_succ]
      field_simp
      ring
    have hr0 : (0 : ℚ) ≤ num10 rest / 10 ^ (rest.length + 1) := by positivity
    have hr1 : (num10 rest : ℚ) / 10 ^ (rest.length + 1) < 1 / 10 := by
      rw [div_lt_iff₀ (by positivity), pow_succ]
      have : (num10 rest : ℚ) < 10 ^ rest.length := by exact_mod_cast hrest
      linarith
    have hr2 : rest ≠ [] → (0 : ℚ) < num10 rest / 10 ^ (rest.length + 1) := by
      intro h
      have : (0 : ℚ) < num10 rest := by exact_mod_cast hrpos h
      positivity
    have hr3 : rest = [] → (num10 rest : ℚ) / 10 ^ (rest.length + 1) = 0 := by
      intro h; rw [h]; simp [num10]
    generalize hf : (num10 rest : ℚ) / 10 ^ (rest.length + 1) = f at *
    have hcq : (c : ℚ) ≤ 9 := by exact_mod_cast (show c ≤ 9 by omega)
    have hc0 : (0 : ℚ) ≤ c := by positivity
    have hnlt : n < 2 ^ 53 := by
      have : (n : ℚ) < 2 ^ 53 := by linarith
      exact_mod_cast this
    have hge : (n : ℚ) ≤ X := (cmpInt n (by omega)).2 (by linarith)
    have hlt : X < (n : ℚ) + 1 := by
      have := (cmpInt (n + 1) (by omega)).1 (by push_cast; linarith)
      push_cast at this; exact this
    obtain ⟨k1, k2, k3⟩ := cmpHalf n hnlt
    have up : (n : ℚ) + 1 / 2 < X → ∃ r, u64 (n + 1) = some r ∧ RoundsTo X r := by
      intro h
      refine ⟨n + 1, if_pos (by omega), ?_⟩
      unfold RoundsTo
      push_cast
      exact ⟨Or.inl (by linarith), Or.inl (by linarith)⟩
    have down : X < (n : ℚ) + 1 / 2 → ∃ r, some n = some r ∧ RoundsTo X r := by
      intro h
      refine ⟨n, rfl, ?_⟩
      unfold RoundsTo
      exact ⟨Or.inl (by linarith), Or.inl (by linarith)⟩
    rw [hcget]
    by_cases h5 : c = 5 ∧ p + 1 = d.num
    · rw [if_pos h5]
      have hnil : rest = [] := List.length_eq_zero_iff.1 (by omega)
      have hfe := hr3 hnil
      have hh : d.val = (n : ℚ) + 1 / 2 := by
        rw [hval, hfe, h5.1]; push_cast; ring
      have hk2 := k2 hh
      cases hd : d.truncated with
      | true =>
        rw [hd, if_pos rfl] at hk2
        simpa using up hk2
      | false =>
        rw [hd, if_neg (by simp)] at hk2
        simp only [Bool.false_or]
        by_cases hodd : n % 2 = 1
        · have hp0 : p ≠ 0 := by intro h; have := hn00 h; omega
          have hb : (p != 0 && (d.digits[p - 1]! &&& 1) != 0) = true := by
            have e1 : d.digits[p - 1]! &&& 1 = d.digits[p - 1]! % 2 := Nat.and_two_pow_sub_one_eq_mod _ 1
            rw [e1, ← hpar hp0, hodd]; simp [hp0]
          rw [if_pos hb]
          refine ⟨n + 1, if_pos (by omega), ?_⟩
          unfold RoundsTo
          push_cast
          exact ⟨Or.inr ⟨by linarith, by omega⟩, Or.inl (by linarith)⟩
        · have hb : ¬ (p != 0 && (d.digits[p - 1]! &&& 1) != 0) = true := by
            intro h
            simp only [Bool.and_eq_true, bne_iff_ne] at h
            have e1 : d.digits[p - 1]! &&& 1 = d.digits[p - 1]! % 2 := Nat.and_two_pow_sub_one_eq_mod _ 1
            rw [e1, ← hpar h.1] at h
            omega
          rw [if_neg hb]
          refine ⟨n, rfl, ?_⟩
          unfold RoundsTo
          exact ⟨Or.inl (by linarith), Or.inr ⟨by linarith, by omega⟩⟩
    · rw [if_neg h5]
      by_cases hge5 : c ≥ 5
      · rw [if_pos (by simpa using hge5)]
        apply up
        apply k3
        rw [hval]
        by_cases h6 : c = 5
        · have : rest ≠ [] := by
            intro h; apply h5; refine ⟨h6, ?_⟩; rw [hlrest, h]; rfl
          have := hr2 this
          rw [h6]; push_cast; linarith
        · have : (6 : ℚ) ≤ c := by exact_mod_cast (show 6 ≤ c by omega)
          linarith
      · rw [if_neg (by simpa using hge5)]
        apply down
        apply k1
        rw [hval]
        have : (c : ℚ) ≤ 4 := by exact_mod_cast (show c ≤ 4 by omega)
        linarith
  · rw [if_neg hlen]
    simp only [Bool.false_eq_true, if_false]
    refine ⟨_, rfl, ?_⟩
    have htp : d.digits.take p = d.digits := List.take_of_length_le (by omega)
    rw [htp, ← hnum]
    generalize hN : num10 d.digits * 10 ^ (p - d.num) = N
    have hval : d.val = N := by
      unfold Decimal.val
      rw [← hN, hp]
      push_cast
      rw [← zpow_natCast, Nat.cast_sub (by omega)]
    have hNlt : N < 2 ^ 53 := by
      have : (N : ℚ) < 2 ^ 53 := by rw [← hval]; exact hv
      exact_mod_cast this
    have h1 := (cmpInt N (by omega)).2 (by rw [hval])
    have h3 := (cmpHalf N hNlt).1 (by rw [hval]; linarith)
    unfold RoundsTo
    exact ⟨Or.inl (by linarith), Or.inl (by linarith)⟩

end Musli.Dec2Flt
