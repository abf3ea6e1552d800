import Verif.Proofs.Float.LeftShift
/-!
# Dividing a decimal by a power of two
-/
set_option linter.unusedSectionVars false
namespace Musli.Dec2Flt

theorem shiftRight_eq_zero {n k : Nat} : n >>> k = 0 ↔ n < 2 ^ k := by
  rw [Nat.shiftRight_eq_div_pow, Nat.div_eq_zero_iff]
  have := Nat.two_pow_pos k
  omega

theorem pow60 {k : Nat} (hk : k ≤ 60) : 2 ^ k ≤ 2 ^ 60 := Nat.pow_le_pow_right (by norm_num) hk

theorem pad_spec {k : Nat} (hk : k ≤ 60) : ∀ (fuel n read : Nat), 0 < n → n < 10 * 2 ^ k → 2 ^ k ≤ n * 10 ^ fuel →
    ∃ j, Decimal.rightStart.pad k fuel n read = some (some (n * 10 ^ j, [], read + j)) ∧
      2 ^ k ≤ n * 10 ^ j ∧ n * 10 ^ j < 10 * 2 ^ k := by
  intro fuel
  induction fuel with
  | zero =>
    intro n read h0 h1 h2
    unfold Decimal.rightStart.pad
    rw [if_neg (by rw [shiftRight_eq_zero]; omega)]
    exact ⟨0, by simp, by simpa using h2, by simpa using h1⟩
  | succ fuel ih =>
    intro n read h0 h1 h2
    unfold Decimal.rightStart.pad
    by_cases hc : n < 2 ^ k
    · rw [if_pos (shiftRight_eq_zero.2 hc)]
      have := pow60 hk
      simp only []
      rw [show u64 (n * 10) = some (n * 10) from if_pos (by omega)]
      simp only [Option.bind_eq_bind, Option.bind_some]
      obtain ⟨j, hr, h3, h4⟩ := ih (n * 10) (read + 1) (by omega) (by omega) (by
        rw [Nat.pow_succ] at h2; calc 2 ^ k ≤ _ := h2
          _ = _ := by ring)
      have e : n * 10 * 10 ^ j = n * 10 ^ (j + 1) := by rw [Nat.pow_succ]; ring
      rw [e] at hr h3 h4
      exact ⟨j + 1, by rw [hr]; congr 4; omega, h3, h4⟩
    · rw [if_neg (by rw [shiftRight_eq_zero]; omega)]
      exact ⟨0, by simp, by simp; omega, by simpa using h1⟩

/-- The first loop reads digits until a digit of the quotient can be written. -/
theorem rightStart_spec {k : Nat} (hk : k ≤ 60) : ∀ (ds : List Nat) (n read : Nat), (∀ x ∈ ds, x < 10) →
    n < 10 * 2 ^ k → 0 < n + num10 ds →
    ∃ n' rest read' j, Decimal.rightStart k ds n read = some (some (n', rest, read')) ∧
      (∀ x ∈ rest, x < 10) ∧ rest.length ≤ ds.length ∧ 2 ^ k ≤ n' ∧ n' < 10 * 2 ^ k ∧
      n' * 10 ^ rest.length + num10 rest = (n * 10 ^ ds.length + num10 ds) * 10 ^ j ∧
      read' + rest.length = read + ds.length + j
  | [], n, read, _, hn, hpos => by
    unfold Decimal.rightStart
    simp only [num10, Nat.add_zero] at hpos
    by_cases hc : n < 2 ^ k
    · rw [if_pos (shiftRight_eq_zero.2 hc), if_neg (by omega)]
      obtain ⟨j, hr, h1, h2⟩ := pad_spec hk 64 n read hpos hn (by
        have : (2 : Nat) ^ k ≤ 10 ^ 64 := Nat.le_trans (pow60 hk) (by norm_num)
        nlinarith)
      exact ⟨_, _, _, j, hr, by simp, by simp, h1, h2, by simp [num10], by simp⟩
    · rw [if_neg (by rw [shiftRight_eq_zero]; omega)]
      exact ⟨_, _, _, 0, rfl, by simp, by simp, by omega, hn, by simp [num10], by simp⟩
  | d :: ds, n, read, hd, hn, hpos => by
    unfold Decimal.rightStart
    have hd1 := hd d (by simp)
    by_cases hc : n < 2 ^ k
    · rw [if_pos (shiftRight_eq_zero.2 hc)]
      have := pow60 hk
      rw [show u64 (10 * n) = some (10 * n) from if_pos (by omega)]
      simp only [Option.bind_eq_bind, Option.bind_some]
      rw [show u64 (10 * n + d) = some (10 * n + d) from if_pos (by omega)]
      simp only [Option.bind_some]
      obtain ⟨n', rest, read', j, hr, h1, hl, h2, h3, h4, h5⟩ := rightStart_spec hk ds (10 * n + d) (read + 1)
        (fun x hx => hd x (by simp [hx])) (by omega) (by
          simp only [num10] at hpos
          by_cases h0 : n = 0
          · by_cases hd0 : d = 0
            · subst hd0; omega
            · omega
          · omega)
      refine ⟨n', rest, read', j, hr, h1, by simp; omega, h2, h3, ?_, by simp; omega⟩
      rw [h4]
      simp only [num10, List.length_cons, Nat.pow_succ]
      ring
    · rw [if_neg (by rw [shiftRight_eq_zero]; omega)]
      exact ⟨_, _, _, 0, rfl, hd, by simp, by omega, hn, by simp, by simp⟩

theorem digit_of {n k : Nat} (hn : n < 10 * 2 ^ k) : (n >>> k) % 256 = n / 2 ^ k ∧ n / 2 ^ k < 10 := by
  have : n / 2 ^ k < 10 := by
    rw [Nat.div_lt_iff_lt_mul (Nat.two_pow_pos k)]; exact hn
  rw [Nat.shiftRight_eq_div_pow]
  exact ⟨Nat.mod_eq_of_lt (by omega), this⟩

theorem mask_of (n k : Nat) : n &&& (1 <<< k - 1) = n % 2 ^ k := by
  rw [Nat.shiftLeft_eq, Nat.one_mul, Nat.and_two_pow_sub_one_eq_mod]

/-- The second loop: long division. -/
theorem rightLoop_spec {k : Nat} (hk : k ≤ 60) : ∀ (ds : List Nat) (n : Nat) (out : List Nat), (∀ x ∈ ds, x < 10) →
    n < 10 * 2 ^ k → (∀ x ∈ out, x < 10) →
    ∃ n' out', Decimal.rightLoop k ds n out = some (n', out') ∧ n' < 10 * 2 ^ k ∧ (∀ x ∈ out', x < 10) ∧
      out'.length = out.length + ds.length ∧
      10 * num10 out' * 2 ^ k + n' = (10 * num10 out * 2 ^ k + n) * 10 ^ ds.length + num10 ds
  | [], n, out, _, hn, ho => ⟨n, out, rfl, hn, ho, by simp, by simp [num10]⟩
  | d :: ds, n, out, hd, hn, ho => by
    have hd1 := hd d (by simp)
    obtain ⟨hdig, hdlt⟩ := digit_of hn
    unfold Decimal.rightLoop
    simp only [hdig, mask_of]
    have hm := Nat.mod_lt n (Nat.two_pow_pos k)
    have := pow60 hk
    rw [show u64 (10 * (n % 2 ^ k) + d) = some (10 * (n % 2 ^ k) + d) from if_pos (by omega)]
    simp only [Option.bind_eq_bind, Option.bind_some]
    obtain ⟨n', out', hr, h1, h2, h3, h4⟩ := rightLoop_spec hk ds (10 * (n % 2 ^ k) + d) (out ++ [n / 2 ^ k])
      (fun x hx => hd x (by simp [hx])) (by omega) (by
        intro x hx
        rcases List.mem_append.1 hx with h | h
        · exact ho x h
        · simp at h; omega)
    refine ⟨n', out', hr, h1, h2, by simp at h3 ⊢; omega, ?_⟩
    rw [h4]
    simp only [num10_append, num10, List.length_cons, List.length_nil, Nat.pow_succ]
    have hdm := Nat.div_add_mod n (2 ^ k)
    generalize n / 2 ^ k = a at *
    generalize n % 2 ^ k = b at *
    rw [← hdm]
    ring

/-- The third loop: the remainder, digits beyond the 768th are not kept. -/
theorem rightEnd_spec {k : Nat} (hk : k ≤ 60) {t0 : Bool} : ∀ (fuel n i : Nat) (out : List Nat) (t : Bool) (e lost : Nat),
    n < 10 * 2 ^ k → (n = 0 ∨ (i ≤ k ∧ 2 ^ i ∣ n ∧ k + 1 ≤ i + fuel)) → (∀ x ∈ out, x < 10) → out.length ≤ 768 →
    lost < 10 ^ e → (e = 0 ∨ out.length = 768) → t = (t0 || decide (lost ≠ 0)) →
    ∃ out' t' q e' lost', Decimal.rightEnd k fuel n out t = some (out', t') ∧
      (10 * (num10 out * 10 ^ e + lost) * 2 ^ k + n) * 10 ^ q = 10 * (num10 out' * 10 ^ e' + lost') * 2 ^ k ∧
      out'.length + e' = out.length + e + q ∧ lost' < 10 ^ e' ∧ (e' = 0 ∨ out'.length = 768) ∧
      t' = (t0 || decide (lost' ≠ 0)) ∧ out'.length ≤ 768 ∧ (∀ x ∈ out', x < 10) := by
  have hpk := Nat.two_pow_pos k
  intro fuel
  induction fuel with
  | zero =>
    intro n i out t e lost hn hi ho hl hlost he ht
    have hn0 : n = 0 := by omega
    subst hn0
    refine ⟨out, t, 0, e, lost, ?_, by simp, by omega, hlost, he, ht, hl, ho⟩
    unfold Decimal.rightEnd; simp
  | succ fuel ih =>
    intro n i out t e lost hn hi ho hl hlost he ht
    by_cases hn0 : n = 0
    · subst hn0
      refine ⟨out, t, 0, e, lost, ?_, by simp, by omega, hlost, he, ht, hl, ho⟩
      unfold Decimal.rightEnd; simp
    obtain ⟨hik, hdvd, hfuel⟩ := hi.resolve_left hn0
    obtain ⟨hdig, hdlt⟩ := digit_of hn
    have hm := Nat.mod_lt n hpk
    have hp := pow60 hk
    have hnext : 10 * (n % 2 ^ k) = 0 ∨ (i + 1 ≤ k ∧ 2 ^ (i + 1) ∣ 10 * (n % 2 ^ k) ∧ k + 1 ≤ i + 1 + fuel) := by
      by_cases hik' : i = k
      · left
        rw [hik'] at hdvd
        rw [Nat.mod_eq_zero_of_dvd hdvd]
      · right
        refine ⟨by omega, ?_, by omega⟩
        have h1 : 2 ^ i ∣ n % 2 ^ k := (Nat.dvd_mod_iff (Nat.pow_dvd_pow 2 hik)).2 hdvd
        rw [Nat.pow_succ, Nat.mul_comm]
        exact Nat.mul_dvd_mul ⟨5, by norm_num⟩ h1
    have hdm := Nat.div_add_mod n (2 ^ k)
    unfold Decimal.rightEnd
    rw [if_pos (by omega)]
    simp only [hdig, mask_of]
    rw [show u64 (10 * (n % 2 ^ k)) = some (10 * (n % 2 ^ k)) from if_pos (by omega)]
    simp only [Option.bind_eq_bind, Option.bind_some]
    by_cases hlen : out.length < maxDigits
    · rw [if_pos hlen]
      have hlen' : out.length < 768 := hlen
      have he0 : e = 0 := by omega
      subst he0
      have hlost0 : lost = 0 := by simpa using hlost
      subst hlost0
      obtain ⟨out', t', q, e', lost', hr, h1, h2, h3, h4, h5, h6, h7⟩ := ih (10 * (n % 2 ^ k)) (i + 1) (out ++ [n / 2 ^ k]) t 0 0
        (by omega) hnext (by
          intro x hx
          rcases List.mem_append.1 hx with h | h
          · exact ho x h
          · simp at h; omega) (by simp; omega) (by simp) (Or.inl rfl) ht
      refine ⟨out', t', q + 1, e', lost', hr, ?_, by simp at h2; omega, h3, h4, h5, h6, h7⟩
      rw [← h1]
      simp only [num10_append, num10, List.length_cons, List.length_nil, Nat.pow_succ]
      generalize n / 2 ^ k = a at *
      generalize n % 2 ^ k = b at *
      rw [← hdm]
      ring
    · rw [if_neg hlen]
      have hlen' : ¬ out.length < 768 := hlen
      have hlen768 : out.length = 768 := by omega
      obtain ⟨out', t', q, e', lost', hr, h1, h2, h3, h4, h5, h6, h7⟩ := ih (10 * (n % 2 ^ k)) (i + 1) out
        (t || decide (n / 2 ^ k > 0)) (e + 1) (10 * lost + n / 2 ^ k)
        (by omega) hnext ho hl (by rw [Nat.pow_succ]; omega) (Or.inr hlen768) (by
          rw [ht, Bool.or_assoc]
          refine congrArg (t0 || ·) ?_
          rw [Bool.eq_iff_iff]
          simp only [Bool.or_eq_true, decide_eq_true_eq]
          omega)
      refine ⟨out', t', q + 1, e', lost', hr, ?_, by omega, h3, h4, h5, h6, h7⟩
      rw [← h1]
      simp only [Nat.pow_succ]
      generalize n / 2 ^ k = a at *
      generalize n % 2 ^ k = b at *
      rw [← hdm]
      ring

/-- `right_shift` divides by a power of two. -/
theorem rightShift_spec {d : Decimal} (h : d.Ok) {k : Nat} (hk : k ≤ 60) (hdp : -2000 ≤ d.dp) :
    ∃ d', d.rightShift k = some d' ∧ Shifted d d' (-(k : Int)) := by
  have htake : d.digits.take d.num = d.digits := by rw [h.num, List.take_length]
  have hpk := Nat.two_pow_pos k
  have hN := num10_ge h.ne h.head
  have hNpos : 0 < num10 d.digits := lt_of_lt_of_le (Nat.pow_pos (by norm_num)) hN
  unfold Decimal.rightShift
  rw [htake]
  obtain ⟨n0, rest, read, j, hr, hrest, hrl, hn1, hn2, hval, hread⟩ := rightStart_spec hk d.digits 0 0 h.dig (by omega) (by omega)
  simp only [Nat.zero_mul, Nat.zero_add] at hval hread
  rw [hr]
  simp only [Option.bind_eq_bind, Option.bind_some]
  have hl1 : 1 ≤ d.digits.length := List.length_pos_iff.2 h.ne
  -- the number of digits read
  have hread20 : read ≤ 20 := by
    have h1 : 10 ^ (read - 1) ≤ n0 := by
      have h2 : 10 ^ (d.digits.length - 1) * 10 ^ j ≤ n0 * 10 ^ rest.length + num10 rest := by
        rw [hval]; exact Nat.mul_le_mul_right _ hN
      have h3 := num10_lt hrest
      by_cases hr0 : read = 0
      · subst hr0; simp; omega
      have h4 : 10 ^ (read - 1) * 10 ^ rest.length < (n0 + 1) * 10 ^ rest.length := by
        rw [← Nat.pow_add, show read - 1 + rest.length = d.digits.length - 1 + j by omega, Nat.pow_add, Nat.add_mul]
        omega
      have := Nat.lt_of_mul_lt_mul_right h4
      omega
    have h2 : n0 < 10 ^ 20 := by
      have := pow60 hk
      have : (10 * 2 ^ 60 : Nat) < 10 ^ 20 := by norm_num
      omega
    have h3 : 10 ^ (read - 1) < 10 ^ 20 := by omega
    have := (Nat.pow_lt_pow_iff_right (by norm_num)).1 h3
    omega
  rw [if_neg (by unfold decimalPointRange; omega)]
  obtain ⟨n1, out1, hr1, hn1', ho1, hlen1, hval1⟩ := rightLoop_spec hk rest n0 [] hrest hn2 (by simp)
  rw [hr1]
  simp only [Option.bind_some]
  have hreadpos : 1 ≤ read ∨ rest.length = d.digits.length + j := by omega
  have hrest768 : out1.length ≤ 768 := by
    have := h.max; have := h.num; simp at hlen1; omega
  obtain ⟨out, t, q, e, lost, hr2, hval2, hlen2, hlost, he, htr, hl2, ho2⟩ := rightEnd_spec hk (t0 := d.truncated) 64 n1 0 out1 d.truncated 0 0
    hn1' (Or.inr ⟨by omega, by simp, by omega⟩) ho1 hrest768 (by simp) (Or.inl rfl) (by simp)
  rw [hr2]
  simp only [Option.bind_some]
  simp only [num10, Nat.mul_zero, Nat.zero_mul, Nat.zero_add, List.length_nil] at hval1 hlen1
  simp only [Nat.pow_zero, Nat.mul_one, Nat.add_zero] at hval2 hlen2
  rw [hval1] at hval2
  -- the quotient with all its digits
  generalize hQ : num10 out * 10 ^ e + lost = Q at *
  have hQlow : 10 ^ (out.length + e) ≤ 10 * Q := by
    have h1 : 2 ^ k * 10 ^ (rest.length + q) ≤ (n0 * 10 ^ rest.length + num10 rest) * 10 ^ q := by
      rw [Nat.pow_add, ← Nat.mul_assoc]
      apply Nat.mul_le_mul_right
      have := Nat.mul_le_mul_right (10 ^ rest.length) hn1
      omega
    rw [hval2] at h1
    rw [hlen2, hlen1]
    rw [Nat.mul_comm] at h1
    exact Nat.le_of_mul_le_mul_right h1 hpk
  have hone : out ≠ [] := by
    intro h0
    subst h0
    simp only [List.length_nil, Nat.zero_add] at he hQlow
    rcases he with he | he
    · subst he
      simp [num10] at hQ hlost hQlow
      omega
    · omega
  have hlpos : 1 ≤ out.length := List.length_pos_iff.2 hone
  have houtlow : 10 ^ (out.length - 1) ≤ num10 out := by
    have h1 : 10 ^ (out.length - 1) * 10 ^ e < (num10 out + 1) * 10 ^ e := by
      have : 10 * (10 ^ (out.length - 1) * 10 ^ e) ≤ 10 * Q := by
        calc 10 * (10 ^ (out.length - 1) * 10 ^ e) = 10 ^ (out.length + e) := by
              rw [← Nat.pow_add, ← Nat.pow_succ']; congr 1; omega
          _ ≤ _ := hQlow
      rw [Nat.add_mul]; omega
    have := Nat.lt_of_mul_lt_mul_right h1
    omega
  have hok : Decimal.Ok ⟨out.length, d.dp - ((read : Int) - 1), t, out⟩ :=
    ⟨rfl, hl2, ho2, hone, headD_of_ge ho2 hone houtlow⟩
  refine ⟨_, rfl, ?_⟩
  obtain ⟨tok, tval, ttr, tdp, ttrunc⟩ := trim_spec hok
  -- the values
  have h10 : (10 : ℚ) ≠ 0 := by norm_num
  have hdval : d.val * (2 : ℚ) ^ (-(k : Int)) = Q * 10 ^ (d.dp - ((read : Int) - 1) - (out.length + e : Nat)) := by
    unfold Decimal.val
    have hq : ((num10 d.digits : ℚ) * 10 ^ j) * 10 ^ q = 10 * Q * 2 ^ k := by
      have : num10 d.digits * 10 ^ j * 10 ^ q = 10 * Q * 2 ^ k := by rw [← hval, hval2]
      exact_mod_cast this
    rw [zpow_neg, zpow_natCast, ← div_eq_mul_inv, div_eq_iff (by positivity)]
    have e1 : d.dp - (d.num : Int) = (j : Int) + q + (d.dp - d.num - j - q) := by ring
    rw [e1, zpow_add₀ h10, zpow_add₀ h10, zpow_natCast, zpow_natCast, ← mul_assoc, ← mul_assoc, hq]
    have e2 : d.dp - ((read : Int) - 1) - (out.length + e : Nat) = 1 + (d.dp - d.num - j - q) := by
      have := h.num
      push_cast
      omega
    rw [e2, zpow_add₀ h10, zpow_one]
    ring
  have hoval : Decimal.val ⟨out.length, d.dp - ((read : Int) - 1), t, out⟩
      = ((num10 out * 10 ^ e : Nat) : ℚ) * 10 ^ (d.dp - ((read : Int) - 1) - (out.length + e : Nat)) := by
    unfold Decimal.val
    dsimp only
    have e1 : d.dp - ((read : Int) - 1) - (out.length : Int) = (e : Int) + (d.dp - ((read : Int) - 1) - (out.length + e : Nat)) := by
      push_cast; ring
    rw [e1, zpow_add₀ h10, zpow_natCast]; push_cast; ring
  have hg : (0 : ℚ) < 10 ^ (d.dp - ((read : Int) - 1) - (out.length + e : Nat)) := by positivity
  refine ⟨tok, ttr, ?_, ?_, ?_⟩
  · rw [tval, hoval, hdval]
    apply mul_le_mul_of_nonneg_right _ (le_of_lt hg)
    exact_mod_cast (show num10 out * 10 ^ e ≤ Q by omega)
  · rw [tval, hoval, hdval, tdp]
    dsimp only
    rcases he with he | he
    · subst he
      have h0 : lost = 0 := by simpa using hlost
      subst h0
      rw [← hQ]
      have : (0 : ℚ) < 10 ^ (d.dp - ((read : Int) - 1) - 768) := by positivity
      simp only [Nat.add_zero, Nat.pow_zero, Nat.mul_one]
      linarith
    · have : d.dp - ((read : Int) - 1) - 768 = (e : Int) + (d.dp - ((read : Int) - 1) - (out.length + e : Nat)) := by
        rw [he]; push_cast; ring
      rw [this, zpow_add₀ h10, zpow_natCast, ← add_mul]
      apply mul_lt_mul_of_pos_right _ hg
      exact_mod_cast (show Q < num10 out * 10 ^ e + 10 ^ e by omega)
  · rw [ttrunc, tval, hoval, hdval]
    dsimp only
    rw [htr]
    refine congrArg (d.truncated || ·) ?_
    rw [Bool.eq_iff_iff, decide_eq_true_eq, decide_eq_true_eq]
    refine not_congr ?_
    rw [mul_left_inj' (ne_of_gt hg), Nat.cast_inj]
    omega

end Musli.Dec2Flt
