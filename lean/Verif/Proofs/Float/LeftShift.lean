import Verif.Proofs.Float.Digits
/-!
# Multiplying a decimal by a power of two
-/
set_option linter.unusedSectionVars false
namespace Musli.Dec2Flt

/-- The result of a shift: the exact product, cut off behind 768 digits, with a note
whether something has been lost. -/
structure Shifted (d d' : Decimal) (s : Int) : Prop where
  ok : d'.Ok
  trimmed : d'.Trimmed
  le : d'.val ≤ d.val * 2 ^ s
  lt : d.val * 2 ^ s < d'.val + 10 ^ (d'.dp - 768)
  trunc : d'.truncated = (d.truncated || decide (d'.val ≠ d.val * 2 ^ s))

/-- The digits written so far, from the right: `low` is their value, `m` their number,
those beyond the first 768 positions are not kept. -/
structure Emitted (W : Nat) (t0 : Bool) (m low : Nat) (out : List Nat) (t : Bool) : Prop where
  dig : ∀ x ∈ out, x < 10
  len : out.length = m - (W - 768)
  val : num10 out = low / 10 ^ (W - 768)
  lt : low < 10 ^ m
  trunc : t = (t0 || decide (low % 10 ^ (W - 768) ≠ 0))

theorem Emitted.put {W m low : Nat} {t0 t : Bool} {out : List Nat} (h : Emitted W t0 m low out t) (n : Nat)
    (hm : m < W) : ∃ out' t', Decimal.put (W - m) n out t = some (W - (m + 1), out', t') ∧
      Emitted W t0 (m + 1) (n % 10 * 10 ^ m + low) out' t' := by
  obtain ⟨w, hw⟩ : ∃ w, W - m = w + 1 := ⟨W - m - 1, by omega⟩
  have hr : n - 10 * (n / 10) = n % 10 := by omega
  have hdig : n % 10 < 10 := Nat.mod_lt _ (by norm_num)
  have hlow : n % 10 * 10 ^ m + low < 10 ^ (m + 1) := by
    have := h.lt
    rw [Nat.pow_succ]
    have : n % 10 * 10 ^ m ≤ 9 * 10 ^ m := Nat.mul_le_mul_right _ (by omega)
    omega
  rw [hw]
  simp only [Decimal.put, maxDigits, hr]
  have hwm : w = W - (m + 1) := by omega
  generalize n % 10 = e at *
  by_cases hc : w < 768
  · rw [if_pos hc, hwm]
    refine ⟨_, _, rfl, ?_⟩
    have hcm : W - 768 ≤ m := by omega
    obtain ⟨j, hj⟩ : ∃ j, m = (W - 768) + j := ⟨m - (W - 768), by omega⟩
    generalize hcd : W - 768 = c at *
    have hpow : 10 ^ m = 10 ^ c * 10 ^ j := by rw [hj, Nat.pow_add]
    have hl := h.len
    have hv := h.val
    rw [hcd] at hl hv
    refine ⟨?_, ?_, ?_, hlow, ?_⟩
    · intro x hx
      rcases List.mem_cons.1 hx with h1 | h1
      · omega
      · exact h.dig x h1
    · simp only [List.length_cons, hl]; omega
    · rw [hcd]
      simp only [num10, hl, hv]
      rw [show m - c = j by omega, hpow, show e * (10 ^ c * 10 ^ j) + low = low + 10 ^ c * (e * 10 ^ j) by ring,
        Nat.add_mul_div_left _ _ (Nat.pow_pos (by norm_num))]
      ring
    · have ht := h.trunc
      rw [hcd] at ht
      rw [ht, hcd, hpow, show e * (10 ^ c * 10 ^ j) + low = low + 10 ^ c * (e * 10 ^ j) by ring,
        Nat.add_mul_mod_self_left]
  · rw [if_neg hc, hwm]
    refine ⟨_, _, rfl, ?_⟩
    have hcm : m + 1 ≤ W - 768 := by omega
    generalize hcd : W - 768 = c at *
    have hle : 10 ^ (m + 1) ≤ 10 ^ c := Nat.pow_le_pow_right (by norm_num) hcm
    have hl := h.len
    have hv := h.val
    have ht := h.trunc
    have hlt := h.lt
    rw [hcd] at hl hv ht
    have hle2 : 10 ^ m ≤ 10 ^ c := Nat.pow_le_pow_right (by norm_num) (by omega)
    refine ⟨h.dig, ?_, ?_, hlow, ?_⟩
    · rw [hl]; omega
    · rw [hv, hcd, Nat.div_eq_of_lt (by omega), Nat.div_eq_of_lt (by omega)]
    · rw [ht, hcd, Nat.mod_eq_of_lt (show low < 10 ^ c by omega), Nat.mod_eq_of_lt (show _ < 10 ^ c from lt_of_lt_of_le hlow hle)]
      have hp : 0 < 10 ^ m := Nat.pow_pos (by norm_num)
      rw [Bool.or_assoc]
      refine congrArg (t0 || ·) ?_
      rw [Bool.eq_iff_iff]
      simp only [Bool.or_eq_true, decide_eq_true_eq]
      constructor
      · rintro (h1 | h1)
        · omega
        · have := Nat.mul_pos h1 hp
          omega
      · intro h1
        by_cases he : e = 0
        · subst he; left; omega
        · right; omega

/-- The first loop: the digits from the right, times the power of two. -/
theorem leftLoop_spec {W k : Nat} {t0 : Bool} (hk : k ≤ 60) : ∀ (ds : List Nat) (n m low : Nat) (out : List Nat) (t : Bool),
    Emitted W t0 m low out t → (∀ x ∈ ds, x < 10) → n < 2 ^ k → m + ds.length ≤ W →
    ∃ n' low' out' t', Decimal.leftLoop k ds n (W - m) out t = some (n', W - (m + ds.length), out', t') ∧
      Emitted W t0 (m + ds.length) low' out' t' ∧ n' < 2 ^ k ∧
      n' * 10 ^ (m + ds.length) + low' = (num10 ds.reverse * 2 ^ k + n) * 10 ^ m + low
  | [], n, m, low, out, t, he, _, hn, _ => by
    exact ⟨n, low, out, t, rfl, he, hn, by simp [num10]⟩
  | d :: ds, n, m, low, out, t, he, hd, hn, hW => by
    simp only [List.length_cons] at hW ⊢
    have hd1 := hd d (by simp)
    have hk2 : 2 ^ k ≤ 2 ^ 60 := Nat.pow_le_pow_right (by norm_num) hk
    have hdk : d * 2 ^ k ≤ 9 * 2 ^ k := Nat.mul_le_mul_right _ (by omega)
    have hs : (d <<< k) % 2 ^ 64 = d * 2 ^ k := by
      rw [Nat.shiftLeft_eq, Nat.mod_eq_of_lt]; omega
    simp only [Decimal.leftLoop, hs]
    rw [show u64 (n + d * 2 ^ k) = some (n + d * 2 ^ k) from if_pos (by omega)]
    obtain ⟨out1, t1, hput, he1⟩ := he.put (n + d * 2 ^ k) (by omega)
    simp only [Option.bind_eq_bind, Option.bind_some, hput]
    obtain ⟨n', low', out', t', hrun, he', hn', hval⟩ := leftLoop_spec hk ds ((n + d * 2 ^ k) / 10) (m + 1) _ out1 t1 he1
      (fun x hx => hd x (by simp [hx])) (by omega) (by omega)
    refine ⟨n', low', out', t', ?_, ?_, hn', ?_⟩
    · rw [hrun]; congr 3; omega
    · rw [show m + (ds.length + 1) = m + 1 + ds.length by omega]; exact he'
    · rw [show m + (ds.length + 1) = m + 1 + ds.length by omega, hval]
      simp only [List.reverse_cons, num10_append, num10, List.length_cons, List.length_nil]
      have hdm := Nat.div_add_mod (n + d * 2 ^ k) 10
      generalize (n + d * 2 ^ k) / 10 = q at *
      generalize (n + d * 2 ^ k) % 10 = r at *
      have e : (q * 10 + r) * 10 ^ m = (n + d * 2 ^ k) * 10 ^ m := by rw [← hdm]; ring
      rw [Nat.pow_succ]
      ring_nf at e ⊢
      omega

/-- The second loop: what is carried. -/
theorem carryLoop_spec {W : Nat} {t0 : Bool} : ∀ (fuel n m low : Nat) (out : List Nat) (t : Bool),
    Emitted W t0 m low out t → n < 10 ^ fuel → n * 10 ^ m + low < 10 ^ W → m ≤ W →
    ∃ r out' t', Decimal.carryLoop fuel n (W - m) out t = some (W - (m + r), out', t') ∧
      Emitted W t0 (m + r) (n * 10 ^ m + low) out' t' ∧ m + r ≤ W ∧
      (r = 0 ∨ 10 ^ (m + r - 1) ≤ n * 10 ^ m + low) := by
  intro fuel
  induction fuel with
  | zero =>
    intro n m low out t he hn _ _
    have : n = 0 := by omega
    subst this
    refine ⟨0, out, t, ?_, ?_, by omega, Or.inl rfl⟩
    · unfold Decimal.carryLoop; simp
    · simpa using he
  | succ fuel ih =>
    intro n m low out t he hn hT hmW
    by_cases h0 : n > 0
    · have hmlt : m < W := by
        by_contra hge
        have : 10 ^ W ≤ 10 ^ m := Nat.pow_le_pow_right (by norm_num) (by omega)
        have : 1 * 10 ^ m ≤ n * 10 ^ m := Nat.mul_le_mul_right _ h0
        omega
      unfold Decimal.carryLoop
      rw [if_pos h0]
      obtain ⟨out1, t1, hput, he1⟩ := he.put n hmlt
      simp only [Option.bind_eq_bind, hput, Option.bind_some]
      have hdm := Nat.div_add_mod n 10
      have e : n / 10 * 10 ^ (m + 1) + (n % 10 * 10 ^ m + low) = n * 10 ^ m + low := by
        have : (10 * (n / 10) + n % 10) * 10 ^ m = n * 10 ^ m := by rw [hdm]
        rw [Nat.pow_succ]; ring_nf at this ⊢; omega
      obtain ⟨r, out', t', hrun, he', hW', hr⟩ := ih (n / 10) (m + 1) _ out1 t1 he1
        (by rw [Nat.pow_succ] at hn; omega) (by rw [e]; exact hT) (by omega)
      rw [e] at he' hr
      refine ⟨r + 1, out', t', ?_, ?_, by omega, Or.inr ?_⟩
      · rw [hrun]; congr 2; omega
      · rw [show m + (r + 1) = m + 1 + r by omega]; exact he'
      · rcases hr with h | h
        · subst h
          have : 1 * 10 ^ m ≤ n * 10 ^ m := Nat.mul_le_mul_right _ h0
          simp only [Nat.zero_add, Nat.add_sub_cancel]
          omega
        · rw [show m + (r + 1) - 1 = m + 1 + r - 1 by omega]; exact h
    · have : n = 0 := by omega
      subst this
      refine ⟨0, out, t, ?_, ?_, by omega, Or.inl rfl⟩
      · unfold Decimal.carryLoop; simp
      · simpa using he

theorem headD_of_ge {ds : List Nat} (hd : ∀ x ∈ ds, x < 10) (hne : ds ≠ [])
    (h : 10 ^ (ds.length - 1) ≤ num10 ds) : 1 ≤ ds.headD 0 := by
  cases ds with
  | nil => exact absurd rfl hne
  | cons d ds =>
    simp only [List.headD_cons]
    by_contra h0
    have : d = 0 := by omega
    subst this
    have := num10_lt (ds := ds) (fun x hx => hd x (by simp [hx]))
    simp [num10] at h
    omega

/-- `left_shift` multiplies by a power of two. -/
theorem leftShift_spec {d : Decimal} (h : d.Ok) {k : Nat} (hk1 : 1 ≤ k) (hk : k ≤ 60) :
    ∃ d', d.leftShift k = some d' ∧ Shifted d d' k := by
  have hn0 : d.num ≠ 0 := by have := h.pos; omega
  have htake : d.digits.take d.num = d.digits := by rw [h.num, List.take_length]
  obtain ⟨hnew1, hnew2⟩ := numNewDigits_spec hk1 hk h.dig h.ne h.head
  unfold Decimal.leftShift
  rw [if_neg hn0]
  simp only [htake]
  have hW : d.num + Decimal.numNewDigits d.digits k = d.digits.length + Decimal.numNewDigits d.digits k := by
    rw [h.num]
  generalize hWd : d.num + Decimal.numNewDigits d.digits k = W at *
  rw [← hW] at hnew1 hnew2
  have hnum := h.num
  have hpos := h.pos
  have he0 : Emitted W d.truncated 0 0 [] d.truncated :=
    ⟨by simp, by simp, by simp [num10], by simp, by simp⟩
  obtain ⟨n, low, out1, t1, hrun, he, hn, hval⟩ := leftLoop_spec (W := W) hk d.digits.reverse 0 0 0 [] d.truncated he0
    (fun x hx => h.dig x (by simpa using hx)) (Nat.two_pow_pos k) (by simp; omega)
  simp only [Nat.sub_zero, Nat.zero_add, List.length_reverse, List.reverse_reverse, Nat.add_zero, Nat.pow_zero, Nat.mul_one] at hrun he hval
  rw [hrun]
  simp only [Option.bind_eq_bind, Option.bind_some]
  have hlen768 : 2 ^ k ≤ 2 ^ 60 := Nat.pow_le_pow_right (by norm_num) hk
  obtain ⟨r, out, t, hrun2, he2, hrW, hr⟩ := carryLoop_spec (W := W) 20 n d.digits.length low out1 t1 he
    (by have : (2 ^ 60 : Nat) < 10 ^ 20 := by norm_num
        omega) (by rw [hval]; exact hnew1) (by omega)
  rw [hval] at he2 hr
  rw [hrun2]
  simp only [Option.bind_some]
  generalize hT : num10 d.digits * 2 ^ k = T at *
  -- all digits are written
  have hTpos : 0 < T := lt_of_lt_of_le (Nat.pow_pos (by norm_num)) hnew2
  have hfull : d.digits.length + r = W := by
    have h1 := he2.lt
    have h2 : 10 ^ (W - 1) < 10 ^ (d.digits.length + r) := lt_of_le_of_lt hnew2 h1
    have := (Nat.pow_lt_pow_iff_right (by norm_num)).1 h2
    omega
  rw [hfull] at he2 ⊢
  simp only [Nat.sub_self, List.take_zero, List.nil_append]
  have hmin : min W maxDigits = out.length := by rw [he2.len]; unfold maxDigits; omega
  have hmin2 : min W 768 = out.length := hmin
  rw [hmin]
  have hone : out ≠ [] := by
    intro h0; rw [h0] at hmin2; simp at hmin2; omega
  have hok : Decimal.Ok ⟨out.length, d.dp + Decimal.numNewDigits d.digits k, t, out⟩ := by
    refine ⟨rfl, by dsimp only; omega, he2.dig, hone, ?_⟩
    apply headD_of_ge he2.dig hone
    rw [he2.val, Nat.le_div_iff_mul_le (Nat.pow_pos (by norm_num)), ← Nat.pow_add]
    refine Nat.le_trans (Nat.pow_le_pow_right (by norm_num) ?_) hnew2
    omega
  refine ⟨_, rfl, ?_⟩
  obtain ⟨tok, tval, ttr, tdp, ttrunc⟩ := trim_spec hok
  -- the value before trimming
  generalize hc : W - 768 = c at *
  have hv' : num10 out = T / 10 ^ c := by have := he2.val; rwa [hc] at this
  have hdval : d.val * (2 : ℚ) ^ (k : Int) = T * 10 ^ (d.dp - d.num) := by
    unfold Decimal.val
    rw [← hT, zpow_natCast]; push_cast; ring
  have hexp : d.dp + (Decimal.numNewDigits d.digits k : Int) - (out.length : Int) = (c : Int) + (d.dp - d.num) := by
    omega
  have hoval : Decimal.val ⟨out.length, d.dp + Decimal.numNewDigits d.digits k, t, out⟩
      = ((T / 10 ^ c * 10 ^ c : Nat) : ℚ) * 10 ^ (d.dp - d.num) := by
    unfold Decimal.val
    dsimp only
    rw [hexp, zpow_add₀ (by norm_num), zpow_natCast, hv']; push_cast; ring
  have hg : (0 : ℚ) < 10 ^ (d.dp - d.num) := by positivity
  have hdm := Nat.div_add_mod T (10 ^ c)
  have hml := Nat.mod_lt T (show 0 < 10 ^ c from Nat.pow_pos (by norm_num))
  have hcomm : T / 10 ^ c * 10 ^ c = 10 ^ c * (T / 10 ^ c) := Nat.mul_comm _ _
  refine ⟨tok, ttr, ?_, ?_, ?_⟩
  · rw [tval, hoval, hdval]
    apply mul_le_mul_of_nonneg_right _ (le_of_lt hg)
    exact_mod_cast (show T / 10 ^ c * 10 ^ c ≤ T by omega)
  · rw [tval, hoval, hdval, tdp]
    dsimp only
    by_cases hc0 : c = 0
    · rw [hc0] at hdm hml hcomm ⊢
      have : T / 10 ^ 0 * 10 ^ 0 = T := by omega
      rw [this]
      have : (0 : ℚ) < 10 ^ (d.dp + (Decimal.numNewDigits d.digits k : Int) - 768) := by positivity
      linarith
    · have : d.dp + (Decimal.numNewDigits d.digits k : Int) - 768 = (c : Int) + (d.dp - d.num) := by omega
      rw [this, zpow_add₀ (by norm_num), zpow_natCast, ← add_mul]
      apply mul_lt_mul_of_pos_right _ hg
      exact_mod_cast (show T < T / 10 ^ c * 10 ^ c + 10 ^ c by omega)
  · have ht := he2.trunc
    rw [hc] at ht
    rw [ttrunc, tval, hoval, hdval]
    dsimp only
    rw [ht]
    refine congrArg (d.truncated || ·) ?_
    rw [Bool.eq_iff_iff, decide_eq_true_eq, decide_eq_true_eq]
    have : (((T / 10 ^ c * 10 ^ c : Nat) : ℚ) * 10 ^ (d.dp - d.num) = T * 10 ^ (d.dp - d.num)) ↔ T % 10 ^ c = 0 := by
      rw [mul_left_inj' (ne_of_gt hg), Nat.cast_inj]
      omega
    exact not_congr this.symm

end Musli.Dec2Flt
