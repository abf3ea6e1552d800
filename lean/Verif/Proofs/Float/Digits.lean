import Verif.Model.Dec2Flt.Slow
import Verif.Proofs.Float.Round
/-!
# Lists of decimal digits
-/
set_option linter.unusedSectionVars false
namespace Musli.Dec2Flt

/-- The natural number written with the given digits. -/
def num10 : List Nat → Nat
  | [] => 0
  | d :: ds => d * 10 ^ ds.length + num10 ds

theorem num10_append (a b : List Nat) : num10 (a ++ b) = num10 a * 10 ^ b.length + num10 b := by
  induction a with
  | nil => simp [num10]
  | cons d a ih =>
    simp only [List.cons_append, num10, ih, List.length_append, Nat.pow_add]
    ring

theorem num10_lt {ds : List Nat} (h : ∀ d ∈ ds, d < 10) : num10 ds < 10 ^ ds.length := by
  induction ds with
  | nil => simp [num10]
  | cons d ds ih =>
    have h1 := h d (by simp)
    have h2 := ih (fun x hx => h x (by simp [hx]))
    simp only [num10, List.length_cons, Nat.pow_succ]
    have : d * 10 ^ ds.length ≤ 9 * 10 ^ ds.length := Nat.mul_le_mul_right _ (by omega)
    omega

theorem num10_ge {ds : List Nat} (hne : ds ≠ []) (h : 1 ≤ ds.headD 0) : 10 ^ (ds.length - 1) ≤ num10 ds := by
  cases ds with
  | nil => exact absurd rfl hne
  | cons d ds =>
    simp only [List.headD_cons] at h
    simp only [List.length_cons, Nat.add_sub_cancel, num10]
    have : 1 * 10 ^ ds.length ≤ d * 10 ^ ds.length := Nat.mul_le_mul_right _ h
    omega

theorem dropZeros_spec (l : List Nat) : ∃ z, l = List.replicate z 0 ++ Decimal.dropZeros l ∧
    (Decimal.dropZeros l).head? ≠ some 0 := by
  induction l with
  | nil => exact ⟨0, by simp [Decimal.dropZeros]⟩
  | cons d ds ih =>
    cases d with
    | zero =>
      obtain ⟨z, h1, h2⟩ := ih
      refine ⟨z + 1, ?_, ?_⟩
      · simp only [Decimal.dropZeros, List.replicate_succ, List.cons_append]; rw [← h1]
      · simpa [Decimal.dropZeros] using h2
    | succ n => exact ⟨0, by simp [Decimal.dropZeros], by simp [Decimal.dropZeros]⟩

/-- The digits without the zeros at the end. -/
theorem trim_digits (l : List Nat) : ∃ z, l = (Decimal.dropZeros l.reverse).reverse ++ List.replicate z 0 ∧
    ((Decimal.dropZeros l.reverse).reverse).getLast? ≠ some 0 := by
  obtain ⟨z, h1, h2⟩ := dropZeros_spec l.reverse
  refine ⟨z, ?_, ?_⟩
  · have := congrArg List.reverse h1
    simpa using this
  · simpa [List.getLast?_reverse] using h2

theorem num10_replicate_zero (z : Nat) : num10 (List.replicate z 0) = 0 := by
  induction z with
  | zero => rfl
  | succ z ih => simp [List.replicate_succ, num10, ih]

/-- What holds of the decimals of the slow path: the digits in use, the first of them
not zero. -/
structure Decimal.Ok (d : Decimal) : Prop where
  num : d.num = d.digits.length
  max : d.num ≤ 768
  dig : ∀ x ∈ d.digits, x < 10
  ne : d.digits ≠ []
  head : 1 ≤ d.digits.headD 0

/-- The number a decimal stands for, if nothing has been cut off. -/
def Decimal.val (d : Decimal) : ℚ := num10 d.digits * 10 ^ (d.dp - d.num)

/-- Numbers which can be compared with a decimal without rounding: `a * 2 ^ i` has at
most 768 digits. -/
def Decimal.Trimmed (d : Decimal) : Prop := d.digits.getLast? ≠ some 0

theorem Decimal.Ok.pos {d : Decimal} (h : d.Ok) : 1 ≤ d.num := by
  rw [h.num]; exact List.length_pos_iff.2 h.ne

theorem Decimal.Ok.lt {d : Decimal} (h : d.Ok) : d.val < 10 ^ d.dp := by
  unfold Decimal.val
  have h1 : (num10 d.digits : ℚ) < 10 ^ d.num := by
    rw [h.num]; exact_mod_cast num10_lt h.dig
  have : (10 : ℚ) ^ d.dp = 10 ^ d.num * 10 ^ (d.dp - d.num) := by
    rw [← zpow_natCast, ← zpow_add₀ (by norm_num)]; congr 1; ring
  rw [this]
  exact mul_lt_mul_of_pos_right h1 (by positivity)

theorem Decimal.Ok.ge {d : Decimal} (h : d.Ok) : (10 : ℚ) ^ (d.dp - 1) ≤ d.val := by
  unfold Decimal.val
  have hp := h.pos
  have h1 : (10 : ℚ) ^ (d.num - 1) ≤ num10 d.digits := by
    rw [h.num]; exact_mod_cast num10_ge h.ne h.head
  have : (10 : ℚ) ^ (d.dp - 1) = 10 ^ (d.num - 1) * 10 ^ (d.dp - d.num) := by
    rw [← zpow_natCast, ← zpow_add₀ (by norm_num), Nat.cast_sub hp]; congr 1; push_cast; ring
  rw [this]
  exact mul_le_mul_of_nonneg_right h1 (by positivity)

theorem Decimal.Ok.val_pos {d : Decimal} (h : d.Ok) : 0 < d.val :=
  lt_of_lt_of_le (by positivity) h.ge

/-- `trim` keeps the number. -/
theorem trim_spec {d : Decimal} (h : d.Ok) : d.trim.Ok ∧ d.trim.val = d.val ∧ d.trim.Trimmed ∧
    d.trim.dp = d.dp ∧ d.trim.truncated = d.truncated := by
  obtain ⟨z, hz, hl⟩ := trim_digits d.digits
  have htake : d.digits.take d.num = d.digits := by rw [h.num, List.take_length]
  have ht : d.trim = { d with num := ((Decimal.dropZeros d.digits.reverse).reverse).length, digits := (Decimal.dropZeros d.digits.reverse).reverse } := by
    unfold Decimal.trim; rw [htake]
  rw [ht]
  generalize (Decimal.dropZeros d.digits.reverse).reverse = ds at *
  have hlen : d.digits.length = ds.length + z := by rw [hz]; simp
  have hne : ds ≠ [] := by
    intro h0
    have hh := h.head
    rw [hz, h0] at hh
    cases z <;> simp [List.replicate_succ] at hh
  refine ⟨⟨rfl, ?_, ?_, hne, ?_⟩, ?_, hl, rfl, rfl⟩
  · have := h.max; have := h.num; dsimp only; omega
  · intro x hx; exact h.dig x (by rw [hz]; simp at hx ⊢; exact Or.inl hx)
  · have hh := h.head
    rw [hz] at hh
    cases ds with
    | nil => exact absurd rfl hne
    | cons a l => simpa using hh
  · unfold Decimal.val
    dsimp only
    rw [hz, num10_append, num10_replicate_zero, h.num, hlen]
    simp only [List.length_replicate, add_zero]
    push_cast
    rw [mul_assoc, ← zpow_natCast, ← zpow_add₀ (by norm_num)]
    congr 2; ring

/-- The comparison of digit lists compares the fractions they stand for. -/
theorem compareDigits_spec (v : Nat) : ∀ (ds ps : List Nat), (∀ x ∈ ds, x < 10) → (∀ x ∈ ps, x < 10) →
    ps.getLast? ≠ some 0 →
    Decimal.compareDigits v ds ps =
      if num10 ps * 10 ^ ds.length ≤ num10 ds * 10 ^ ps.length then v else v - 1
  | ds, [], _, _, _ => by simp [Decimal.compareDigits, num10]
  | [], p :: ps, _, hp, hl => by
    have hpos : 0 < num10 (p :: ps) := by
      rcases Nat.eq_zero_or_pos (num10 (p :: ps)) with h0 | h0
      · exfalso
        obtain ⟨init, last, hil⟩ : ∃ init last, p :: ps = init ++ [last] :=
          ⟨(p :: ps).dropLast, (p :: ps).getLast (by simp), by rw [List.dropLast_append_getLast]⟩
        rw [hil, num10_append] at h0
        rw [hil] at hl
        simp [num10] at h0 hl
        omega
      · exact h0
    simp only [Decimal.compareDigits]
    rw [if_neg]
    simp [num10] at hpos ⊢
    omega
  | d :: ds, p :: ps, hd, hp, hl => by
    have hd1 := hd d (by simp)
    have hp1 := hp p (by simp)
    have hds : ∀ x ∈ ds, x < 10 := fun x hx => hd x (by simp [hx])
    have hps : ∀ x ∈ ps, x < 10 := fun x hx => hp x (by simp [hx])
    have hdl := num10_lt hds
    have hpl := num10_lt hps
    simp only [Decimal.compareDigits, num10, List.length_cons, Nat.pow_succ]
    by_cases h : d = p
    · subst h
      rw [if_pos rfl]
      have hl' : ps.getLast? ≠ some 0 := by
        cases ps with
        | nil => simp
        | cons a l => simpa [List.getLast?_cons_cons] using hl
      rw [compareDigits_spec v ds ps hds hps hl']
      congr 1
      apply propext
      generalize 10 ^ ds.length = X at *
      generalize 10 ^ ps.length = Y at *
      generalize num10 ds = A at *
      generalize num10 ps = B at *
      have e1 : (d * Y + B) * (X * 10) = 10 * (d * X * Y) + 10 * (B * X) := by ring
      have e2 : (d * X + A) * (Y * 10) = 10 * (d * X * Y) + 10 * (A * Y) := by ring
      rw [e1, e2]
      omega
    · rw [if_neg h]
      have key : ∀ (a b A B X Y : Nat), A < X → a < b → (a * X + A) * (Y * 10) < (b * Y + B) * (X * 10) ∨ Y = 0 := by
        intro a b A B X Y hA hab
        rcases Nat.eq_zero_or_pos Y with h0 | h0
        · exact Or.inr h0
        left
        have h1 : a * X + A < b * X := by
          have : (a + 1) * X ≤ b * X := Nat.mul_le_mul_right _ hab
          rw [Nat.add_mul] at this; omega
        calc (a * X + A) * (Y * 10) < (b * X) * (Y * 10) := Nat.mul_lt_mul_of_pos_right h1 (by omega)
          _ = (b * Y) * (X * 10) := by ring
          _ ≤ _ := Nat.mul_le_mul_right _ (by omega)
      have hX : 0 < 10 ^ ds.length := Nat.pow_pos (by norm_num)
      have hY : 0 < 10 ^ ps.length := Nat.pow_pos (by norm_num)
      by_cases hlt : d < p
      · rw [if_pos hlt]
        symm
        apply if_neg
        rw [Nat.not_le]
        rcases key d p (num10 ds) (num10 ps) (10 ^ ds.length) (10 ^ ps.length) hdl hlt with h | h
        · exact h
        · omega
      · rw [if_neg hlt]
        symm
        apply if_pos
        rcases key p d (num10 ps) (num10 ds) (10 ^ ps.length) (10 ^ ds.length) hpl (by omega) with h | h
        · exact Nat.le_of_lt h
        · omega

/-- An entry of the table of shifts: how many digits are new, and the digits of the
power of five. -/
def shiftEntry (k : Nat) : Nat × List Nat :=
  (shiftTable[k]! >>> 11, (pow5Table.drop (0x7FF &&& shiftTable[k]!)).take
    ((0x7FF &&& shiftTable[k + 1]!) - (0x7FF &&& shiftTable[k]!)))

def shiftEntryOk (k : Nat) : Bool :=
  let (v, p) := shiftEntry k
  num10 p == 5 ^ k && p.all (· < 10) && decide (1 ≤ p.headD 0) && p.getLast? != some 0 && v + p.length == k + 1

set_option maxRecDepth 100000 in
theorem shiftTable_ok : ∀ k < 61, 1 ≤ k → shiftEntryOk k = true := by decide +kernel

/-- The number of digits of the shifted number. -/
theorem numNewDigits_spec {ds : List Nat} {k : Nat} (hk1 : 1 ≤ k) (hk : k ≤ 60) (hd : ∀ x ∈ ds, x < 10)
    (hne : ds ≠ []) (hh : 1 ≤ ds.headD 0) :
    num10 ds * 2 ^ k < 10 ^ (ds.length + Decimal.numNewDigits ds k) ∧
    10 ^ (ds.length + Decimal.numNewDigits ds k - 1) ≤ num10 ds * 2 ^ k := by
  have hok := shiftTable_ok k (by omega) hk1
  have hnn : Decimal.numNewDigits ds k = Decimal.compareDigits (shiftEntry k).1 ds (shiftEntry k).2 := by
    unfold Decimal.numNewDigits shiftEntry
    simp only [Nat.mod_eq_of_lt (show k < 64 by omega)]
  rw [hnn]
  unfold shiftEntryOk at hok
  generalize shiftEntry k = e at *
  obtain ⟨v, p⟩ := e
  simp only [Bool.and_eq_true, beq_iff_eq, decide_eq_true_eq, bne_iff_ne, List.all_eq_true] at hok
  obtain ⟨⟨⟨⟨h5, hp⟩, hph⟩, hpl⟩, hv⟩ := hok
  have hp' : ∀ x ∈ p, x < 10 := fun x hx => by simpa using hp x hx
  rw [compareDigits_spec v ds p hd hp' hpl]
  have hpne : p ≠ [] := by
    intro h; rw [h] at hph; simp at hph
  have n1 := num10_lt hd
  have n2 := num10_ge hne hh
  have p1 := num10_lt hp'
  have p2 := num10_ge hpne hph
  have hn1 : 1 ≤ ds.length := List.length_pos_iff.2 hne
  have hp1 : 1 ≤ p.length := List.length_pos_iff.2 hpne
  have h10 : 2 ^ k * num10 p = 10 ^ k := by rw [h5, ← Nat.mul_pow]
  have hppos : 0 < num10 p := lt_of_lt_of_le (Nat.pow_pos (by norm_num)) p2
  generalize num10 ds = N at *
  generalize num10 p = P at *
  generalize ds.length = n at *
  generalize p.length = l at *
  have hP0 : 0 < 2 ^ k := Nat.two_pow_pos k
  -- multiply by the power of five
  have red1 : ∀ e, N * 10 ^ k < 10 ^ e * P → N * 2 ^ k < 10 ^ e := by
    intro e h
    rw [← h10, ← Nat.mul_assoc] at h
    exact Nat.lt_of_mul_lt_mul_right h
  have red2 : ∀ e, 10 ^ e * P ≤ N * 10 ^ k → 10 ^ e ≤ N * 2 ^ k := by
    intro e h
    rw [← h10, ← Nat.mul_assoc] at h
    exact Nat.le_of_mul_le_mul_right h hppos
  split
  · rename_i hc
    constructor
    · apply red1
      calc N * 10 ^ k < 10 ^ n * 10 ^ k := Nat.mul_lt_mul_of_pos_right n1 (Nat.pow_pos (by norm_num))
        _ = 10 ^ (n + v) * 10 ^ (l - 1) := by rw [← Nat.pow_add, ← Nat.pow_add]; congr 1; omega
        _ ≤ _ := Nat.mul_le_mul_left _ p2
    · apply red2
      have h1 : (10 ^ (n + v - 1) * P) * 10 ^ l ≤ (N * 10 ^ k) * 10 ^ l := by
        calc (10 ^ (n + v - 1) * P) * 10 ^ l = P * 10 ^ n * 10 ^ k := by
              rw [show P * 10 ^ n * 10 ^ k = P * 10 ^ (n + k) by rw [Nat.pow_add]; ring,
                show n + k = (n + v - 1) + l by omega, Nat.pow_add]; ring
          _ ≤ N * 10 ^ l * 10 ^ k := Nat.mul_le_mul_right _ hc
          _ = _ := by ring
      exact Nat.le_of_mul_le_mul_right h1 (Nat.pow_pos (by norm_num))
  · rename_i hc
    rw [Nat.not_le] at hc
    have hv1 : 1 ≤ v := by
      have : 10 ^ (l - 1) < 10 ^ k := by
        calc 10 ^ (l - 1) ≤ P := p2
          _ < 2 ^ k * P := by
            have : 2 ^ 1 ≤ 2 ^ k := Nat.pow_le_pow_right (by norm_num) hk1
            nlinarith
          _ = _ := h10
      have := (Nat.pow_lt_pow_iff_right (by norm_num)).1 this
      omega
    constructor
    · apply red1
      have h1 : (N * 10 ^ k) * 10 ^ l < (10 ^ (n + (v - 1)) * P) * 10 ^ l := by
        calc (N * 10 ^ k) * 10 ^ l = N * 10 ^ l * 10 ^ k := by ring
          _ < P * 10 ^ n * 10 ^ k := Nat.mul_lt_mul_of_pos_right hc (Nat.pow_pos (by norm_num))
          _ = P * 10 ^ (n + k) := by rw [Nat.pow_add]; ring
          _ = _ := by rw [show n + k = (n + (v - 1)) + l by omega, Nat.pow_add]; ring
      exact Nat.lt_of_mul_lt_mul_right h1
    · apply red2
      calc 10 ^ (n + (v - 1) - 1) * P ≤ 10 ^ (n + (v - 1) - 1) * 10 ^ l := Nat.mul_le_mul_left _ (by omega)
        _ = 10 ^ (n - 1) * 10 ^ k := by rw [← Nat.pow_add, ← Nat.pow_add]; congr 1; omega
        _ ≤ _ := Nat.mul_le_mul_right _ n2

end Musli.Dec2Flt
