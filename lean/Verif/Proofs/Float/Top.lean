import Verif.Proofs.Float.Reject
import Verif.Proofs.Float.ReadDecimal
import Verif.Proofs.Float.Fast
import Verif.Model.Dec2Flt.Main
/-!
# From text to floats
-/
set_option linter.unusedSectionVars false
namespace Musli.Dec2Flt
open Musli.Spec.Float

/-- What is used of the constants of a float type. -/
structure LawfulAll (R : RawFloat) where
  s : Nat
  lemire : Lawful R s
  fast : LawfulFast R
  slow : LawfulSlow R

def lawfulAll64 : LawfulAll rawF64 := ⟨_, lawful64, lawfulFast64, lawfulSlow64⟩
def lawfulAll32 : LawfulAll rawF32 := ⟨_, lawful32, lawfulFast32, lawfulSlow32⟩

variable {R : RawFloat}

theorem slowPaths_spec (L : LawfulAll R) (l : Literal) {rest : Bytes} (h : l.Ends rest) {n : Number}
    (hn : n.mantissa < 10 ^ 19)
    (h1 : n.manyDigits = false → readValue l = n.mantissa * 10 ^ n.exponent)
    (h2 : n.manyDigits = true → n.mantissa * 10 ^ n.exponent ≤ readValue l ∧
      readValue l < ((n.mantissa + 1 : Nat) : ℚ) * 10 ^ n.exponent) :
    ∃ fp, slowPaths R (l.text ++ rest) n = some fp ∧ R.fmt.Nearest (readValue l) (biasedFpToFloat R fp) := by
  obtain ⟨fp, e1, e2⟩ := computeFloat_correct L.lemire n.exponent (w := n.mantissa) (by omega)
  have hlong : ∃ fp, parseLongMantissa R (l.text ++ rest) = some fp ∧ R.fmt.Nearest (readValue l) (biasedFpToFloat R fp) := by
    obtain ⟨d, g1, g2⟩ := parseDecimal_spec l h
    obtain ⟨fp, i1, -, i2⟩ := slowDecimal_spec L.slow g2
    exact ⟨fp, by rw [parseLongMantissa, g1]; exact i1, i2⟩
  unfold slowPaths
  simp only [e1, Option.bind_eq_bind, Option.bind_some]
  by_cases hm : n.manyDigits = true ∧ fp.e ≥ 0
  · rw [if_pos hm]
    obtain ⟨fp', e1', e2'⟩ := computeFloat_correct L.lemire n.exponent (w := n.mantissa + 1) (by omega)
    rw [u64, if_pos (by omega)]
    simp only [Option.bind_some, e1']
    by_cases heq : fp = fp'
    · subst heq
      simp only [ne_eq, not_true_eq_false, if_false]
      rw [if_neg (by omega)]
      obtain ⟨a, b⟩ := h2 hm.1
      exact ⟨fp, rfl, R.fmt.nearest_between (e2 hm.2) (e2' hm.2) a (le_of_lt b)⟩
    · simp only [ne_eq, heq, not_false_eq_true, if_true]
      rw [if_pos (by norm_num)]
      exact hlong
  · rw [if_neg hm]
    split
    · exact hlong
    · rename_i hneg
      have hmany : n.manyDigits = false := by
        cases hmd : n.manyDigits with
        | false => rfl
        | true => exact absurd ⟨hmd, by omega⟩ hm
      exact ⟨fp, rfl, by rw [h1 hmany]; exact e2 (by omega)⟩

/-- What `dec2flt` makes of a literal. -/
theorem dec2flt_read (L : LawfulAll R) (l : Signed) {rest : Bytes} (h : l.lit.Ends rest) :
    ∃ b, R.fmt.Nearest (readValue l.lit) b ∧ dec2flt R (l.text ++ rest) =
      some (some (if l.sign = some true then R.neg b else b, l.text.length)) := by
  -- after the sign
  have key : ∀ (neg : Bool) (count : Nat), ∃ b, R.fmt.Nearest (readValue l.lit) b ∧
      (do
        match ← parsePartialNumber (l.lit.text ++ rest) with
        | none =>
          match parseInfNan (l.lit.text ++ rest) with
          | none => some none
          | some (sp, rest) =>
            let f := match sp with
              | .inf => R.fmt.inf
              | .nan => R.fmt.nan
            some (some (if neg then R.neg f else f, count + rest))
        | some (num, r) =>
          let num := { num with negative := neg }
          match ← num.tryFastPath R with
          | some value => some (some (value, count + r))
          | none => do
            let fp ← slowPaths R (l.lit.text ++ rest) num
            some (some (if neg then R.neg (biasedFpToFloat R fp) else biasedFpToFloat R fp, count + r)) : Option (Option (Nat × Nat))) =
      some (some (if neg then R.neg b else b, count + l.lit.text.length)) := by
    intro neg count
    obtain ⟨n, h1, -, h2, h3, h4⟩ := parsePartialNumber_spec l.lit h
    rw [h1]
    simp only [Option.bind_eq_bind, Option.bind_some]
    obtain ⟨r, g1, g2⟩ := tryFastPath_correct L.fast { n with negative := neg }
    rw [g1]
    cases r with
    | some v =>
      obtain ⟨i1, b, i2, i3⟩ := g2 v rfl
      refine ⟨b, ?_, ?_⟩
      · rw [h3 i1]; exact i2
      · simp only [Option.bind_some, i3]
    | none =>
      simp only [Option.bind_some]
      obtain ⟨fp, i1, i2⟩ := slowPaths_spec L l.lit h (n := { n with negative := neg }) h2 h3 h4
      exact ⟨_, i2, by rw [i1]; rfl⟩
  have hne : l.lit.text ++ rest ≠ [] := by
    intro h0
    have h0 := (List.append_eq_nil_iff.1 h0).1
    have hl := congrArg List.length h0
    have hi := l.lit.nonempty
    unfold Literal.text at hl
    cases hf : l.lit.frac with
    | none =>
      rw [hf] at hl hi
      simp [digitsText] at hl
      simp [hl] at hi
    | some f => rw [hf] at hl; simp at hl
  obtain ⟨sign, lit⟩ := l
  simp only [Signed.text] at key hne ⊢
  match sign with
  | some true =>
    obtain ⟨b, k1, k2⟩ := key true 1
    refine ⟨b, k1, ?_⟩
    simp only [Signed.signText, List.cons_append, List.nil_append, dec2flt, beq_self_eq_true, Bool.true_or, if_true]
    rw [if_neg hne]
    simp only [List.length_cons, if_true, Nat.add_comm lit.text.length 1] at k2 ⊢
    exact k2
  | some false =>
    obtain ⟨b, k1, k2⟩ := key false 1
    refine ⟨b, k1, ?_⟩
    simp only [Signed.signText, List.cons_append, List.nil_append, dec2flt, beq_self_eq_true, Bool.or_true, if_true,
      show ((0x2B#8 : Byte) == 0x2D#8) = false from rfl, Bool.false_eq_true, if_false]
    rw [if_neg hne]
    simp only [List.length_cons, Bool.false_eq_true, if_false, Nat.add_comm lit.text.length 1, Option.some.injEq] at k2 ⊢
    exact k2
  | none =>
    obtain ⟨b, k1, k2⟩ := key false 0
    refine ⟨b, k1, ?_⟩
    simp only [Signed.signText, List.nil_append]
    cases hs : lit.text ++ rest with
    | nil => exact absurd hs hne
    | cons c t =>
      have hc : (c == 0x2D#8) = false ∧ (c == 0x2B#8) = false := by
        have hhead : digitOf c < 10 ∨ c = 0x2E#8 := by
          rw [text_eq] at hs
          cases hi : lit.int with
          | cons d i =>
            left
            rw [hi] at hs
            simp only [vals, chars, List.map_cons, List.cons_append, List.cons.injEq] at hs
            rw [← hs.1, digitOf_char d.isLt]; exact d.isLt
          | nil =>
            rw [hi] at hs
            cases hf : lit.frac with
            | none => exact absurd (by rw [hi, hf]; rfl) lit.nonempty
            | some f =>
              right
              simp [vals, chars, tail, hf] at hs
              exact hs.1.symm
        rcases hhead with hd | rfl
        · exact (by decide +kernel : ∀ c : Byte, digitOf c < 10 → (c == 0x2D#8) = false ∧ (c == 0x2B#8) = false) c hd
        · decide
      rw [hs] at k2
      simp only [dec2flt, hc.1, hc.2, Bool.or_self, Bool.false_eq_true, if_false]
      rw [if_neg (by simp)]
      simp only [Nat.zero_add, Bool.false_eq_true, if_false, reduceCtorEq] at k2 ⊢
      exact k2

/-- Either the exponent is read exactly or it is so large that it decides the result. -/
theorem nearest_value (L : LawfulSlow R) (l : Literal)
    (h : l.exponent.natAbs < 655360 ∨ l.digits.length ≤ 65000) {b : Nat} :
    R.fmt.Nearest (readValue l) b → R.fmt.Nearest l.value b := by
  intro hb
  by_cases hsame : satExp l = l.exponent
  · have : readValue l = l.value := by
      unfold readValue Literal.value
      rw [hsame, digitsValue_eq]
    rwa [← this]
  -- the exponent is too large
  cases he : l.exp with
  | none => exact absurd (by simp [satExp, he, Literal.exponent]) hsame
  | some e =>
    have hexp : l.exponent = if e.sign = some true then -(num10 (vals e.digits) : Int) else num10 (vals e.digits) := by
      simp [Literal.exponent, he, Exponent.value, digitsValue_eq]
    have hsat : satExp l = if e.sign = some true then -satNat (vals e.digits) else satNat (vals e.digits) := by
      simp [satExp, he]
    rcases satNat_spec (vals e.digits) with hs | ⟨hs1, hs2⟩
    · exact absurd (by rw [hexp, hsat, hs]) hsame
    have hlen : l.digits.length ≤ 65000 := by
      refine h.resolve_left fun hlt => ?_
      rw [hexp] at hlt
      split at hlt <;> omega
    have hfl : (l.frac.getD []).length ≤ l.digits.length := by simp [Literal.digits]
    by_cases hz : num10 (vals l.digits) = 0
    · have h1 : readValue l = 0 := by simp [readValue, hz]
      have h2 : l.value = 0 := by simp [Literal.value, digitsValue_eq, hz]
      rwa [h2, ← h1]
    have hM1 : (1 : ℚ) ≤ num10 (vals l.digits) := by exact_mod_cast Nat.one_le_iff_ne_zero.2 hz
    have hM2 : (num10 (vals l.digits) : ℚ) < 10 ^ l.digits.length := by
      have := num10_lt (vals_lt l.digits)
      rw [vals_length] at this
      exact_mod_cast this
    have hval : l.value = num10 (vals l.digits) * 10 ^ (l.exponent - ((l.frac.getD []).length : Int)) := by
      rw [Literal.value, digitsValue_eq]
    by_cases hneg : e.sign = some true
    · rw [if_pos hneg] at hexp hsat
      have small : ∀ E : Int, E ≤ -65536 →
          R.fmt.Nearest (num10 (vals l.digits) * 10 ^ (E - ((l.frac.getD []).length : Int))) 0 := by
        intro E hE
        apply R.fmt.nearest_zero
        have h1 : (num10 (vals l.digits) : ℚ) * 10 ^ (E - ((l.frac.getD []).length : Int)) ≤ 10 ^ (-325 : Int) := by
          have hp : (0 : ℚ) < 10 ^ (E - ((l.frac.getD []).length : Int)) := by positivity
          refine (mul_le_mul_of_nonneg_right (le_of_lt hM2) (le_of_lt hp)).trans ?_
          rw [← zpow_natCast, ← zpow_add₀ (by norm_num)]
          exact zpow_le_zpow_right₀ (by norm_num) (by omega)
        have := L.zero
        linarith
      have h1 := small (satExp l) (by omega)
      have h2 := small l.exponent (by omega)
      have := R.fmt.nearest_unique hb h1
      rw [hval, this]; exact h2
    · rw [if_neg hneg] at hexp hsat
      have large : ∀ E : Int, 65536 ≤ E →
          R.fmt.Nearest (num10 (vals l.digits) * 10 ^ (E - ((l.frac.getD []).length : Int))) R.fmt.inf := by
        intro E hE
        apply R.fmt.nearest_inf
        refine L.big.trans ?_
        have hp : (0 : ℚ) < 10 ^ (E - ((l.frac.getD []).length : Int)) := by positivity
        refine le_trans ?_ (mul_le_mul_of_nonneg_right hM1 (le_of_lt hp))
        rw [one_mul]
        exact zpow_le_zpow_right₀ (by norm_num) (by omega)
      have h1 := large (satExp l) (by omega)
      have h2 := large l.exponent (by omega)
      have := R.fmt.nearest_unique hb h1
      rw [hval, this]; exact h2

/-- The sign bit. -/
theorem neg_eq (F : Format) (hF : F.inf < F.sign) {b : Nat} (hb : b ≤ F.inf) : b ^^^ F.sign = F.sign + b := by
  have h : b < 2 ^ (F.expBits + F.mant) := lt_of_le_of_lt hb hF
  unfold Format.sign
  apply Nat.eq_of_testBit_eq
  intro i
  rw [Nat.testBit_xor]
  rw [show 2 ^ (F.expBits + F.mant) + b = 2 ^ (F.expBits + F.mant) * 1 + b by ring, Nat.testBit_two_pow_mul_add _ h]
  rw [Nat.testBit_two_pow]
  split
  · rename_i hlt
    rw [show decide (F.expBits + F.mant = i) = false by simp; omega, Bool.xor_false]
  · rename_i hge
    have : b.testBit i = false := Nat.testBit_lt_two_pow (lt_of_lt_of_le h (Nat.pow_le_pow_right (by norm_num) (by omega)))
    rw [this]
    simp only [Bool.false_xor]
    by_cases hi : F.expBits + F.mant = i
    · simp [hi]
    · simp only [hi, decide_false]
      obtain ⟨k, hk⟩ : ∃ k, i - (F.expBits + F.mant) = k + 1 := ⟨i - (F.expBits + F.mant) - 1, by omega⟩
      rw [hk, Nat.testBit_succ]; simp

end Musli.Dec2Flt
