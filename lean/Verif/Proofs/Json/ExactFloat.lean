import Verif.Spec.Json.Finite
import Verif.Proofs.Json.Floats
import Verif.Proofs.Json.Numbers
import Verif.Proofs.Float.Fast
/-!
# A writer of floats which meets the requirements for `ryu`

It writes all the digits of the number, which `ryu` does not, and shows that the requirements can be met.
-/
namespace Musli.Json
open Musli Spec Musli.Spec.Float

/-- The digits of a number. -/
def decDigits (n : Nat) : List (Fin 10) := (decimal n).map fun b => ⟨(b.toNat - 0x30) % 10, Nat.mod_lt _ (by decide)⟩

theorem digitsText_digits : ∀ {l : Bytes}, Digits l →
    digitsText (l.map fun b => (⟨(b.toNat - 0x30) % 10, Nat.mod_lt _ (by decide)⟩ : Fin 10)) = l
  | [], _ => rfl
  | b :: l, h => by
    have hb : Digit b := h b (by simp)
    unfold Digit at hb
    have ih := digitsText_digits (l := l) fun c hc => h c (by simp [hc])
    unfold digitsText at ih ⊢
    rw [List.map_cons, List.map_cons, ih]
    congr 1
    apply BitVec.eq_of_toNat_eq
    simp only [BitVec.toNat_ofNat]
    omega

theorem digitsValue_digits : ∀ {l : Bytes} (n : Nat), Digits l →
    (l.map fun b => (⟨(b.toNat - 0x30) % 10, Nat.mod_lt _ (by decide)⟩ : Fin 10)).foldl
      (fun n d => 10 * n + d.val) n = valueFrom n l
  | [], _, _ => rfl
  | b :: l, n, h => by
    have hb : Digit b := h b (by simp)
    unfold Digit at hb
    rw [List.map_cons, List.foldl_cons, digitsValue_digits _ fun c hc => h c (by simp [hc])]
    show _ = valueFrom (n * 10 + (b.toNat - 0x30)) l
    congr 1
    simp only
    omega

theorem decDigits_text (n : Nat) : digitsText (decDigits n) = decimal n :=
  digitsText_digits (decimal_spec n).1

theorem decDigits_value (n : Nat) : digitsValue (decDigits n) = n := by
  have := digitsValue_digits 0 (decimal_spec n).1
  rw [← Spec.value, value_decimal] at this
  exact this

theorem decDigits_ne (n : Nat) : decDigits n ≠ [] := by
  intro h
  have := decDigits_text n
  rw [h] at this
  rcases decimal_numeral n with h | ⟨b, r, h, _⟩ <;> rw [h] at this <;> cases this

/-- The significand and the exponent of bits without sign. -/
def parts (F : Format) (b : Nat) : Nat × Int :=
  if b / 2 ^ F.mant = 0 then (b % 2 ^ F.mant, 1 - F.bias - F.mant)
  else (2 ^ F.mant + b % 2 ^ F.mant, ((b / 2 ^ F.mant : Nat) : Int) - F.bias - F.mant)

theorem parts_value (F : Format) (b : Nat) : F.value b = (parts F b).1 * (2 : ℚ) ^ (parts F b).2 := by
  unfold Format.value parts
  split <;> rfl

/-- The literal for `m * 2 ^ e`: its digits, and an exponent which is not positive. -/
def exactLit (m : Nat) (e : Int) : Literal where
  int := decDigits (m * 2 ^ e.toNat * 5 ^ (-e).toNat)
  frac := none
  exp := some ⟨false, some true, decDigits (-e).toNat, decDigits_ne _⟩
  nonempty := by simp [decDigits_ne]

theorem exactLit_value (m : Nat) (e : Int) : (exactLit m e).value = m * (2 : ℚ) ^ e := by
  have h1 : (exactLit m e).value =
      ((m * 2 ^ e.toNat * 5 ^ (-e).toNat : Nat) : ℚ) * 10 ^ (-((-e).toNat : Int)) := by
    simp [Literal.value, Literal.digits, Literal.exponent, exactLit, Musli.Spec.Float.Exponent.value, decDigits_value]
  rw [h1]
  rcases Int.le_total 0 e with h | h
  · have h2 : (-e).toNat = 0 := by omega
    rw [h2]
    have h3 : (2 : ℚ) ^ e = 2 ^ e.toNat := by
      conv => lhs; rw [← Int.toNat_of_nonneg h]
      exact zpow_natCast _ _
    rw [h3]
    push_cast
    simp
  · have h2 : e.toNat = 0 := by omega
    have h3 : e = -((-e).toNat : Int) := by omega
    rw [h2]
    generalize (-e).toNat = k at *
    subst h3
    push_cast
    rw [zpow_neg, zpow_neg, zpow_natCast, zpow_natCast, show (10 : ℚ) = 2 * 5 by norm_num, mul_pow]
    field_simp

/-- All digits of the number; for the others, the words of `ryu`. -/
def exactText (F : Format) (v : Nat) : Bytes :=
  if v % F.sign < F.inf then
    (⟨if F.sign ≤ v then some true else none, exactLit (parts F (v % F.sign)).1 (parts F (v % F.sign)).2⟩ : Signed).text
  else if v % F.sign = F.inf then (if F.sign ≤ v then [0x2D#8] else []) ++ [0x69#8, 0x6E#8, 0x66#8]
  else [0x4E#8, 0x61#8, 0x4E#8]

theorem exactText_number (neg : Bool) (m : Nat) (e : Int) :
    Number (⟨if neg then some true else none, exactLit m e⟩ : Signed).text := by
  have hne : ∀ n, decimal n ≠ [] := by
    intro n h
    rcases decimal_numeral n with h' | ⟨b, r, h', _⟩ <;> rw [h'] at h <;> cases h
  have h := Number.mk neg (int := decimal (m * 2 ^ e.toNat * 5 ^ (-e).toNat)) (frac := [])
    (exp := 0x65#8 :: ([0x2D#8] ++ decimal (-e).toNat)) (decimal_numeral _) (.inl rfl)
    (.inr ⟨_, [0x2D#8], decimal (-e).toNat, .inl rfl, .inr (.inr rfl), (decimal_spec _).1, hne _, rfl⟩)
  have e1 : (⟨if neg then some true else none, exactLit m e⟩ : Signed).text =
      sign neg ++ (decimal (m * 2 ^ e.toNat * 5 ^ (-e).toNat) ++ ([] ++ 0x65#8 :: ([0x2D#8] ++ decimal (-e).toNat))) := by
    cases neg <;>
    simp [Signed.text, Signed.signText, Literal.text, exactLit, Musli.Spec.Float.Exponent.text, decDigits_text, sign]
  rw [e1]; exact h

theorem exactText_floatText (F : Format) (v : Nat) (hv : v < 2 * F.sign) (hf : FiniteBits F v)
    (he : ∀ b, b < F.inf → (parts F b).2.natAbs < 655360) : FloatText F v (exactText F v) := by
  unfold FiniteBits at hf
  unfold exactText
  rw [if_pos hf]
  refine ⟨?_, ⟨if F.sign ≤ v then some true else none, exactLit (parts F (v % F.sign)).1 (parts F (v % F.sign)).2⟩, rfl,
    .inl ?_, v % F.sign, ?_, ?_⟩
  · have := exactText_number (decide (F.sign ≤ v)) (parts F (v % F.sign)).1 (parts F (v % F.sign)).2
    simpa using this
  · have : (exactLit (parts F (v % F.sign)).1 (parts F (v % F.sign)).2).exponent = -((-(parts F (v % F.sign)).2).toNat : Int) := by
      simp [Literal.exponent, exactLit, Musli.Spec.Float.Exponent.value, decDigits_value]
    have h2 := he _ hf
    show (exactLit (parts F (v % F.sign)).1 (parts F (v % F.sign)).2).exponent.natAbs < 655360
    omega
  · show F.Nearest (exactLit (parts F (v % F.sign)).1 (parts F (v % F.sign)).2).value _
    rw [exactLit_value, ← parts_value]
    exact Musli.Dec2Flt.nearest_self F (le_of_lt hf)
  · by_cases h : F.sign ≤ v
    · simp only [h, if_true]
      rw [Nat.mod_eq_sub_mod h, Nat.mod_eq_of_lt (by omega)]
      omega
    · simp only [h, if_false]
      rw [Nat.mod_eq_of_lt (by omega)]
      simp

/-- The writer, for both types. -/
def exactRyu : Ryu := ⟨fun v => exactText f32 v.toNat, fun v => exactText f64 v.toNat⟩

theorem parts_bound (F : Format) (B : Nat) (hB : F.inf / 2 ^ F.mant ≤ B) (hb : F.bias.natAbs + F.mant + B + 1 < 655360) (b : Nat)
    (h : b < F.inf) : (parts F b).2.natAbs < 655360 := by
  have : b / 2 ^ F.mant ≤ B := le_trans (Nat.div_le_div_right (le_of_lt h)) hB
  unfold parts
  generalize b / 2 ^ F.mant = q at *
  split <;> simp only <;> omega

theorem exactRyu_lawful : RyuLawful exactRyu where
  finite32 v h := exactText_floatText f32 v.toNat (by have := v.isLt; have : f32.sign = 2 ^ 31 := rfl; omega) h
    (parts_bound f32 255 (by decide) (by decide))
  finite64 v h := exactText_floatText f64 v.toNat (by have := v.isLt; have : f64.sign = 2 ^ 63 := rfl; omega) h
    (parts_bound f64 2047 (by decide) (by decide))
  nan32 v h := by
    show exactText f32 v.toNat = _
    unfold exactText
    rw [if_neg (by omega), if_neg (by omega)]
  nan64 v h := by
    show exactText f64 v.toNat = _
    unfold exactText
    rw [if_neg (by omega), if_neg (by omega)]
  inf32 v h := by
    show exactText f32 v.toNat = _
    unfold exactText
    rw [if_neg (by omega), if_pos h]
  inf64 v h := by
    show exactText f64 v.toNat = _
    unfold exactText
    rw [if_neg (by omega), if_pos h]

end Musli.Json
