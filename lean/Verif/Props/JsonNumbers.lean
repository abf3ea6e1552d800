import Verif.Proofs.Json.Decimals
import Verif.Props.Json
/-!
# C41: JSON integers written with a fraction or an exponent

`Spec/Json/Decimals.lean` says what the text of a number is and which number it denotes. All of
this is about the feature `parse-full`; without it, see C27.
-/
namespace Musli.Json
open Musli Spec

/-- **C41**: the full statement. A number which denotes an integer in range decodes to this integer;
any other is rejected. -/
def C41Full : Prop := ∀ (env : Env) (w : IW) (d : Decimal) (rest : Bytes), Strict d → NoNumber rest →
  (∀ n, n < 2 ^ w.bits → d.Denotes n → ∃ v : BitVec w.bits, v.toNat = n ∧
    decode true env (.prim (.uint w)) (d.text ++ rest) = .ok (v, rest)) ∧
  ((∀ n, n < 2 ^ w.bits → ¬ d.Denotes n) →
    ∃ e, decode true env (.prim (.uint w)) (d.text ++ rest) = .error e)

/-- `1.00e1`, `0e5`, `1000e-1`, `0.256`. -/
def padded : Decimal := ⟨utf8% "1", some (utf8% "00"), some ⟨0x65#8, none, utf8% "1"⟩⟩
def zeroExp : Decimal := ⟨utf8% "0", none, some ⟨0x65#8, none, utf8% "5"⟩⟩
def largeInt : Decimal := ⟨utf8% "1000", none, some ⟨0x65#8, some 0x2D#8, utf8% "1"⟩⟩
def wrapped : Decimal := ⟨utf8% "0", some (utf8% "256"), none⟩

theorem padded_strict : Strict padded where
  int := .inr ⟨_, _, rfl, by decide, by decide, by unfold Digits Digit; decide⟩
  frac := by unfold Digits Digit; decide
  letter := by intro e he; cases he; simp
  sign := by intro e he; cases he; simp
  exp := by unfold Digits Digit; decide
  frac_ne := by decide
  exp_ne := by intro e he; cases he; decide

/-- **C41** is false: `1.00e1` denotes 10 and is rejected. -/
theorem C41_full_statement_false : ¬ C41Full := by
  intro h
  obtain ⟨v, _, hv⟩ := (h Sample.env .w8 padded [] padded_strict (fun _ _ h => nomatch h)).1 10
    (by decide) (by unfold Decimal.Denotes; decide)
  have h2 : decode true Sample.env (.prim (.uint .w8)) (padded.text ++ []) = .error (.invalid, []) := by
    decide
  rw [h2] at hv
  cases hv

/-- More ways in which **C41** is false of `u8`: `0e5` denotes 0, `1000e-1` denotes 100, and both are
rejected; `0.256` denotes no integer and decodes to 0 (in debug mode, it panics). -/
theorem C41_more_counterexamples :
    (zeroExp.Denotes 0 ∧
      decode true Sample.env (.prim (.uint .w8)) zeroExp.text = .error (.overflow, [])) ∧
    (largeInt.Denotes 100 ∧
      decode true Sample.env (.prim (.uint .w8)) largeInt.text = .error (.overflow, utf8% "0e-1")) ∧
    ((∀ n, ¬ wrapped.Denotes n) ∧
      decode true Sample.env (.prim (.uint .w8)) wrapped.text = .ok (0#8, [])) := by
  refine ⟨⟨by unfold Decimal.Denotes; decide, by decide⟩, ⟨by unfold Decimal.Denotes; decide, by decide⟩, ?_,
    by decide⟩
  intro n h
  unfold Decimal.Denotes at h
  have h1 : value (wrapped.int ++ wrapped.fracDigits) * 10 ^ wrapped.expValue.toNat = 256 := by decide
  have h2 : wrapped.fracDigits.length + (-wrapped.expValue).toNat = 3 := by decide
  rw [h1, h2] at h
  omega

/-- **C41 (partial).** A number that denotes an integer in range of an unsigned type decodes to this
integer. Missing (and false): zero with an exponent; a fraction of zeros that is longer than a
positive exponent; digits before the decimal point which are out of range by themselves; exponents
beyond `i32`. -/
theorem C41_unsigned_partial (env : Env) (w : IW) (d : Decimal) (ws rest : Bytes) (n : Nat)
    (hw : Ws ws) (hd : Strict d) (hr : NoNumber rest) (hn : n < 2 ^ w.bits) (hden : d.Denotes n)
    (h0 : n ≠ 0 ∨ d.expValue = 0) (hpad : ¬ d.Padded) (hint : value d.int < 2 ^ w.bits)
    (he : -(2 ^ 31 : Int) ≤ d.expValue ∧ d.expValue < 2 ^ 31) :
    ∃ v : BitVec w.bits, v.toNat = n ∧
      decode true env (.prim (.uint w)) (ws ++ (d.text ++ rest)) = .ok (v, rest) :=
  ⟨BitVec.ofNat w.bits n, toNat_ofNat_lt hn, by
    simp only [decode, decJ]
    exact parseUnsignedFull_complete (IW.two_pow_mod w) hw hd.toLenient
      (numEnds_of_noNumber hd.toLenient hr (fun x hx _ h => absurd h (hd.exp_ne x hx))) hn hden h0
      hpad he hint⟩

/-- **C41 (partial).** The same for signed types, with an optional minus sign. -/
theorem C41_signed_partial (env : Env) (w : IW) (d : Decimal) (neg : Bool) (ws rest : Bytes) (n : Nat)
    (hw : Ws ws) (hd : Strict d) (hr : NoNumber rest)
    (hn : if neg then n ≤ 2 ^ (w.bits - 1) else n < 2 ^ (w.bits - 1)) (hden : d.Denotes n)
    (h0 : n ≠ 0 ∨ d.expValue = 0) (hpad : ¬ d.Padded) (hint : value d.int < 2 ^ w.bits)
    (he : -(2 ^ 31 : Int) ≤ d.expValue ∧ d.expValue < 2 ^ 31) :
    ∃ v : BitVec w.bits, v.toInt = (if neg then -(n : Int) else n) ∧
      decode true env (.prim (.sint w)) (ws ++ (sign neg ++ (d.text ++ rest))) = .ok (v, rest) := by
  obtain ⟨v, h1, h2⟩ := parseSignedFull_complete (w := w.bits) (by cases w <;> decide)
    (IW.two_pow_mod w) hw hd.toLenient
    (numEnds_of_noNumber hd.toLenient hr (fun x hx _ h => absurd h (hd.exp_ne x hx))) hn hden h0
    hpad he hint
  exact ⟨v, h1, by simp only [decode, decJ]; exact h2⟩

/-- **C41 (partial).** Whatever decodes as an unsigned integer starts with the text of a number that
denotes this integer. Missing (and false, see C27): numbers whose digits, before or after the decimal
point or in the exponent, have a prefix that exceeds the largest number of the width by less than
five. `Lenient` numbers may lack the digits after the decimal point or of the exponent. -/
theorem C41_unsigned_sound_partial (env : Env) (w : IW) (s rest : Bytes) (v : BitVec w.bits)
    (h : decode true env (.prim (.uint w)) s = .ok (v, rest)) :
    ∃ ws d, Ws ws ∧ Lenient d ∧ s = ws ++ (d.text ++ rest) ∧
      ((∀ p r, d.int = p ++ r → ¬ (2 ^ w.bits ≤ value p ∧ value p < 2 ^ w.bits + 4)) →
       (∀ p r, d.fracDigits = p ++ r → ¬ (2 ^ w.bits ≤ value p ∧ value p < 2 ^ w.bits + 4)) →
       (∀ p r, d.expDigits = p ++ r → ¬ (2 ^ 32 ≤ value p ∧ value p < 2 ^ 32 + 4)) →
       d.Denotes v.toNat) :=
  parseUnsignedFull_sound (IW.four_le w) (IW.two_pow_mod w) h

/-- **C41 (partial).** The same for signed types. -/
theorem C41_signed_sound_partial (env : Env) (w : IW) (s rest : Bytes) (v : BitVec w.bits)
    (h : decode true env (.prim (.sint w)) s = .ok (v, rest)) :
    ∃ (ws : Bytes) (neg : Bool) (d : Decimal) (n : Nat), Ws ws ∧ Lenient d ∧ s = ws ++ (sign neg ++ (d.text ++ rest)) ∧
      v.toInt = (if neg then -(n : Int) else n) ∧
      ((∀ p r, d.int = p ++ r → ¬ (2 ^ w.bits ≤ value p ∧ value p < 2 ^ w.bits + 4)) →
       (∀ p r, d.fracDigits = p ++ r → ¬ (2 ^ w.bits ≤ value p ∧ value p < 2 ^ w.bits + 4)) →
       (∀ p r, d.expDigits = p ++ r → ¬ (2 ^ 32 ≤ value p ∧ value p < 2 ^ 32 + 4)) →
       d.Denotes n) :=
  parseSignedFull_sound (IW.four_le w) (IW.two_pow_mod w) h

/-- `0.0250e3` satisfies the hypotheses of `C41_unsigned_partial`. -/
def quarter : Decimal := ⟨utf8% "0", some (utf8% "0250"), some ⟨0x65#8, none, utf8% "3"⟩⟩

example : quarter.text = utf8% "0.0250e3" ∧ quarter.Denotes 25 ∧ ¬ quarter.Padded ∧
    quarter.expValue = 3 ∧ value quarter.int < 2 ^ IW.w8.bits ∧
    decode true Sample.env (.prim (.uint .w8)) (quarter.text ++ utf8% ",") = .ok (25#8, utf8% ",") :=
  ⟨by decide, by unfold Decimal.Denotes; decide, by unfold Decimal.Padded; decide, by decide,
    by decide, by decide⟩

example : decode true Sample.env (.prim (.sint .w16)) (utf8% "-1.2e3") = .ok (-1200#16, []) := by decide
example : decode true Sample.env (.prim (.uint .w8)) (utf8% "1.5") = .error (.invalid, []) := by decide

end Musli.Json
