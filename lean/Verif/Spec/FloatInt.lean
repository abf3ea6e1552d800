import Verif.Spec.Float
import Verif.Spec.IntTy
/-!
# Floats and integers

This file does not refer to the model of the code. It says what a float stands for, and
which integer a float is converted to.
-/
namespace Musli.Spec.Float

/-- What a float stands for. -/
inductive Meaning where
  | nan
  | inf (neg : Bool)
  | num (q : ℚ)

/-- What the bits of a float stand for: the sign bit, and the rest as in `Format.value`;
everything above the bits of infinity is NaN. -/
def Format.meaning (F : Format) (b : Nat) : Meaning :=
  let neg := decide (F.sign ≤ b)
  let a := b % F.sign
  if F.inf < a then .nan
  else if a = F.inf then .inf neg
  else .num (if neg then -F.value a else F.value a)

/-- `n` is `q` without its fraction. -/
def TowardsZero (q : ℚ) (n : Int) : Prop :=
  (0 ≤ q → (n : ℚ) ≤ q ∧ q < n + 1) ∧ (q ≤ 0 → (n : ℚ) - 1 < q ∧ q ≤ n)

end Musli.Spec.Float

namespace Musli.IntTy

/-- `i` is the smallest value of the type. -/
def Least (t : IntTy) (i : Int) : Prop := t.fits i ∧ ∀ j, t.fits j → i ≤ j

/-- `i` is the greatest value of the type. -/
def Greatest (t : IntTy) (i : Int) : Prop := t.fits i ∧ ∀ j, t.fits j → j ≤ i

open Spec.Float in
/-- The integer which a float is converted to by a cast: the number without its fraction if it
is in range, the nearest end of the range if it is not, and zero if it is not a number. -/
inductive Cast (t : IntTy) : Meaning → Int → Prop
  | nan : Cast t .nan 0
  | negInf {i} : t.Least i → Cast t (.inf true) i
  | posInf {i} : t.Greatest i → Cast t (.inf false) i
  | exact {q n} : TowardsZero q n → t.fits n → Cast t (.num q) n
  | low {q n i} : TowardsZero q n → t.Least i → n < i → Cast t (.num q) i
  | high {q n i} : TowardsZero q n → t.Greatest i → i < n → Cast t (.num q) i

end Musli.IntTy
