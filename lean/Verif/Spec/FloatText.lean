import Verif.Basic
import Mathlib.Data.Rat.Defs
import Mathlib.Algebra.Order.Field.Power
/-!
# Decimal floating point literals

This file does not refer to the model. It says what a decimal literal is, how it is
written in ASCII and which number it stands for.
-/
namespace Musli.Spec.Float

/-- The ASCII text of decimal digits. -/
def digitsText (ds : List (Fin 10)) : Bytes := ds.map fun d => BitVec.ofNat 8 (0x30 + d.val)

/-- The number written with the digits. -/
def digitsValue (ds : List (Fin 10)) : Nat := ds.foldl (fun n d => 10 * n + d.val) 0

/-- The exponent of a literal: `e` or `E`, a sign or none, and at least one digit. -/
structure Exponent where
  upper : Bool
  /-- `some true` is a minus sign, `some false` a plus sign. -/
  sign : Option Bool
  digits : List (Fin 10)
  nonempty : digits ≠ []

namespace Exponent

/-- The text of an exponent: `e`, `E`, `-`, `+`. -/
def text (e : Exponent) : Bytes :=
  (if e.upper then 0x45#8 else 0x65#8) :: (match e.sign with
    | none => digitsText e.digits
    | some true => 0x2D#8 :: digitsText e.digits
    | some false => 0x2B#8 :: digitsText e.digits)

/-- The exponent. -/
def value (e : Exponent) : Int :=
  if e.sign = some true then -(digitsValue e.digits : Int) else digitsValue e.digits

end Exponent

/-- A literal: digits, then optionally a dot and more digits, then optionally an
exponent. There is at least one digit before or after the dot. -/
structure Literal where
  int : List (Fin 10)
  frac : Option (List (Fin 10))
  exp : Option Exponent
  nonempty : int ++ frac.getD [] ≠ []

namespace Literal

/-- The digits of a literal, without the dot. -/
def digits (l : Literal) : List (Fin 10) := l.int ++ l.frac.getD []

/-- The exponent of a literal. -/
def exponent (l : Literal) : Int := (l.exp.map Exponent.value).getD 0

/-- The text of a literal. -/
def text (l : Literal) : Bytes :=
  digitsText l.int ++ (match l.frac with
    | none => []
    | some f => 0x2E#8 :: digitsText f) ++ (l.exp.map Exponent.text).getD []

/-- The number a literal stands for. -/
def value (l : Literal) : ℚ :=
  digitsValue l.digits * 10 ^ (l.exponent - ((l.frac.getD []).length : Int))

/-- The literal cannot be continued with the text that follows: no digit follows, no
dot if there is no dot yet, no `e` and no `E` if there is no exponent yet. -/
def Ends (l : Literal) (rest : Bytes) : Prop :=
  ∀ c, rest.head? = some c →
    ¬ (0x30 ≤ c.toNat ∧ c.toNat ≤ 0x39) ∧
    (l.exp = none → c ≠ 0x65#8 ∧ c ≠ 0x45#8) ∧
    (l.exp = none → l.frac = none → c ≠ 0x2E#8)

end Literal

/-- A literal with a sign or none. -/
structure Signed where
  /-- `some true` is a minus sign, `some false` a plus sign. -/
  sign : Option Bool
  lit : Literal

namespace Signed

/-- The text of the sign. -/
def signText : Option Bool → Bytes
  | none => []
  | some true => [0x2D#8]
  | some false => [0x2B#8]

/-- The text of a literal with its sign. -/
def text (l : Signed) : Bytes := signText l.sign ++ l.lit.text

end Signed

/-- Letters without regard to case. -/
def sameLetters (s : Bytes) (word : List Nat) : Prop :=
  s.map (fun c => if 0x61 ≤ c.toNat ∧ c.toNat ≤ 0x7A then c.toNat - 0x20 else c.toNat) = word

/-- `INF` or `INFINITY`, in any mix of cases. -/
def isInf (s : Bytes) : Prop :=
  sameLetters s [0x49, 0x4E, 0x46] ∨ sameLetters s [0x49, 0x4E, 0x46, 0x49, 0x4E, 0x49, 0x54, 0x59]

/-- `NAN`, in any mix of cases. -/
def isNan (s : Bytes) : Prop := sameLetters s [0x4E, 0x41, 0x4E]

end Musli.Spec.Float
