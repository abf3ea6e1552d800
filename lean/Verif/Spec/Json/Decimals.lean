import Verif.Spec.Json.Numbers
/-!
# JSON numbers with a fraction and an exponent, after RFC 8259 section 6

Independent of the parser.
-/
namespace Musli.Json.Spec
open Musli

/-- An exponent part: `e` or `E`, an optional sign, digits. -/
structure Exponent where
  letter : Byte
  sign : Option Byte
  digits : Bytes

/-- A number without its minus sign: the digits before the decimal point, those after it
(if there is one), and the exponent part (if there is one). -/
structure Decimal where
  int : Bytes
  frac : Option Bytes
  exp : Option Exponent

/-- The text of an exponent part. -/
def Exponent.text (e : Exponent) : Bytes := e.letter :: (e.sign.toList ++ e.digits)

/-- The number which an exponent part denotes. -/
def Exponent.value (e : Exponent) : Int :=
  if e.sign = some 0x2D#8 then -(Spec.value e.digits : Int) else Spec.value e.digits

/-- The text of a number. -/
def Decimal.text (d : Decimal) : Bytes :=
  d.int ++ ((match d.frac with | some f => 0x2E#8 :: f | none => []) ++
    (match d.exp with | some e => e.text | none => []))

/-- The digits after the decimal point. -/
def Decimal.fracDigits (d : Decimal) : Bytes := d.frac.getD []

/-- The exponent; 0 if there is none. -/
def Decimal.expValue (d : Decimal) : Int := match d.exp with | some e => e.value | none => 0

/-- The digits of the exponent. -/
def Decimal.expDigits (d : Decimal) : Bytes := match d.exp with | some e => e.digits | none => []

/-- The grammar, except that the digits after a decimal point and of an exponent may be absent
(RFC 8259 wants at least one, see `Strict`). -/
structure Lenient (d : Decimal) : Prop where
  int : Numeral d.int
  frac : Digits d.fracDigits
  letter : ∀ e, d.exp = some e → e.letter = 0x65#8 ∨ e.letter = 0x45#8
  sign : ∀ e, d.exp = some e → e.sign = none ∨ e.sign = some 0x2D#8 ∨ e.sign = some 0x2B#8
  exp : Digits d.expDigits

/-- The grammar of RFC 8259. -/
structure Strict (d : Decimal) : Prop extends Lenient d where
  frac_ne : d.frac ≠ some []
  exp_ne : ∀ e, d.exp = some e → e.digits ≠ []

/-- `d` denotes the natural number `n`: `int.frac * 10 ^ exp = n`, where both sides are multiplied
by a power of ten to get rid of fractions. -/
def Decimal.Denotes (d : Decimal) (n : Nat) : Prop :=
  value (d.int ++ d.fracDigits) * 10 ^ d.expValue.toNat =
    n * 10 ^ (d.fracDigits.length + (-d.expValue).toNat)

/-- The digits after the decimal point are zeros, at least one, and more than what a positive
exponent moves before the decimal point. -/
def Decimal.Padded (d : Decimal) : Prop :=
  value d.fracDigits = 0 ∧ 0 < d.expValue ∧ d.expValue < d.fracDigits.length

end Musli.Json.Spec
