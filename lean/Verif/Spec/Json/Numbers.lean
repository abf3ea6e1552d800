import Verif.Basic
/-!
# JSON numbers, after RFC 8259 section 6

Independent of the parser: which bytes are the digits of a number and which
number they denote.
-/
namespace Musli.Json.Spec
open Musli

/-- `0` .. `9`. -/
def Digit (b : Byte) : Prop := 0x30 ≤ b.toNat ∧ b.toNat ≤ 0x39

/-- Digits only. -/
def Digits (l : Bytes) : Prop := ∀ b ∈ l, Digit b

/-- The number that digits denote, continuing from `n`. -/
def valueFrom (n : Nat) (l : Bytes) : Nat := l.foldl (fun n b => n * 10 + (b.toNat - 0x30)) n

/-- The number that digits denote. -/
def value (l : Bytes) : Nat := valueFrom 0 l

/-- `int` in the grammar: digits without a superfluous leading zero. -/
def Numeral (l : Bytes) : Prop :=
  l = [0x30#8] ∨ ∃ b r, l = b :: r ∧ 0x31 ≤ b.toNat ∧ b.toNat ≤ 0x39 ∧ Digits r

/-- The input does not start with a digit. -/
def NoDigit (s : Bytes) : Prop := ∀ b r, s = b :: r → ¬ Digit b

/-- The input does not start with a character that continues a number. -/
def NoNumber (s : Bytes) : Prop :=
  ∀ b r, s = b :: r → ¬ Digit b ∧ b ≠ 0x2E#8 ∧ b ≠ 0x65#8 ∧ b ≠ 0x45#8

/-- A sign. -/
def sign : Bool → Bytes
  | true => [0x2D#8]
  | false => []

/-- A signed number. -/
def signedValue (neg : Bool) (n : Nat) : Int := if neg then -(n : Int) else n

end Musli.Json.Spec
