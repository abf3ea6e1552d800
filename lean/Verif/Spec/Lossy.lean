import Verif.Model.Utf8
/-!
# String literals of Rust
-/
namespace Musli.Zero.Lossy.Spec
open Musli Musli.Utf8

/-- The value of a hexadecimal digit. -/
def digit (c : Char) : Option Nat :=
  if 0x30 ≤ c.toNat ∧ c.toNat ≤ 0x39 then some (c.toNat - 0x30)
  else if 0x61 ≤ c.toNat ∧ c.toNat ≤ 0x66 then some (c.toNat - 0x61 + 10)
  else if 0x41 ≤ c.toNat ∧ c.toNat ≤ 0x46 then some (c.toNat - 0x41 + 10)
  else none

/-- A number of these digits. -/
def number (ds : List Char) : Option Nat :=
  ds.foldl (fun acc c => acc.bind fun n => (digit c).map fun d => 16 * n + d) (some 0)

/-- What is between the quotes of a literal, and the characters it stands for; the reference of Rust, without continued lines. -/
inductive Literal : List Char → List Char → Prop
  | nil : Literal [] []
  | char (c : Char) (t cs : List Char) : c ≠ '"' → c ≠ '\\' → c ≠ '\r' → Literal t cs → Literal (c :: t) (c :: cs)
  | escape (e c : Char) (t cs : List Char) :
      (e, c) ∈ [('0', '\x00'), ('t', '\t'), ('r', '\r'), ('n', '\n'), ('"', '"'), ('\'', '\''), ('\\', '\\')] →
      Literal t cs → Literal ('\\' :: e :: t) (c :: cs)
  | ascii (d1 d2 c : Char) (t cs : List Char) : number [d1, d2] = some c.toNat → c.toNat < 0x80 →
      Literal t cs → Literal ('\\' :: 'x' :: d1 :: d2 :: t) (c :: cs)
  | unicode (ds : List Char) (c : Char) (t cs : List Char) : ds ≠ [] → ds.length ≤ 6 → number ds = some c.toNat →
      Literal t cs → Literal ('\\' :: 'u' :: '{' :: (ds ++ '}' :: t)) (c :: cs)

/-- A text with bytes in between which do not begin a character. -/
inductive Parts : Bytes → List (Char ⊕ Byte) → Prop
  | nil : Parts [] []
  | char (c : Char) (s : Bytes) (l) : Parts s l → Parts (encodeChar c ++ s) (.inl c :: l)
  | byte (b : Byte) (s : Bytes) (l) : (∀ c t, b :: s ≠ encodeChar c ++ t) → Parts s l → Parts (b :: s) (.inr b :: l)

/-- The bytes as U+FFFD. -/
def replaced : Char ⊕ Byte → Char
  | .inl c => c
  | .inr _ => '\uFFFD'

end Musli.Zero.Lossy.Spec
