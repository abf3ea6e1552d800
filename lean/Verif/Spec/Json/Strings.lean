import Verif.Model.Utf8
/-!
# JSON strings, after RFC 8259 section 7

Independent of the parser: which bytes between two quotes are a string literal,
and which scalar values they denote.
-/
namespace Musli.Json.Spec
open Musli

/-- A hexadecimal digit of either case, and its value. -/
def HexDigit (b : Byte) (n : Nat) : Prop :=
  (n < 10 ∧ b.toNat = 0x30 + n) ∨
    (10 ≤ n ∧ n < 16 ∧ (b.toNat = 0x41 + (n - 10) ∨ b.toNat = 0x61 + (n - 10)))

/-- Four hexadecimal digits. -/
def Hex4 (l : Bytes) (n : Nat) : Prop :=
  ∃ a b c d i j k m, l = [a, b, c, d] ∧ HexDigit a i ∧ HexDigit b j ∧ HexDigit c k ∧
    HexDigit d m ∧ n = i * 4096 + j * 256 + k * 16 + m

/-- What follows a backslash, and the scalar value that it denotes. -/
inductive Escape : Bytes → Char → Prop
  | quote : Escape [0x22#8] '"'
  | backslash : Escape [0x5C#8] '\\'
  | slash : Escape [0x2F#8] '/'
  | backspace : Escape [0x62#8] (Char.ofNat 0x08)
  | formfeed : Escape [0x66#8] (Char.ofNat 0x0C)
  | newline : Escape [0x6E#8] '\n'
  | ret : Escape [0x72#8] '\r'
  | tab : Escape [0x74#8] '\t'
  /-- `\uXXXX`; surrogates are not the number of a `Char` -/
  | unicode {h : Bytes} {c : Char} : Hex4 h c.toNat → Escape (0x75#8 :: h) c
  /-- `\uD8XX\uDCXX`: UTF-16 -/
  | pair {h h' : Bytes} {hi lo : Nat} {c : Char} : Hex4 h hi → Hex4 h' lo →
      0xD800 ≤ hi → hi ≤ 0xDBFF → 0xDC00 ≤ lo → lo ≤ 0xDFFF →
      c.toNat = 0x10000 + (hi - 0xD800) * 0x400 + (lo - 0xDC00) →
      Escape (0x75#8 :: h ++ 0x5C#8 :: 0x75#8 :: h') c

/-- The bytes between the quotes of a string literal, and what they denote. -/
inductive Lit : Bytes → List Char → Prop
  | nil : Lit [] []
  /-- any scalar value other than control characters, quotes and backslashes, in
  UTF-8 -/
  | plain {c : Char} {l : Bytes} {cs : List Char} : 0x20 ≤ c.toNat → c ≠ '"' → c ≠ '\\' →
      Lit l cs → Lit (Utf8.encodeChar c ++ l) (c :: cs)
  | escape {e : Bytes} {c : Char} {l : Bytes} {cs : List Char} : Escape e c →
      Lit l cs → Lit (0x5C#8 :: e ++ l) (c :: cs)

/-- JSON whitespace. -/
def Ws (l : Bytes) : Prop := ∀ b ∈ l, b = 0x20#8 ∨ b = 0x09#8 ∨ b = 0x0A#8 ∨ b = 0x0D#8

end Musli.Json.Spec
