import Verif.Basic
/-!
# SipHash-c-d with 128 bits of output

From the reference implementation of SipHash (Aumasson and Bernstein), for any numbers of rounds, so that it can
be checked with the published vectors, which are for 2-4.
-/
namespace Musli.Spec.Sip
open Musli

/-- The number which bytes are in little-endian order. -/
def le : Bytes → BitVec 64
  | [] => 0
  | b :: bs => b.setWidth 64 ||| le bs <<< 8

/-- The four words of the state. -/
structure St where
  v0 : BitVec 64
  v1 : BitVec 64
  v2 : BitVec 64
  v3 : BitVec 64
deriving DecidableEq, Repr

/-- `SIPROUND`. -/
def round (s : St) : St :=
  let v0 := s.v0 + s.v1
  let v1 := s.v1.rotateLeft 13 ^^^ v0
  let v0 := v0.rotateLeft 32
  let v2 := s.v2 + s.v3
  let v3 := s.v3.rotateLeft 16 ^^^ v2
  let v0 := v0 + v3
  let v3 := v3.rotateLeft 21 ^^^ v0
  let v2 := v2 + v1
  let v1 := v1.rotateLeft 17 ^^^ v2
  let v2 := v2.rotateLeft 32
  ⟨v0, v1, v2, v3⟩

/-- Several rounds. -/
def rounds : Nat → St → St
  | 0, s => s
  | n + 1, s => rounds n (round s)

/-- The initial state, for 128 bits of output. -/
def init (k0 k1 : BitVec 64) : St :=
  ⟨k0 ^^^ 0x736f6d6570736575, k1 ^^^ 0x646f72616e646f6d ^^^ 0xee, k0 ^^^ 0x6c7967656e657261, k1 ^^^ 0x7465646279746573⟩

/-- A word of the message. -/
def block (c : Nat) (s : St) (m : BitVec 64) : St :=
  let s := rounds c { s with v3 := s.v3 ^^^ m }
  { s with v0 := s.v0 ^^^ m }

/-- The message as words, the last of which has the length in its uppermost byte. -/
def words (len : Nat) : Bytes → List (BitVec 64)
  | a :: b :: c :: d :: e :: f :: g :: h :: rest => le [a, b, c, d, e, f, g, h] :: words len rest
  | rest => [le rest ||| BitVec.ofNat 64 len <<< 56]

/-- The two words of the hash. -/
def hash (c d : Nat) (k0 k1 : BitVec 64) (message : Bytes) : BitVec 64 × BitVec 64 :=
  let s := (words message.length message).foldl (block c) (init k0 k1)
  let s := rounds d { s with v2 := s.v2 ^^^ 0xee }
  let h1 := s.v0 ^^^ s.v1 ^^^ s.v2 ^^^ s.v3
  let s := rounds d { s with v1 := s.v1 ^^^ 0xdd }
  (h1, s.v0 ^^^ s.v1 ^^^ s.v2 ^^^ s.v3)

/-- The vectors `vectors_sip128` of the reference implementation, for SipHash-2-4, the key `00 01 .. 0f`, and the
messages of 0 and 1 bytes. -/
example : hash 2 4 0x0706050403020100 0x0f0e0d0c0b0a0908 [] = (0xe6a825ba047f81a3, 0x930255c71472f66d) := by
  decide +kernel

example : hash 2 4 0x0706050403020100 0x0f0e0d0c0b0a0908 [0x00] = (0x44af996bd8c187da, 0x45fc229b11597634) := by
  decide +kernel

end Musli.Spec.Sip
