import Verif.Spec.ZeroLayout
/-!
# References in memory

A reference is a number, and for slices and strings another one, in a byte order which is part of its type.
-/
namespace Musli.Zero
open Musli

/-- The last `w` bytes of a number, the least significant one first. -/
def toLittle : (w n : Nat) → Bytes
  | 0, _ => []
  | w + 1, n => BitVec.ofNat 8 n :: toLittle w (n / 256)

/-- A number as `w` bytes in a byte order. -/
def numBytes : ByteOrder → (w n : Nat) → Bytes
  | .little, w, n => toLittle w n
  | .big, w, n => (toLittle w n).reverse

/-- The bytes of a reference to a value at an offset, or to a slice or string at an offset with a length:
numbers of `w` bytes in some byte order. -/
def refBytes (bo : ByteOrder) (w offset : Nat) (len : Option Nat) : Bytes :=
  numBytes bo w offset ++ (match len with | none => [] | some n => numBytes bo w n)

/-- What calls to `next` (`true`) and `next_back` (`false`) of an iterator over some items should return. -/
def deque {α : Type} : List Bool → List α → List (Option α)
  | [], _ => []
  | true :: calls, items => items.head? :: deque calls items.tail
  | false :: calls, items => items.getLast? :: deque calls items.dropLast

end Musli.Zero
