import Verif.Basic
/-!
# `Buf::swap`, `crates/musli-zerocopy/src/buf/buf.rs:830-870`

A reference is its offset, which is any value of a `usize`, of `bits` bits. `checked` tells whether the arithmetic of
the build is checked.
-/
namespace Musli.Zero.SwapAt
open Musli

/-- What happens. -/
inductive Res where
  /-- `Ok(())`, and the bytes of the buffer -/
  | ok (data : Bytes)
  /-- `OutOfRangeBounds`, with the bytes unchanged -/
  | bounds
  /-- the sum overflowed in a checked build -/
  | panic
  /-- memory outside of the buffer is read and written -/
  | undefined
deriving DecidableEq, Repr

/-- Reading `n` bytes at a pointer. -/
def read (data : Bytes) (at_ n : Nat) : Option Bytes :=
  if at_ + n ≤ data.length then some ((data.drop at_).take n) else none

/-- Writing bytes at a pointer. -/
def write (data : Bytes) (at_ : Nat) (b : Bytes) : Option Bytes :=
  if at_ + b.length ≤ data.length then some (data.take at_ ++ b ++ data.drop (at_ + b.length)) else none

/-- The unsafe block, `buf.rs:854-867`: the three copies. `a.copy_from(b, n)` may overlap, which has the effect of
reading all bytes before writing them. -/
def copies (data : Bytes) (a b n : Nat) : Option Bytes :=
  match read data a n with
  | none => none
  | some tmp =>
    match read data b n with
    | none => none
    | some x =>
      match write data a x with
      | none => none
      | some data => write data b tmp

/-- `swap`, `buf.rs:830-870`. -/
def swap (bits : Nat) (checked : Bool) (size : Nat) (data : Bytes) (a b : Nat) : Res :=
  if a = b then .ok data
  else
    let start := max a b
    if checked ∧ start + size ≥ 2 ^ bits then .panic
    else
      let stop := (start + size) % 2 ^ bits
      if stop > data.length then .bounds
      else match copies data a b size with
        | some data => .ok data
        | none => .undefined

end Musli.Zero.SwapAt
