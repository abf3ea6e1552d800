import Verif.Model.Zero.SwapAt
/-!
# `Buf::swap` with two corrections

This is not the code: it is `Model/Zero/SwapAt.lean` with two corrections, to tell that nothing else is wrong with it. The end of the later
value is added with `checked_add`, and references are checked even if they are the same.
-/
namespace Musli.Zero.SwapAt
open Musli

/-- `swap`, `buf.rs:830-870`, with the corrections. -/
def swapC (bits : Nat) (size : Nat) (data : Bytes) (a b : Nat) : Res :=
  let start := max a b
  if start + size ≥ 2 ^ bits then .bounds
  else
    let stop := (start + size) % 2 ^ bits
    if stop > data.length then .bounds
    else if a = b then .ok data
    else match copies data a b size with
      | some data => .ok data
      | none => .undefined

end Musli.Zero.SwapAt
