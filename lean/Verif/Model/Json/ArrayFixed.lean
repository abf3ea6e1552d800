import Verif.Model.Json.Codec
/-!
# JSON: byte arrays with a correction

This is not the code: it is `decode_array` of `Model/Json/Codec.lean` with a correction, to tell that nothing else is wrong with it. One
element too many is an error and not stored.
-/
namespace Musli.Json
open Musli

/-- The loop of `decode_array`, `de/mod.rs:283-289`, with the correction. -/
def arrayLoopC (full : Bool) (n : Nat) : (fuel : Nat) → (first : Bool) → (acc : Bytes) → (index : Nat) → P (Bytes × Nat)
  | 0, _, _, _ => P.fail .fuel
  | fuel + 1, first, acc, index => do
    let more ← nextValue first
    if more then
      if index < n then do
        let b ← parseUnsigned full 8
        arrayLoopC full n fuel false (acc ++ [b]) (index + 1)
      else P.fail .length
    else pure (acc, index)

/-- `arrayLoopC` with enough fuel. -/
def arrayElemsC (full : Bool) (n : Nat) : P (Bytes × Nat) := fun s =>
  arrayLoopC full n (s.length + 1) true [] 0 s

/-- `decode_array`, `de/mod.rs:275-302`, with the correction. -/
def decArrayC (full : Bool) (n : Nat) : P { b : Bytes // b.length = n } := do
  expect .openBracket
  let (b, index) ← arrayElemsC full n
  if index = n then do
    let b ← P.ofExcept (toArray n b)
    endSeq false
    pure b
  else P.fail .length

end Musli.Json
