import Verif.Model.Zero.SwapAttr
/-!
# Which variants are swapped for each other, with a correction

This is not the code: it is `Model/Zero/SwapAttr.lean` with a correction, to tell that nothing else is wrong with it. If a variant names
another one, and that one names a variant as well, it must be the first one.
-/
namespace Musli.Zero
open Musli

/-- The correction: what to check before `mod.rs:453-483`. -/
def mutualNames (l : List (Bytes × Option Bytes)) : Bool :=
  l.all fun x => match x.2 with
    | none => true
    | some to_ => l.all fun y => y.1 != to_ || y.2.isNone || y.2 == some x.1

/-- `pairVariants` for enums with `#[zero_copy(swap_bytes)]`, `mod.rs:272-281, 319-545`, with the correction. -/
def pairVariantsC (legal : Bytes → Bool) (vs : List VarDecl) : Except Unit (List Nat) :=
  match swapNames legal true vs with
  | .error e => .error e
  | .ok names =>
    if mutualNames ((vs.map (·.ident)).zip names) then pairVariants legal true vs
    else .error ()

end Musli.Zero
