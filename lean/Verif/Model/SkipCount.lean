import Verif.Model.Wire
import Verif.Model.Descriptive
/-!
# Skipping with a counter of machine size

`skip_any` counts the values which are still to be skipped in a `usize`
(`crates/musli/src/wire/de.rs:65-106`, `crates/musli/src/descriptive/de.rs:65-115`), and the
numbers which are added to it come from the input. `Fmt.skip` counts without a bound; here
is the same loop with the arithmetic of the machine.
-/
namespace Musli

/-- What an overflow does: a panic in builds with overflow checks (`dev`), wrapping
around in builds without (`release`). -/
inductive Build where | checked | wrapping
deriving Repr, DecidableEq

/-- `x + y` in `usize`. -/
def addUsize (b : Build) (x y : Nat) : Except Err Nat :=
  if x + y < 2 ^ 64 then .ok (x + y)
  else match b with
    | .checked => .error .panic
    | .wrapping => .ok ((x + y) % 2 ^ 64)

/-- `x - 1` in `usize`. -/
def decUsize (b : Build) (x : Nat) : Except Err Nat :=
  match x, b with
  | x + 1, _ => .ok x
  | 0, .checked => .error .panic
  | 0, .wrapping => .ok (2 ^ 64 - 1)

namespace Wire

/-- The loop of `skip_any`, `wire/de.rs:65-106`: `remaining -= 1` at the beginning,
`remaining += len` for sequences. As in `skipLoop`, `fuel` bounds the number of rounds. -/
def countLoop (b : Build) (step : Dec Nat) : (fuel remaining : Nat) → Dec Unit
  | _, 0 => pure ()
  | 0, _ + 1 => Dec.fail .fuel
  | fuel + 1, remaining + 1 => do
    let k ← step
    let r ← Dec.ofExcept (addUsize b remaining k)
    countLoop b step fuel r

/-- `skip_any`, `wire/de.rs:65-106`. -/
def skipUsize [Host] (b : Build) (o : Options) : Dec Unit := fun s =>
  countLoop b (step o) (s.length + 1) 1 s

end Wire

namespace Desc

/-- The loop of `skip_any`, `descriptive/de.rs:64-115`: something is added for sequences,
maps, options and variants, `remaining -= 1` at the end. For maps the product `len * 2`
overflows before the sum does; either way the build with checks panics, and the result
modulo `2 ^ 64` is the same. -/
def countLoop (b : Build) (step : Dec Nat) : (fuel remaining : Nat) → Dec Unit
  | _, 0 => pure ()
  | 0, _ + 1 => Dec.fail .fuel
  | fuel + 1, remaining + 1 => do
    let k ← step
    let r ← Dec.ofExcept (addUsize b (remaining + 1) k)
    let r ← Dec.ofExcept (decUsize b r)
    countLoop b step fuel r

/-- `skip_any`, `descriptive/de.rs:65-115`. -/
def skipUsize [Host] (b : Build) (o : Options) : Dec Unit := fun s =>
  countLoop b (step o) (s.length + 1) 1 s

end Desc
end Musli
