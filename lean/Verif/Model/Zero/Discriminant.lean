import Verif.Spec.Discriminant
/-!
# How the derive macro computes discriminants, `crates/musli-zerocopy-macros/src/zero_copy/num.rs`

`Usize` is left out: `mod.rs:858` only has it for `#[repr(Usize)]`, which the compiler rejects. Expressions are
trees; that `syn` prints a tree such that it is parsed again as it was is assumed.
-/
namespace Musli.Zero
open Musli

/-- The bits of the unsigned type which a literal is parsed to, `num.rs:175-188`. For `isize` it is `usize` of
the machine on which the macro runs. -/
def parseBits (host : Nat) : DRepr → Nat
  | .u bits => bits
  | .i bits => bits
  | .isize => host

/-- `signed`, `num.rs:117-148`. -/
def numSigned (bits : Nat) (neg : Bool) (n : Nat) : Except Unit (Bool × Nat) :=
  -- `base10_parse`
  if n < 2 ^ bits then
    if neg && n != 0 then
      .ok (n - 1 != 0, n - 1)
    else if n + 1 < 2 ^ bits then .ok (false, n + 1) else .error ()
  else .error ()

/-- `unsigned`, `num.rs:150-165`. -/
def numUnsigned (bits : Nat) (neg : Bool) (n : Nat) : Except Unit (Bool × Nat) :=
  match numSigned bits neg n with
  | .ok (true, _) => .error ()
  | r => r

/-- `Enumerator::next_index`, `num.rs:97-199`. -/
def nextIndex (host : Nat) (r : DRepr) (neg : Bool) (n : Nat) : Except Unit DExpr :=
  match (if r.signed then numSigned else numUnsigned) (parseBits host r) neg n with
  | .ok (true, n) => .ok (.neg (.lit n (some r)))
  | .ok (false, n) => .ok (.lit n (some r))
  | .error e => .error e

/-- `as_int`, `num.rs:243-257`. -/
def asInt : DExpr → Option (Bool × Nat)
  | .lit n _ => some (false, n)
  | .group e => asInt e
  | .neg e => (asInt e).map fun p => (!p.1, p.2)
  | _ => none

/-- `Enumerator::next`, `num.rs:202-233`: the state is `current`. -/
def enumNext (host : Nat) (r : DRepr) (current : Option DExpr) : Option DExpr → Except Unit DExpr
  | some e => .ok e
  | none => match current with
    | some existing => match asInt existing with
      | some (neg, n) => nextIndex host r neg n
      | none => .ok (.add existing (.lit 1 (some r)))
    | none => .ok (.lit 0 (some r))

/-- The constants for all variants, `mod.rs:320, 361-369, 382-384`. -/
def enumerate (host : Nat) (r : DRepr) : Option DExpr → List (Option DExpr) → Except Unit (List DExpr)
  | _, [] => .ok []
  | current, given :: rest =>
    match enumNext host r current given with
    | .ok e => match enumerate host r (some e) rest with
      | .ok es => .ok (e :: es)
      | .error u => .error u
    | .error u => .error u

end Musli.Zero
