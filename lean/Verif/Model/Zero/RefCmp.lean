import Verif.Model.Zero.Ref
/-!
# Comparing references, `crates/musli-zerocopy/src/pointer/ref.rs`
-/
namespace Musli.Zero
open Musli

/-- `PartialEq for Ref`, `pointer/ref.rs:871-881`. The metadata of what is neither a slice nor a string is `()`. -/
def ZRef.eqv (r s : ZRef) : Bool := r.offset == s.offset && r.len == s.len

/-- `Ord` of the metadata, which is `()` or a number. -/
def metaCmp : Option Nat → Option Nat → Ordering
  | some m, some n => compare m n
  | _, _ => .eq

/-- `Ord for Ref` and `PartialOrd for Ref`, `pointer/ref.rs:891-923`: the fields are compared as they are stored. -/
def ZRef.cmp (r s : ZRef) : Ordering :=
  match compare r.offset s.offset with
  | .eq => metaCmp r.len s.len
  | o => o

/-- `Hash for Ref`, `pointer/ref.rs:925-936`: what the hasher is given, which for an integer is its native bytes and for `()`
nothing. -/
def ZRef.hashed (P : Platform) (O : SizeTy) (r : ZRef) : Bytes :=
  nativeBytes P (O.bytes P) r.offset ++
    (match r.len with | none => [] | some n => nativeBytes P (O.bytes P) n)

end Musli.Zero
