import Verif.Model.Zero.Endian
/-!
# Which variants are swapped for each other, `crates/musli-zerocopy-macros/src/zero_copy/mod.rs`

Identifiers are bytes; those of the variants are distinct, or else the compiler reports an error. An error and a panic of the
macro are the same: there is no code. The map from names to indices is the list of the names.
-/
namespace Musli.Zero
open Musli

/-- A variant: its name, and the names in its attributes `#[zero_copy(swap = …)]`. -/
structure VarDecl where
  ident : Bytes
  attrs : List Bytes
deriving DecidableEq

/-- `str::trim_matches('_')`. -/
def trimUnderscores (s : Bytes) : Bytes :=
  ((s.dropWhile (· == 0x5F#8)).reverse.dropWhile (· == 0x5F#8)).reverse

/-- `unpad_variant`, `mod.rs:808-817`. `legal` says what `syn::Ident::new` does not panic for: `__`, `_1`. -/
def unpadVariant (legal : Bytes → Bool) (s : Bytes) : Except Unit (Option Bytes) :=
  let trimmed := trimUnderscores s
  if trimmed == s && !trimmed.isEmpty then .ok none
  else if legal trimmed then .ok (some trimmed)
  else .error ()

/-- The attributes of a variant, `mod.rs:328-356`, and the name without underscores, `mod.rs:371-375`. -/
def swapName (legal : Bytes → Bool) (swapBytes : Bool) (v : VarDecl) : Except Unit (Option Bytes) :=
  match v.attrs with
  | [] => if swapBytes then unpadVariant legal v.ident else .ok none
  | [name] => .ok (some name)
  | _ :: _ :: _ => .error ()

def swapNames (legal : Bytes → Bool) (swapBytes : Bool) : List VarDecl → Except Unit (List (Option Bytes))
  | [] => .ok []
  | v :: rest =>
    match swapName legal swapBytes v with
    | .error e => .error e
    | .ok n =>
      match swapNames legal swapBytes rest with
      | .error e => .error e
      | .ok ns => .ok (n :: ns)

/-- `forward.insert` returns something, `mod.rs:432-442`. -/
def namedTwice : List (Option Bytes) → Bool
  | [] => false
  | none :: rest => namedTwice rest
  | some n :: rest => rest.contains (some n) || namedTwice rest

/-- `mod.rs:453-483`: `reverse.get` or `forward.get`. -/
def partner (idents : List Bytes) (names : List (Option Bytes)) (from_ : Bytes) : Option Bytes → Option Nat
  | some to_ => idents.findIdx? (· == to_)
  | none => names.findIdx? (· == some from_)

def partners (idents : List Bytes) (names : List (Option Bytes)) : List (Bytes × Option Bytes) → Except Unit (List Nat)
  | [] => .ok []
  | (from_, name) :: rest =>
    match partner idents names from_ name with
    | none => .error ()
    | some i =>
      match partners idents names rest with
      | .error e => .error e
      | .ok is => .ok (i :: is)

/-- The part of `expand` which pairs the variants of an enum, `mod.rs:272-281, 319-545`: for each variant the index of the one it is
swapped to. -/
def pairVariants (legal : Bytes → Bool) (swapBytes : Bool) (vs : List VarDecl) : Except Unit (List Nat) :=
  if swapBytes && vs.length % 2 != 0 then .error ()
  else match swapNames legal swapBytes vs with
    | .error e => .error e
    | .ok names =>
      if namedTwice names then .error ()
      else if swapBytes then partners (vs.map (·.ident)) names ((vs.map (·.ident)).zip names)
      -- `mod.rs:514-521`
      else if names.any Option.isSome then .error ()
      else .ok (List.range vs.length)

/-- The attributes as indices, as in `SVariants.swaps`. -/
def swapIndices (idents : List Bytes) (names : List (Option Bytes)) : List (Option Nat) :=
  names.map fun n => n.bind fun to_ => idents.findIdx? (· == to_)

end Musli.Zero
