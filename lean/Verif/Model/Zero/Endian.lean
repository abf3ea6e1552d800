import Verif.Model.Zero.Ref
import Verif.Spec.ZeroEndian
/-!
# `ZeroCopy::swap_bytes` and `Endian`, `traits.rs` and `endian/endian.rs`

Paths are relative to `crates/musli-zerocopy/src`; `derive` is
`crates/musli-zerocopy-macros/src/zero_copy/mod.rs`. Floats are numbers, their bits (`endian/mod.rs:428-436`).
-/
namespace Musli.Zero
open Musli

/-- The names of fields. -/
def SFields.names : SFields → List Nat
  | .nil => []
  | .cons name _ _ rest => name :: rest.names

/-- The discriminants. -/
def SVariants.discs : SVariants → List Nat
  | .nil => []
  | .cons disc _ _ rest => disc :: rest.discs

/-- The `swap` attributes; derive 371-375 for those which are implied by the names of the variants. -/
def SVariants.swaps : SVariants → List (Option Nat)
  | .nil => []
  | .cons _ swap _ rest => swap :: rest.swaps

/-- The names of the fields of the variants. -/
def SVariants.names : SVariants → List (List Nat)
  | .nil => []
  | .cons _ _ fs rest => fs.names :: rest.names

/-- Which variant a variant is swapped to: the one it names, or the one which names it, derive 453-483. -/
def target (swaps : List (Option Nat)) (i : Nat) : Nat :=
  match swaps[i]? with
  | some (some j) => j
  | _ => (swaps.findIdx? (· == some i)).getD i

/-- `Self::#to { #(#members: …),* }`, derive 496-503: fields are given by name, and are in memory in the order of
the variant they are given for. -/
def arrange (from_ to_ : List Nat) (xs : List Val) : List Val :=
  to_.map fun n => ((from_.zip xs).lookup n).getD (.num 0)

/-- `#a == <#ty>::swap_bytes(#b)` for the variants with the attribute, derive 461-463. -/
def conditions (tagSize : Nat) (discs : List Nat) (swaps : List (Option Nat)) : Bool :=
  (discs.zip swaps).all fun p => match p.2 with
    | none => true
    | some j => match discs[j]? with
      | some b => p.1 == swapNum tagSize b
      | none => false

mutual
/-- `CAN_SWAP_BYTES`: `traits.rs:219, 788, 839, 881, 921, 991, 1065, 1147, 1216`, derive 245, 508-512, 574; for
`Endian`, which has `swap_bytes_self`, derive 622-626. -/
def STy.canSwap : STy → Bool
  | .num _ _ => true
  | .bool => true
  | .char => false
  | .nonzero _ _ => true
  | .zst => true
  | .array t _ => t.canSwap
  | .struct _ _ fs => fs.canSwap
  | .transparent t => t.canSwap
  | .wrapping t => t.canSwap
  | .endian _ _ => true
  | .enum tagSize _ _ swaps vs => swaps && conditions tagSize vs.discs vs.swaps && vs.canSwap

/-- `true #(&& #field_byte_ordered)*`, derive 245, without the ignored fields. -/
def SFields.canSwap : SFields → Bool
  | .nil => true
  | .cons _ ignored t rest => (ignored || t.canSwap) && rest.canSwap

/-- `#(&& #byte_ordered_variants)*`, derive 420, 574. -/
def SVariants.canSwap : SVariants → Bool
  | .nil => true
  | .cons _ _ fs rest => fs.canSwap && rest.canSwap
end

section
-- the byte order of the platform, and the one which is the argument
variable (H E : ByteOrder)

/-- `ByteOrder::swap_*`. -/
def swapTo (size n : Nat) : Nat := orderSwap ⟨H, 8⟩ E size n

/-- `ByteOrder::try_map`, `endian/mod.rs:360-376, 440-456`. -/
def tryMap {α : Type} (v w : α) : α := if H = E then v else w

mutual
/-- `ZeroCopy::swap_bytes::<E>`. -/
def swapBytes : STy → Val → Val
  -- `traits.rs:798-804, 820-834, 849-855, 1075-1088`
  | .num size _, .num n => .num (swapTo H E size n)
  -- `traits.rs:936-942`
  | .bool, v => v
  -- `traits.rs:897-903`
  | .char, v => v
  -- `traits.rs:1008-1019`
  | .nonzero size _, .num n => .num (swapTo H E size n)
  -- `traits.rs:1158-1164`
  | .zst, v => v
  -- `traits.rs:1234-1241`
  | .array t _, .list vs => .list (vs.map (swapBytes t))
  -- derive 222-227, 655-657
  | .struct _ _ fs, .list vs => tryMap H E (.list vs) (.list (swapFields fs vs))
  -- derive 179-184
  | .transparent t, v => tryMap H E v (swapBytes t v)
  -- `traits.rs:231-237`
  | .wrapping t, v => swapBytes t v
  -- `swap_bytes_self`, `endian/endian.rs:51`, derive 622-626
  | .endian _ _, v => v
  -- derive 485-506 with the attribute, 513-539 without, 565-569
  | .enum _ _ _ swaps vs, .variant i xs =>
    tryMap H E (.variant i xs)
      (if swaps then
        .variant (target vs.swaps i)
          (arrange ((vs.names[i]?).getD []) ((vs.names[target vs.swaps i]?).getD []) (swapVariant vs i xs))
      else .variant i (swapVariant vs i xs))
  | _, v => v

/-- The fields; those which are ignored are moved. -/
def swapFields : SFields → List Val → List Val
  | .cons _ ignored t rest, v :: vs => (if ignored then v else swapBytes t v) :: swapFields rest vs
  | _, vs => vs

/-- The fields of one of the variants. -/
def swapVariant : SVariants → Nat → List Val → List Val
  | .nil, _, xs => xs
  | .cons _ _ fs rest, i, xs =>
    match i with
    | 0 => swapFields fs xs
    | i + 1 => swapVariant rest i xs
end

/-- `Endian::new`, `endian/endian.rs:138-147`, and `le`, `be`. -/
def endianNew (t : STy) (v : Val) : Val := swapBytes H E t v

/-- `Endian::to_ne`, `endian/endian.rs:162-168`. -/
def endianToNe (t : STy) (raw : Val) : Val := swapBytes H E t raw

/-- `from_endian`, `endian/mod.rs:280-286`, and `from_be`, `from_le`. -/
def fromEndian (t : STy) (v : Val) : Val := swapBytes H H t (swapBytes H E t v)

end

mutual
/-- What a program on a platform of byte order `H` has to do to make a value with `Endian`s in it: call
`Endian::new` for each of them. The value which is given has in these places what is meant. -/
def build (H : ByteOrder) : STy → Val → Val
  | .array t _, .list vs => .list (vs.map (build H t))
  | .struct _ _ fs, .list vs => .list (buildFields H fs vs)
  | .transparent t, v => build H t v
  | .wrapping t, v => build H t v
  | .endian E t, v => endianNew H E t (build H t v)
  | .enum _ _ _ _ vs, .variant i xs => .variant i (buildVariant H vs i xs)
  | _, v => v

def buildFields (H : ByteOrder) : SFields → List Val → List Val
  | .cons _ _ t rest, v :: vs => build H t v :: buildFields H rest vs
  | _, vs => vs

def buildVariant (H : ByteOrder) : SVariants → Nat → List Val → List Val
  | .nil, _, xs => xs
  | .cons _ _ fs rest, i, xs =>
    match i with
    | 0 => buildFields H fs xs
    | i + 1 => buildVariant H rest i xs
end

end Musli.Zero
