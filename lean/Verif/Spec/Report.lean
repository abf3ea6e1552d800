import Verif.Model.Trace
/-!
# What the texts of errors look like, and which paths have a text of their own
-/
namespace Musli.Trace.Spec
open Musli

/-- What the text has so far: nothing, the name of a type, the name of an enum and `::`, a member. -/
inductive At where
  | start | type | enum | member
deriving DecidableEq

/-- After a member the type of its value is written as ` = Name`. -/
def At.lead : At → Bytes
  | .member => [0x20, 0x3D, 0x20]
  | _ => []

/-- `decimal` without leading zeros is a parameter: numbers are written by `num`. -/
def memberText (num : Nat → Bytes) : Step → Bytes
  | .named name => 0x2E#8 :: name
  | .unnamed i => 0x2E#8 :: num i
  | .index i => 0x5B#8 :: num i ++ [0x5D]
  | .key k => 0x5B#8 :: k ++ [0x5D]
  | _ => []

/-- The text of a path: `.field` and `[index]`, with ` = Type` for the types of their values, and what is inside
of a type is in braces. -/
def pathText (num : Nat → Bytes) : At → List Step → Bytes
  | _, [] => []
  | a, .struct name :: rest => a.lead ++ name ++ pathText num .type rest
  | a, .variant name :: rest => a.lead ++ name ++ pathText num .type rest
  | a, .enum name :: rest => a.lead ++ name ++ [0x3A, 0x3A] ++ pathText num (if a = .type then .type else .enum) rest
  | .type, m :: rest => [0x20, 0x7B, 0x20] ++ memberText num m ++ pathText num .member rest ++ [0x20, 0x7D]
  | _, m :: rest => memberText num m ++ pathText num .member rest

/-- Characters as bytes, of which there is one for each in ASCII. -/
def ascii (s : List Char) : Bytes := s.map fun c => BitVec.ofNat 8 c.toNat

/-- The steps for which there was no memory. -/
def missingText (num : Nat → Bytes) (n : Nat) : Bytes :=
  if n = 0 then []
  else if n = 1 then ascii [' ', '.', '.', ' ', '*', 'o', 'n', 'e', ' ', 'c', 'a', 'p', 'p', 'e', 'd', ' ', 's', 't', 'e',
    'p', '*']
  else ascii [' ', '.', '.', ' ', '*'] ++ num n ++ ascii [' ', 'c', 'a', 'p', 'p', 'e', 'd', ' ', 's', 't', 'e', 'p', 's',
    '*']

/-- The position, unless it is the beginning of the input: a byte, or the first and the last. -/
def positionText (num : Nat → Bytes) (first last : Nat) : Bytes :=
  if first = 0 ∧ last = 0 then []
  else if first = last then ascii [' ', '(', 'a', 't', ' ', 'b', 'y', 't', 'e', ' '] ++ num first ++ ascii [')']
  else ascii [' ', '(', 'a', 't', ' ', 'b', 'y', 't', 'e', 's', ' '] ++ num first ++ ascii ['-'] ++ num last ++ ascii [')']

/-- A byte of a name in Rust, which is not punctuation. -/
def nameByte (b : Byte) : Bool :=
  (0x30 ≤ b && b ≤ 0x39) || (0x41 ≤ b && b ≤ 0x5A) || (0x61 ≤ b && b ≤ 0x7A) || b == 0x5F || b == 0x23 || 0x80 ≤ b

/-- A name in Rust (`r#type` has a `#`): not empty, and it does not begin with a digit. -/
def IsName (n : Bytes) : Prop :=
  (∀ b ∈ n, nameByte b = true) ∧ ∃ b r, n = b :: r ∧ ¬(0x30 ≤ b ∧ b ≤ 0x39)

/-- A key which is not the text of a number, and has neither `]`, `:` nor a line break. -/
def IsKey (num : Nat → Bytes) (k : Bytes) : Prop :=
  (∀ b ∈ k, b ≠ 0x5D ∧ b ≠ 0x3A ∧ b ≠ 0x0A) ∧ ∀ i, k ≠ num i

/-- A path with names which are names in Rust, in which a type is inside of a member (or comes first), and a variant in
an enum, as of contexts which trace types (`types`); or one in which there are variants and members only. -/
def Plain (num : Nat → Bytes) (types : Bool) : At → List Step → Prop
  | _, [] => True
  | a, .struct name :: rest => types = true ∧ (a = .start ∨ a = .member) ∧ IsName name ∧ Plain num types .type rest
  | a, .enum name :: rest => types = true ∧ (a = .start ∨ a = .member) ∧ IsName name ∧ Plain num types .enum rest
  | a, .variant name :: rest =>
    (if types then a = .enum else a = .start ∨ a = .member) ∧ IsName name ∧ Plain num types .type rest
  | _, .named name :: rest => IsName name ∧ Plain num types .member rest
  | _, .unnamed _ :: rest => Plain num types .member rest
  | _, .index _ :: rest => Plain num types .member rest
  | _, .key k :: rest => IsKey num k ∧ Plain num types .member rest

/-- The lines of a text: what is before each line break, and what is after the last one unless it is empty. -/
def lines : Bytes → List Bytes
  | [] => []
  | b :: rest =>
    if b = 0x0A then [] :: lines rest
    else match lines rest with
      | [] => [[b]]
      | l :: ls => (b :: l) :: ls

/-- No line breaks. -/
def OneLine (t : Bytes) : Prop := ∀ b ∈ t, b ≠ 0x0A

end Musli.Trace.Spec
