/-!
# Discriminants of enums, as in the Rust reference

Expressions are those of the source after parsing. What is not a literal, a negation, a group without delimiters
or a sum is opaque: it has a value as a constant of a type, if it has that type and does not panic.
-/
namespace Musli.Zero

/-- `#[repr(u*)]`, `#[repr(i*)]` and `#[repr(isize)]`. -/
inductive DRepr where
  | u (bits : Nat)
  | i (bits : Nat)
  | isize
deriving DecidableEq

inductive DExpr where
  | lit (n : Nat) (suffix : Option DRepr)
  | neg (e : DExpr)
  | group (e : DExpr)
  | add (a b : DExpr)
  | other (v : DRepr → Option Int)

/-- Signed types have a bit for the sign. `pointer` is the size of `isize` on the target, in bits. -/
def DRepr.inRange (pointer : Nat) (v : Int) : DRepr → Prop
  | .u bits => 0 ≤ v ∧ v < 2 ^ bits
  | .i bits => -2 ^ (bits - 1) ≤ v ∧ v < 2 ^ (bits - 1)
  | .isize => -2 ^ (pointer - 1) ≤ v ∧ v < 2 ^ (pointer - 1)

instance (pointer : Nat) (v : Int) : (r : DRepr) → Decidable (r.inRange pointer v)
  | .u bits => inferInstanceAs (Decidable (0 ≤ v ∧ v < 2 ^ bits))
  | .i bits => inferInstanceAs (Decidable (-2 ^ (bits - 1) ≤ v ∧ v < 2 ^ (bits - 1)))
  | .isize => inferInstanceAs (Decidable (-2 ^ (pointer - 1) ≤ v ∧ v < 2 ^ (pointer - 1)))

def DRepr.signed : DRepr → Bool
  | .u _ => false
  | _ => true

/-- Only numbers in range are values. -/
def DRepr.checked (pointer : Nat) (r : DRepr) (v : Int) : Option Int := if r.inRange pointer v then some v else none

mutual
/-- The value of an expression as a constant of a type; `none` if it is rejected. -/
def DExpr.value (pointer : Nat) (r : DRepr) : DExpr → Option Int
  | .lit n suffix => if suffix = none ∨ suffix = some r then r.checked pointer n else none
  | .neg e => if r.signed then e.negated pointer r else none
  | .group e => e.value pointer r
  | .add a b => (a.value pointer r).bind fun x => (b.value pointer r).bind fun y => r.checked pointer (x + y)
  | .other v => (v r).bind (r.checked pointer)

/-- The value of an expression behind a minus sign: the literal of the least number is allowed there. -/
def DExpr.negated (pointer : Nat) (r : DRepr) : DExpr → Option Int
  | .lit n suffix => if suffix = none ∨ suffix = some r then r.checked pointer (-n) else none
  | .neg e => if r.signed then (e.negated pointer r).bind fun v => r.checked pointer (-v) else none
  | .group e => e.negated pointer r
  | .add a b => (a.value pointer r).bind fun x => (b.value pointer r).bind fun y =>
      (r.checked pointer (x + y)).bind fun v => r.checked pointer (-v)
  | .other v => ((v r).bind (r.checked pointer)).bind fun v => r.checked pointer (-v)
end

/-- The discriminants: the given one, or one more than the one before, or zero. -/
def discriminants (pointer : Nat) (r : DRepr) : Option Int → List (Option DExpr) → Option (List Int)
  | _, [] => some []
  | prev, given :: rest =>
    let d := match given, prev with
      | some e, _ => e.value pointer r
      | none, some p => r.checked pointer (p + 1)
      | none, none => some 0
    match d with
    | none => none
    | some d => (discriminants pointer r (some d) rest).map (d :: ·)

end Musli.Zero
