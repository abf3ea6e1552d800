import Verif.Model.Value.Value
import Verif.Model.Text
/-!
# Comparison of `Value`s, `value/value.rs:120-161`

Comparisons of slices, tuples and options are those of the standard library.
-/
namespace Musli

/-- The place of a floating point number in their order, by its bit pattern: sign and magnitude, and `none`
for NaN. `e` bits of exponent and `m` of the significand. The comparison of `f32` and `f64` is a primitive of
the machine; that this is the order of the numbers is proved (`C117_float_order`). -/
def floatKey (e m : Nat) (bits : Nat) : Option Int :=
  let a := bits % 2 ^ (e + m)
  if (2 ^ e - 1) * 2 ^ m < a then none
  else some (if 2 ^ (e + m) ≤ bits then -(a : Int) else a)

/-- The discriminants of `enum Number`, `value/value.rs:166-195`. -/
def Number.disc : Number → Int
  | .uint .w8 _ => 0 | .uint .w16 _ => 1 | .uint .w32 _ => 2 | .uint .w64 _ => 3 | .uint .w128 _ => 4
  | .sint .w8 _ => 5 | .sint .w16 _ => 6 | .sint .w32 _ => 7 | .sint .w64 _ => 8 | .sint .w128 _ => 9
  | .usize _ => 10 | .isize _ => 11 | .f32 _ => 12 | .f64 _ => 13

/-- The place of the payload in the order of its type. -/
def Number.key : Number → Option Int
  | .uint _ v => some v.toNat
  | .sint _ v => some v.toInt
  | .usize v => some v.toNat
  | .isize v => some v.toInt
  | .f32 v => floatKey 8 23 v.toNat
  | .f64 v => floatKey 11 52 v.toNat

/-- `Ord::cmp` for integers. -/
def cmpInt (a b : Int) : Ordering := if a < b then .lt else if b < a then .gt else .eq

/-- `PartialOrd` for what has a place, or has none. -/
def cmpKey : Option Int → Option Int → Option Ordering
  | some a, some b => some (cmpInt a b)
  | _, _ => none

/-- `derive(PartialEq)`, `value/value.rs:164`: the same variant and equal payloads. -/
def Number.eq (a b : Number) : Bool :=
  if a.disc = b.disc then
    match a.key, b.key with
    | some x, some y => decide (x = y)
    | _, _ => false
  else false

/-- `derive(PartialOrd)`, `value/value.rs:164`: payloads of the same variant, otherwise the discriminants. -/
def Number.cmp (a b : Number) : Option Ordering :=
  if a.disc = b.disc then cmpKey a.key b.key else some (cmpInt a.disc b.disc)

/-- Lexicographic comparison: the second counts if the first is `Some(Equal)`. -/
def thenCmp : Option Ordering → Option Ordering → Option Ordering
  | some .eq, y => y
  | x, _ => x

/-- `bool::cmp`. -/
def cmpBool (a b : Bool) : Ordering := cmpInt (if a then 1 else 0) (if b then 1 else 0)

mutual

/-- `Value::eq`, `value/value.rs:124-137`. Values which are not of the same variant are not equal; of the last
arm only `(Unit, Unit)` has equal discriminants. -/
def eqValue : Value → Value → Bool
  | .unit, .unit => true
  | .bool a, .bool b => a == b
  | .char a, .char b => a == b
  | .number a, .number b => a.eq b
  | .bytes a, .bytes b => a == b
  | .string a, .string b => a.bytes == b.bytes
  | .seq a, .seq b => eqValues a b
  | .map a, .map b => eqPairs a b
  | .variant a x, .variant b y => eqValue a b && eqValue x y
  | .none, .none => true
  | .some a, .some b => eqValue a b
  | _, _ => false

/-- `[Value]::eq`. -/
def eqValues : List Value → List Value → Bool
  | [], [] => true
  | a :: l, b :: r => eqValue a b && eqValues l r
  | _, _ => false

/-- `[(Value, Value)]::eq`. -/
def eqPairs : List (Value × Value) → List (Value × Value) → Bool
  | [], [] => true
  | (a, x) :: l, (b, y) :: r => (eqValue a b && eqValue x y) && eqPairs l r
  | _, _ => false

end

mutual

/-- `Value::partial_cmp`, `value/value.rs:145-160`. -/
def cmpValue : Value → Value → Option Ordering
  | .unit, .unit => some .eq
  | .bool a, .bool b => some (cmpBool a b)
  | .char a, .char b => some (cmpInt a.toNat b.toNat)
  | .number a, .number b => a.cmp b
  | .bytes a, .bytes b => some (Text.cmpBytes a b)
  | .string a, .string b => some (Text.cmpBytes a.bytes b.bytes)
  | .seq a, .seq b => cmpValues a b
  | .map a, .map b => cmpPairs a b
  | .variant a x, .variant b y => thenCmp (cmpValue a b) (cmpValue x y)
  | .none, .none => some .eq
  | .none, .some _ => some .lt
  | .some _, .none => some .gt
  | .some a, .some b => cmpValue a b
  | _, _ => none

/-- `[Value]::partial_cmp`. -/
def cmpValues : List Value → List Value → Option Ordering
  | [], [] => some .eq
  | [], _ :: _ => some .lt
  | _ :: _, [] => some .gt
  | a :: l, b :: r => thenCmp (cmpValue a b) (cmpValues l r)

/-- `[(Value, Value)]::partial_cmp`. -/
def cmpPairs : List (Value × Value) → List (Value × Value) → Option Ordering
  | [], [] => some .eq
  | [], _ :: _ => some .lt
  | _ :: _, [] => some .gt
  | (a, x) :: l, (b, y) :: r => thenCmp (thenCmp (cmpValue a b) (cmpValue x y)) (cmpPairs l r)

end

end Musli
