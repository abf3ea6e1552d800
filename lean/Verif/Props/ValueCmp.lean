import Verif.Proofs.ValueLaws
import Verif.Props.Samples
/-!
# C117: comparing values
-/
set_option linter.unusedSectionVars false
namespace Musli
open Musli Musli.Spec

/-- `Value::Sequence([1u8, "é", 1.5f64])`. -/
def sampleSeq (last : BitVec 64) : Value :=
  .seq [.number (.uint .w8 1#8), .string ⟨utf8% "é", by decide⟩, .number (.f64 last)]

/-- **C117**: `==` is equality, with numbers compared as numbers: `0.0 == -0.0`, and a NaN is not equal to
anything. -/
theorem C117_eq (a b : Value) : eqValue a b = true ↔ Same a b := (right a b).eqb

example : eqValue (sampleSeq 0x0000000000000000#64) (sampleSeq 0x8000000000000000#64) = true := by decide +kernel

example : eqValue (sampleSeq 0x7FF8000000000000#64) (sampleSeq 0x7FF8000000000000#64) = false := by decide +kernel

/-- **C117**: `partial_cmp` is the lexicographic order of values of the same kind. -/
theorem C117_order (a b : Value) :
    (cmpValue a b = some .lt ↔ Less a b) ∧ (cmpValue a b = some .gt ↔ Less b a) ∧
    (cmpValue a b = some .eq ↔ Same a b) := by
  refine ⟨(right a b).lt, ?_, (right a b).eq⟩
  rw [← (right b a).lt, (right a b).swap]
  cases cmpValue a b with
  | none => simp
  | some o => cases o <;> simp [Ordering.swap]

example : cmpValue (sampleSeq 0xBFF8000000000000#64) (sampleSeq 0x3FF8000000000000#64) = some .lt := by
  decide +kernel

/-- **C117**: `partial_cmp` and `==` agree. -/
theorem C117_consistent (a b : Value) : cmpValue a b = some .eq ↔ eqValue a b = true := by
  rw [(right a b).eq, (right a b).eqb]

/-- **C117**: swapping what is compared swaps the result. -/
theorem C117_dual (a b : Value) : cmpValue b a = (cmpValue a b).map Ordering.swap := (right a b).swap

/-- **C117**: `==` is symmetric and transitive, and reflexive for values without NaN and for no others. -/
theorem C117_equivalence (a b c : Value) :
    (eqValue a b = eqValue b a) ∧
    (eqValue a b = true → eqValue b c = true → eqValue a c = true) ∧
    (eqValue a a = true ↔ NoNaN a) := by
  refine ⟨?_, ?_, ?_⟩
  · rw [Bool.eq_iff_iff, ← C117_consistent, ← C117_consistent, C117_dual a b]
    cases cmpValue a b with
    | none => simp
    | some o => cases o <;> simp [Ordering.swap]
  · rw [← C117_consistent, ← C117_consistent, ← C117_consistent]
    exact fun h1 h2 => ct_value a b c _ _ _ h1 h2 (.eqL _)
  · rw [C117_eq]; exact same_self a

example : NoNaN (sampleSeq 0x3FF8000000000000#64) :=
  .seq (.cons (.number (fun _ h => nomatch h) (fun _ h => nomatch h)) (.cons (.string _) (.cons
    (.number (fun _ h => nomatch h) (fun _ h => by cases h; unfold Spec.Float.Format.IsNaN; decide +kernel)) .nil)))

/-- **C117**: `<` is a strict order, and equal values are in the same place of it. -/
theorem C117_transitive (a b c : Value) :
    (cmpValue a b = some .lt → cmpValue b c = some .lt → cmpValue a c = some .lt) ∧
    (cmpValue a b = some .lt → eqValue b c = true → cmpValue a c = some .lt) ∧
    (eqValue a b = true → cmpValue b c = some .lt → cmpValue a c = some .lt) ∧
    cmpValue a a ≠ some .lt := by
  refine ⟨fun h1 h2 => ct_value a b c _ _ _ h1 h2 .lt, ?_, ?_, ?_⟩
  · rw [← C117_consistent]; exact fun h1 h2 => ct_value a b c _ _ _ h1 h2 (.eqR _)
  · rw [← C117_consistent]; exact fun h1 h2 => ct_value a b c _ _ _ h1 h2 (.eqL _)
  · intro h
    have h' := C117_dual a a
    rw [h] at h'
    cases h'

/-- **C117**: the order of the bit patterns of floats is the order of the numbers they stand for. -/
theorem C117_float_order (a b : BitVec 64) (ha : ¬ Spec.Float.f64.IsNaN a.toNat)
    (hb : ¬ Spec.Float.f64.IsNaN b.toNat) :
    (cmpValue (.number (.f64 a)) (.number (.f64 b)) = some .lt ↔
      Spec.Float.f64.signed a.toNat < Spec.Float.f64.signed b.toNat) ∧
    (eqValue (.number (.f64 a)) (.number (.f64 b)) = true ↔
      Spec.Float.f64.signed a.toNat = Spec.Float.f64.signed b.toNat) := by
  constructor
  · rw [(C117_order _ _).1]
    constructor
    · intro h
      cases h with
      | number h =>
        cases h with
        | f64 _ _ h => exact h
        | rank h => exact absurd h (Nat.lt_irrefl _)
    · intro h; exact .number (.f64 ha hb h)
  · rw [C117_eq]
    constructor
    · intro h
      cases h with
      | number h => cases h with | f64 _ _ h => exact h
    · intro h; exact .number (.f64 ha hb h)

/-- **C117**: two numbers of different types are never equal, and always in an order, which is that of their
types and not of their values. -/
theorem C117_numbers_by_type (a b : Number) (h : rank a < rank b) :
    cmpValue (.number a) (.number b) = some .lt ∧ eqValue (.number a) (.number b) = false := by
  have hl := (C117_order (.number a) (.number b)).1.mpr (.number (.rank h))
  refine ⟨hl, ?_⟩
  rw [Bool.eq_false_iff, Ne, ← C117_consistent, hl]
  intro h; cases h

/-- `200u8` is less than `1u16`, and `5u128` less than `-1i8`. -/
example : cmpValue (.number (.uint .w8 200#8)) (.number (.uint .w16 1#16)) = some .lt ∧
    cmpValue (.number (.uint .w128 5#128)) (.number (.sint .w8 255#8)) = some .lt :=
  ⟨(C117_numbers_by_type _ _ (by decide)).1, (C117_numbers_by_type _ _ (by decide)).1⟩

end Musli
