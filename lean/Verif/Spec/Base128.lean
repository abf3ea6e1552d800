import Verif.Basic
/-!
# Specification: little-endian base-128 numbers

Independent of the code: what a run of 7-bit groups with continuation bits
denotes and when it is well-formed.
-/
namespace Musli.Spec

/-- The number denoted by 7-bit groups, least significant group first. -/
def denote : Bytes → Nat
  | [] => 0
  | b :: s => b.toNat % 128 + 128 * denote s

/-- Every byte but the last has the continuation bit, the last one has not. -/
def WellFormed (bs : Bytes) : Prop :=
  ∃ init last, bs = init ++ [last] ∧ (∀ b ∈ init, 128 ≤ b.toNat) ∧ last.toNat < 128

/-- `⌈bits / 7⌉` groups, at least one, where `bits` is the length of `n` in
binary: the least `k ≥ 1` with `n < 128 ^ k`. -/
def IsGroupCount (n k : Nat) : Prop :=
  1 ≤ k ∧ n < 128 ^ k ∧ (1 < k → 128 ^ (k - 1) ≤ n)

end Musli.Spec
