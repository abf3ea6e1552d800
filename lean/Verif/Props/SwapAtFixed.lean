import Verif.Props.ZeroSwapAt
import Verif.Model.Zero.SwapAtFixed
/-!
# C79 with corrections

`C79_violated_overflow` and `C79_violated_same` need a sum which overflows and references which are the same. With both checked, C79 holds.
-/
namespace Musli.Zero.SwapAt
open Musli

theorem swapped_same (size : Nat) (data : Bytes) (a : Nat) : Swapped size data a a data := by
  refine ⟨rfl, fun i => ?_⟩
  by_cases h : a ≤ i ∧ i < a + size
  · rw [if_pos h]; congr 1; omega
  · rw [if_neg h, if_neg h]

/-- **C79**, the full statement, with the corrections: for all references and in all builds, if both values are in the buffer they are
exchanged, and otherwise the result is an error and nothing is changed. -/
theorem C79_corrected {bits : Nat} (size : Nat) (data : Bytes) (hd : data.length < 2 ^ bits) (a b : Nat) :
    if a + size ≤ data.length ∧ b + size ≤ data.length then
      ∃ d, swapC bits size data a b = .ok d ∧ Swapped size data a b d
    else swapC bits size data a b = .bounds := by
  unfold swapC
  dsimp only
  by_cases hi : a + size ≤ data.length ∧ b + size ≤ data.length
  · rw [if_pos hi, if_neg (by omega), Nat.mod_eq_of_lt (by omega), if_neg (by omega)]
    by_cases hab : a = b
    · rw [if_pos hab]
      exact ⟨data, rfl, hab ▸ swapped_same size data a⟩
    · rw [if_neg hab]
      obtain ⟨d, h1, h2⟩ := copies_ok hi.1 hi.2
      exact ⟨d, by rw [h1], h2⟩
  · rw [if_neg hi]
    by_cases ho : max a b + size ≥ 2 ^ bits
    · rw [if_pos ho]
    · rw [if_neg ho, Nat.mod_eq_of_lt (by omega), if_pos (by omega)]

/-- With the corrections, whatever the code exchanges is exchanged in the same way, if the values are in the buffer. -/
theorem C79_corrected_same {bits : Nat} (checked : Bool) (size : Nat) (data : Bytes) (hd : data.length < 2 ^ bits) (a b : Nat)
    (ha : a + size ≤ data.length) (hb : b + size ≤ data.length) :
    swapC bits size data a b = swap bits checked size data a b := by
  unfold swapC swap
  dsimp only
  rw [if_neg (by omega), Nat.mod_eq_of_lt (by omega : max a b + size < 2 ^ bits), if_neg (by omega)]
  by_cases hab : a = b
  · rw [if_pos hab, if_pos hab]
  · rw [if_neg hab, if_neg hab, if_neg (by omega), if_neg (by omega)]
    cases copies data a b size <;> rfl

/-! ## Examples -/

example : swapC 64 4 [0, 1, 2, 3, 4, 5, 7] 1 2 = .ok [0, 2, 1, 2, 3, 4, 7] := by decide +kernel
example : swapC 64 4 [0, 1, 2, 3] 0 (2 ^ 64 - 1) = .bounds ∧ swap 64 false 4 [0, 1, 2, 3] 0 (2 ^ 64 - 1) = .undefined := by
  decide +kernel
example : swapC 64 4 [0, 1, 2, 3] 9 9 = .bounds ∧ swap 64 false 4 [0, 1, 2, 3] 9 9 = .ok [0, 1, 2, 3] := by decide +kernel

end Musli.Zero.SwapAt
