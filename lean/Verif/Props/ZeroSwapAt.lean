import Verif.Model.Zero.SwapAt
/-!
# C79: swapping values in a buffer
-/
namespace Musli.Zero.SwapAt
open Musli

/-- The bytes after the values of `n` bytes at `a` and `b` are exchanged: the second value is what the first one
was. The first value is what the second one was, except for what belongs to both. Nothing else changes. -/
def Swapped (n : Nat) (data : Bytes) (a b : Nat) (data' : Bytes) : Prop :=
  data'.length = data.length ∧ ∀ i : Nat,
    data'[i]? = if b ≤ i ∧ i < b + n then data[a + (i - b)]?
      else if a ≤ i ∧ i < a + n then data[b + (i - a)]?
      else data[i]?

theorem read_ok {data : Bytes} {p n : Nat} (h : p + n ≤ data.length) : read data p n = some ((data.drop p).take n) :=
  if_pos h

theorem write_ok {data : Bytes} {p : Nat} {b : Bytes} (h : p + b.length ≤ data.length) :
    ∃ d, write data p b = some d ∧ d.length = data.length ∧
      ∀ i : Nat, d[i]? = if p ≤ i ∧ i < p + b.length then b[i - p]? else data[i]? := by
  refine ⟨_, if_pos h, by simp; omega, fun i => ?_⟩
  by_cases h1 : i < p
  · rw [if_neg (by omega), List.append_assoc, List.getElem?_append_left (by simp; omega), List.getElem?_take_of_lt h1]
  · by_cases h2 : i < p + b.length
    · rw [if_pos (by omega), List.append_assoc, List.getElem?_append_right (by simp; omega),
        List.getElem?_append_left (by simp; omega)]
      congr 1
      simp; omega
    · rw [if_neg (by omega), List.getElem?_append_right (by simp; omega), List.getElem?_drop]
      congr 1
      simp; omega

theorem copies_ok {data : Bytes} {a b n : Nat} (ha : a + n ≤ data.length) (hb : b + n ≤ data.length) :
    ∃ d, copies data a b n = some d ∧ Swapped n data a b d := by
  unfold copies
  rw [read_ok ha, read_ok hb]
  have la : ((data.drop a).take n).length = n := by simp; omega
  have lb : ((data.drop b).take n).length = n := by simp; omega
  obtain ⟨d1, e1, l1, g1⟩ := write_ok (data := data) (p := a) (b := (data.drop b).take n) (by omega)
  obtain ⟨d2, e2, l2, g2⟩ := write_ok (data := d1) (p := b) (b := (data.drop a).take n) (by omega)
  dsimp only
  rw [e1]
  refine ⟨d2, e2, by omega, fun i => ?_⟩
  rw [g2, g1, la, lb]
  by_cases hb' : b ≤ i ∧ i < b + n
  · rw [if_pos hb', if_pos hb', List.getElem?_take_of_lt (by omega), List.getElem?_drop]
  · rw [if_neg hb', if_neg hb']
    by_cases ha' : a ≤ i ∧ i < a + n
    · rw [if_pos ha', if_pos ha', List.getElem?_take_of_lt (by omega), List.getElem?_drop]
    · rw [if_neg ha', if_neg ha']

/-- **C79**, what holds: for references which are different, in builds with overflow checks or if the sums do not overflow, if both values are in the
buffer they are exchanged; otherwise the result is an error (or, in a checked build, a panic), and nothing is changed. -/
theorem C79_swap_partial {bits : Nat} (checked : Bool) (size : Nat) (data : Bytes) (hd : data.length < 2 ^ bits) (a b : Nat)
    (hab : a ≠ b) (hs : checked = true ∨ max a b + size < 2 ^ bits) :
    if a + size ≤ data.length ∧ b + size ≤ data.length then
      ∃ d, swap bits checked size data a b = .ok d ∧ Swapped size data a b d
    else swap bits checked size data a b = .bounds ∨
      checked = true ∧ max a b + size ≥ 2 ^ bits ∧ swap bits checked size data a b = .panic := by
  unfold swap
  rw [if_neg hab]
  dsimp only
  by_cases ho : checked = true ∧ max a b + size ≥ 2 ^ bits
  · rw [if_pos ho]
    rw [if_neg (by omega)]
    exact .inr ⟨ho.1, ho.2, rfl⟩
  · rw [if_neg ho]
    have hlt : max a b + size < 2 ^ bits := by
      rcases hs with h | h
      · exact Nat.lt_of_not_le fun h' => ho ⟨h, h'⟩
      · exact h
    rw [Nat.mod_eq_of_lt hlt]
    by_cases hi : a + size ≤ data.length ∧ b + size ≤ data.length
    · rw [if_pos hi, if_neg (by omega)]
      obtain ⟨d, h1, h2⟩ := copies_ok hi.1 hi.2
      exact ⟨d, by rw [h1], h2⟩
    · rw [if_neg hi, if_pos (by omega)]
      exact .inl rfl

/-- **C79**: two disjoint values are exchanged, and swapping them again restores the buffer. -/
theorem C79_twice_partial {bits : Nat} (checked : Bool) (size : Nat) (data : Bytes) (hd : data.length < 2 ^ bits) (a b : Nat)
    (hdis : a + size ≤ b ∨ b + size ≤ a) (ha : a + size ≤ data.length) (hb : b + size ≤ data.length) :
    ∃ d, swap bits checked size data a b = .ok d ∧ swap bits checked size d a b = .ok data := by
  by_cases hab : a = b
  · exact ⟨data, if_pos hab, if_pos hab⟩
  · have hm : max a b + size < 2 ^ bits := by omega
    have h1 := C79_swap_partial checked size data hd a b hab (.inr hm)
    rw [if_pos ⟨ha, hb⟩] at h1
    obtain ⟨d, e1, l1, g1⟩ := h1
    have h2 := C79_swap_partial checked size d (by omega) a b hab (.inr hm)
    rw [if_pos (by omega)] at h2
    obtain ⟨d2, e2, l2, g2⟩ := h2
    refine ⟨d, e1, ?_⟩
    rw [e2]
    congr 1
    apply List.ext_getElem?
    intro i
    rw [g2]
    by_cases hb' : b ≤ i ∧ i < b + size
    · rw [if_pos hb', g1, if_neg (by omega), if_pos (by omega)]
      congr 1
      omega
    · rw [if_neg hb']
      by_cases ha' : a ≤ i ∧ i < a + size
      · rw [if_pos ha', g1, if_pos (by omega)]
        congr 1
        omega
      · rw [if_neg ha', g1, if_neg hb', if_neg ha']

/-- **C79** is violated by builds without overflow checks: with an offset near the end of the address space, which can
come from the data as a `Ref<T, E, usize>`, memory outside of the buffer is accessed. -/
theorem C79_violated_overflow {bits : Nat} (size : Nat) (hs : 1 < size) (hb : size < 2 ^ bits) (data : Bytes)
    (hd : data.length < 2 ^ bits - 1) (h1 : size ≤ data.length) :
    swap bits false size data 0 (2 ^ bits - 1) = .undefined := by
  unfold swap
  rw [if_neg (by omega)]
  dsimp only
  rw [if_neg (by simp), Nat.max_eq_right (by omega), show 2 ^ bits - 1 + size = 2 ^ bits + (size - 1) by omega,
    Nat.add_mod_left, Nat.mod_eq_of_lt (by omega), if_neg (by omega)]
  have : copies data 0 (2 ^ bits - 1) size = none := by
    unfold copies
    rw [read_ok (by omega), show read data (2 ^ bits - 1) size = none from if_neg (by omega)]
  rw [this]

/-- **C79** is violated if the references are the same: it is not checked that they are in the buffer. -/
theorem C79_violated_same (bits : Nat) (checked : Bool) (size : Nat) (data : Bytes) (a : Nat) :
    swap bits checked size data a a = .ok data := if_pos rfl

/-- The second example of the documentation: values which overlap. -/
example : swap 64 true 4 [0, 1, 2, 3, 4, 5, 7] 1 2 = .ok [0, 2, 1, 2, 3, 4, 7] := by decide +kernel

end Musli.Zero.SwapAt
