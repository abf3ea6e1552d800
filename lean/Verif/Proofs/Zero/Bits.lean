import Verif.Model.Zero.Swiss
/-!
# Bit masks of groups
-/
namespace Musli.Zero.Swiss
open Musli

theorem ctz_spec (n : Nat) (h : n ≠ 0) : ∃ q, n = 2 ^ ctz n * (2 * q + 1) := by
  induction n using Nat.strongRecOn with
  | _ n ih =>
    unfold ctz
    split
    case isTrue h' =>
      refine ⟨n / 2, ?_⟩
      simp only [Nat.pow_zero, Nat.one_mul]
      omega
    case isFalse h' =>
      obtain ⟨q, hq⟩ := ih (n / 2) (by omega) (by omega)
      refine ⟨q, ?_⟩
      rw [Nat.pow_succ, Nat.mul_comm _ 2, Nat.mul_assoc, ← hq]
      omega

theorem testBit_ctz (n : Nat) (h : n ≠ 0) : n.testBit (ctz n) = true := by
  obtain ⟨q, hq⟩ := ctz_spec n h
  have := Nat.testBit_two_pow_mul_add (2 * q + 1) (b := 0) (i := ctz n) (by exact Nat.two_pow_pos _) (ctz n)
  rw [Nat.add_zero, ← hq] at this
  rw [this, if_neg (by omega), Nat.sub_self]
  simp [Nat.testBit_zero]

theorem testBit_lt_ctz (n : Nat) (h : n ≠ 0) (i : Nat) (hi : i < ctz n) : n.testBit i = false := by
  obtain ⟨q, hq⟩ := ctz_spec n h
  have := Nat.testBit_two_pow_mul_add (2 * q + 1) (b := 0) (i := ctz n) (by exact Nat.two_pow_pos _) i
  rw [Nat.add_zero, ← hq] at this
  rw [this, if_pos hi, Nat.zero_testBit]

theorem testBit_remove (n : Nat) (h : n ≠ 0) (i : Nat) :
    (n &&& (n - 1)).testBit i = (n.testBit i && decide (i ≠ ctz n)) := by
  obtain ⟨q, hq⟩ := ctz_spec n h
  have hp : 0 < 2 ^ ctz n := Nat.two_pow_pos _
  have h1 := Nat.testBit_two_pow_mul_add (2 * q + 1) (b := 0) (i := ctz n) hp i
  have h2 := Nat.testBit_two_pow_mul_add (2 * q) (b := 2 ^ ctz n - 1) (i := ctz n) (by omega) i
  rw [Nat.add_zero, ← hq] at h1
  have h3 : 2 ^ ctz n * (2 * q) + (2 ^ ctz n - 1) = n - 1 := by
    rw [Nat.mul_add, Nat.mul_one] at hq
    omega
  rw [h3] at h2
  rw [Nat.testBit_and, h1, h2]
  by_cases hi : i < ctz n
  · simp [hi, Nat.zero_testBit]
  · rw [if_neg hi, if_neg hi]
    by_cases he : i = ctz n
    · subst he; simp
    · obtain ⟨d, hd⟩ : ∃ d, i - ctz n = d + 1 := ⟨i - ctz n - 1, by omega⟩
      rw [hd, Nat.testBit_succ, Nat.testBit_succ]
      have e1 : (2 * q + 1) / 2 = q := by omega
      have e2 : 2 * q / 2 = q := by omega
      rw [e1, e2]
      simp [he]

theorem ctz_lt (n N : Nat) (h : n ≠ 0) (hN : n < 2 ^ N) : ctz n < N := by
  rcases Nat.lt_or_ge (ctz n) N with h1 | h1
  · exact h1
  · have := Nat.testBit_lt_two_pow (Nat.lt_of_lt_of_le hN (Nat.pow_le_pow_right (by decide) h1))
    rw [testBit_ctz n h] at this
    cases this

/-- The iterator gives the (scaled) positions of all bits. -/
theorem mem_bits (stride N : Nat) : ∀ (fuel w a : Nat), w < 2 ^ N → N ≤ fuel + a →
    (∀ i, i < a → w.testBit i = false) → ∀ j,
    (j ∈ bits stride fuel w ↔ ∃ t, w.testBit t = true ∧ t / stride = j)
  | 0, w, a, hw, hf, ha, j => by
    have : ∀ t, w.testBit t = false := by
      intro t
      rcases Nat.lt_or_ge t a with h | h
      · exact ha t h
      · exact Nat.testBit_lt_two_pow (Nat.lt_of_lt_of_le hw (Nat.pow_le_pow_right (by decide) (by omega)))
    simp [bits, this]
  | fuel + 1, w, a, hw, hf, ha, j => by
    by_cases h0 : w = 0
    · subst h0
      simp [bits]
    · unfold bits
      rw [if_neg h0]
      have hlo : a ≤ ctz w := by
        rcases Nat.lt_or_ge (ctz w) a with h | h
        · have := ha _ h
          rw [testBit_ctz w h0] at this
          cases this
        · exact h
      have ih := mem_bits stride N fuel (w &&& (w - 1)) (ctz w + 1)
        (Nat.lt_of_le_of_lt Nat.and_le_left hw) (by have := ctz_lt w N h0 hw; omega)
        (by
          intro i hi
          rw [testBit_remove w h0]
          by_cases he : i = ctz w
          · simp [he]
          · rw [testBit_lt_ctz w h0 i (by omega)]; rfl) j
      rw [List.mem_cons, ih]
      constructor
      · rintro (rfl | ⟨t, h1, h2⟩)
        · exact ⟨_, testBit_ctz w h0, rfl⟩
        · rw [testBit_remove w h0, Bool.and_eq_true] at h1
          exact ⟨t, h1.1, h2⟩
      · rintro ⟨t, h1, h2⟩
        by_cases he : t = ctz w
        · subst he; exact .inl h2.symm
        · refine .inr ⟨t, ?_, h2⟩
          rw [testBit_remove w h0, h1]
          simp [he]

theorem mem_toList (m : Mask) (k : Nat) (hk : k < 2 ^ 64) (j : Nat) :
    j ∈ m.toList k ↔ ∃ t, m.word.testBit t = true ∧ k.testBit t = true ∧ t / m.stride = j := by
  unfold Mask.toList
  rw [mem_bits m.stride 64 64 (m.word &&& k) 0 (Nat.lt_of_le_of_lt Nat.and_le_right hk) (by omega)
    (by intro i hi; omega)]
  simp [Nat.testBit_and, and_assoc]

theorem ne_zero_iff_testBit (w : Nat) : w ≠ 0 ↔ ∃ t, w.testBit t = true := by
  constructor
  · intro h; exact ⟨_, testBit_ctz w h⟩
  · rintro ⟨t, h⟩ rfl
    rw [Nat.zero_testBit] at h; cases h

theorem mask_any (m : Mask) : m.any = true ↔ ∃ t, m.word.testBit t = true := by
  unfold Mask.any
  rw [bne_iff_ne]
  exact ne_zero_iff_testBit _

theorem mask_lowest_some (m : Mask) (j : Nat) (h : m.lowest = some j) :
    (∃ t, m.word.testBit t = true ∧ t / m.stride = j) ∧ ∀ t, m.word.testBit t = true → j ≤ t / m.stride := by
  unfold Mask.lowest at h
  split at h
  · cases h
  · rename_i h0
    cases h
    refine ⟨⟨_, testBit_ctz _ h0, rfl⟩, fun t ht => ?_⟩
    rcases Nat.lt_or_ge t (ctz m.word) with h1 | h1
    · rw [testBit_lt_ctz _ h0 t h1] at ht; cases ht
    · exact Nat.div_le_div_right h1

theorem mask_lowest_none (m : Mask) (h : m.lowest = none) (t : Nat) : m.word.testBit t = false := by
  unfold Mask.lowest at h
  split at h
  · rename_i h0
    rw [h0, Nat.zero_testBit]
  · cases h

/-- The bits of a packed word. -/
theorem testBit_pack (w one : Nat) (hw : 0 < w) (ho : one < 2 ^ w) (p : Byte → Bool) : ∀ (s : Bytes) (t : Nat),
    (pack w one p s).testBit t = ((s[t / w]?.map p).getD false && one.testBit (t % w))
  | [], t => by simp [pack]
  | b :: s, t => by
    unfold pack
    have hb : (if p b then one else 0) < 2 ^ w := by
      split
      · exact ho
      · exact Nat.two_pow_pos _
    rw [Nat.add_comm, Nat.testBit_two_pow_mul_add _ hb]
    by_cases ht : t < w
    · rw [if_pos ht, Nat.div_eq_of_lt ht, Nat.mod_eq_of_lt ht]
      simp only [List.getElem?_cons_zero, Option.map_some, Option.getD_some]
      split <;> simp_all
    · rw [if_neg ht, testBit_pack w one hw ho p s (t - w)]
      have e1 : t / w = (t - w) / w + 1 := by
        rw [← Nat.add_div_right _ hw]; congr 1; omega
      have e2 : (t - w) % w = t % w := by
        rw [← Nat.mod_eq_sub_mod (by omega)]
      rw [e1, e2, List.getElem?_cons_succ]

theorem testBit_wordOf : ∀ (s : Bytes) (t : Nat),
    (wordOf s).testBit t = ((s[t / 8]?).getD 0).getLsbD (t % 8)
  | [], t => by simp [wordOf]
  | b :: s, t => by
    unfold wordOf
    rw [Nat.add_comm, show (256 : Nat) = 2 ^ 8 from rfl, Nat.testBit_two_pow_mul_add _ b.isLt]
    by_cases ht : t < 8
    · rw [if_pos ht, Nat.div_eq_of_lt ht, Nat.mod_eq_of_lt ht]
      rfl
    · rw [if_neg ht, testBit_wordOf s (t - 8)]
      have e1 : t / 8 = (t - 8) / 8 + 1 := by omega
      have e2 : (t - 8) % 8 = t % 8 := by omega
      rw [e1, e2, List.getElem?_cons_succ]

end Musli.Zero.Swiss
