import Verif.Proofs.Zero.Groups
/-!
# Triangular probing reaches every group
-/
namespace Musli.Zero.Swiss
open Musli

/-- Triangular numbers. -/
def tri : Nat → Nat
  | 0 => 0
  | n + 1 => tri n + (n + 1)

theorem tri_double (n : Nat) : 2 * tri n = n * (n + 1) := by
  induction n with
  | zero => rfl
  | succ n ih =>
    rw [tri, Nat.mul_add, ih, ← Nat.add_mul]
    rw [Nat.mul_comm, Nat.add_comm n 2]

theorem tri_sub (i d : Nat) : 2 * tri (i + d) = 2 * tri i + d * (2 * i + d + 1) := by
  rw [tri_double, tri_double]
  simp only [Nat.mul_add, Nat.add_mul, Nat.mul_one, Nat.two_mul]
  have := Nat.mul_comm i d
  omega

theorem odd_coprime (a k : Nat) (h : a % 2 = 1) : Nat.Coprime (2 ^ k) a := by
  apply Nat.Coprime.pow_left
  unfold Nat.Coprime
  rw [Nat.gcd_rec, h]
  decide

theorem tri_inj (m i d : Nat) (hd : 0 < d) (hj : i + d < 2 ^ m) (h : tri (i + d) % 2 ^ m = tri i % 2 ^ m) : False := by
  have hle : tri i ≤ tri (i + d) := by
    have := tri_sub i d
    omega
  have h1 : 2 ^ m ∣ tri (i + d) - tri i := by
    apply Nat.dvd_of_mod_eq_zero
    exact Nat.sub_mod_eq_zero_of_mod_eq h
  have h2 : 2 ^ (m + 1) ∣ d * (2 * i + d + 1) := by
    have := tri_sub i d
    obtain ⟨q, hq⟩ := h1
    refine ⟨q, ?_⟩
    rw [Nat.pow_succ, Nat.mul_comm (2 ^ m) 2, Nat.mul_assoc, ← hq]
    omega
  have hp : 2 ^ (m + 1) = 2 * 2 ^ m := by rw [Nat.pow_succ, Nat.mul_comm]
  rcases Nat.mod_two_eq_zero_or_one d with h3 | h3
  · have h4 := (odd_coprime (2 * i + d + 1) (m + 1) (by omega)).dvd_of_dvd_mul_right h2
    have := Nat.le_of_dvd hd h4
    omega
  · have h4 := (odd_coprime d (m + 1) h3).dvd_of_dvd_mul_left h2
    have := Nat.le_of_dvd (by omega) h4
    omega

theorem tri_surj (m q : Nat) (hq : q < 2 ^ m) : ∃ J, J < 2 ^ m ∧ tri J % 2 ^ m = q := by
  have hp : 0 < 2 ^ m := Nat.two_pow_pos m
  by_cases h : q ∈ (List.range (2 ^ m)).map (fun J => tri J % 2 ^ m)
  · obtain ⟨J, hJ, rfl⟩ := List.mem_map.1 h
    exact ⟨J, List.mem_range.1 hJ, rfl⟩
  · exfalso
    have hnd : ((List.range (2 ^ m)).map (fun J => tri J % 2 ^ m)).Nodup := by
      rw [List.Nodup, List.pairwise_map]
      refine List.Pairwise.imp_of_mem ?_ List.pairwise_lt_range
      intro a b ha hb hab he
      rw [List.mem_range] at ha hb
      obtain ⟨d, rfl⟩ : ∃ d, b = a + d := ⟨b - a, by omega⟩
      exact tri_inj m a d (by omega) hb he.symm
    have hnd2 : (q :: (List.range (2 ^ m)).map (fun J => tri J % 2 ^ m)).Nodup := List.nodup_cons.2 ⟨h, hnd⟩
    have hsub : (q :: (List.range (2 ^ m)).map (fun J => tri J % 2 ^ m)) ⊆ List.range (2 ^ m) := by
      intro x hx
      rw [List.mem_range]
      rcases List.mem_cons.1 hx with rfl | hx
      · exact hq
      · obtain ⟨J, -, rfl⟩ := List.mem_map.1 hx
        exact Nat.mod_lt _ hp
    have := hnd2.length_le_of_subset hsub
    simp at this
    omega

/-- The position of the `J`th group. -/
def posAt (W B p : Nat) : Nat → Nat
  | 0 => p
  | J + 1 => (posAt W B p J + W * (J + 1)) % B

theorem posAt_closed (W B p : Nat) (hp : p < B) : ∀ J, posAt W B p J = (p + W * tri J) % B
  | 0 => by simp [posAt, tri, Nat.mod_eq_of_lt hp]
  | J + 1 => by
    rw [posAt, posAt_closed W B p hp J, tri, Nat.mod_add_mod, Nat.add_assoc, ← Nat.mul_add]

theorem posAt_lt (W B p : Nat) (hp : p < B) (J : Nat) : posAt W B p J < B := by
  rw [posAt_closed W B p hp]
  exact Nat.mod_lt _ (by omega)

/-- Every index is in one of the first `B / W` groups. -/
theorem posAt_cover (a b p idx : Nat) (hab : a ≤ b) (hp : p < 2 ^ b) (hi : idx < 2 ^ b) :
    ∃ J r, J < 2 ^ (b - a) ∧ r < 2 ^ a ∧ (posAt (2 ^ a) (2 ^ b) p J + r) % 2 ^ b = idx := by
  have hB : 2 ^ b = 2 ^ a * 2 ^ (b - a) := by rw [← Nat.pow_add]; congr 1; omega
  have hW : 0 < 2 ^ a := Nat.two_pow_pos a
  have hdlt : (idx + (2 ^ b - p)) % 2 ^ b < 2 ^ b := Nat.mod_lt _ (by omega)
  have hq : (idx + (2 ^ b - p)) % 2 ^ b / 2 ^ a < 2 ^ (b - a) := by
    rw [Nat.div_lt_iff_lt_mul hW, Nat.mul_comm, ← hB]
    exact hdlt
  obtain ⟨J, hJ, hJq⟩ := tri_surj (b - a) _ hq
  refine ⟨J, (idx + (2 ^ b - p)) % 2 ^ b % 2 ^ a, hJ, Nat.mod_lt _ hW, ?_⟩
  rw [posAt_closed _ _ _ hp, Nat.mod_add_mod]
  have h1 : 2 ^ a * tri J % 2 ^ b = 2 ^ a * ((idx + (2 ^ b - p)) % 2 ^ b / 2 ^ a) := by
    rw [hB, Nat.mul_mod_mul_left, hJq]
    rw [← hB]
  rw [Nat.add_right_comm, Nat.add_mod, h1]
  rw [Nat.mod_add_mod, Nat.add_assoc, Nat.add_comm (_ % 2 ^ a), Nat.div_add_mod, Nat.add_mod_mod]
  rw [show p + (idx + (2 ^ b - p)) = idx + 2 ^ b by omega, Nat.add_mod_right, Nat.mod_eq_of_lt hi]

end Musli.Zero.Swiss
