import Verif.Proofs.Zero.Probe
/-!
# Tables: the control bytes as a function of the bucket
-/
namespace Musli.Zero.Swiss
open Musli

/-- The control bytes are those of the buckets `0..B`, followed by copies; small tables have `EMPTY`
bytes in between. -/
structure View (W B : Nat) (c : Nat → Byte) (ctrl : Bytes) : Prop where
  long : B + W ≤ ctrl.length
  at_ : ∀ x, x < B + W → ctrl[x]? = some (if B ≤ x ∧ x < W then empty else c (x % B))

theorem View.at_lt {W B : Nat} {c : Nat → Byte} {ctrl : Bytes} (h : View W B c ctrl) {i : Nat} (hi : i < B) :
    ctrl[i]? = some (c i) := by
  rw [h.at_ i (by omega), if_neg (by omega), Nat.mod_eq_of_lt hi]

/-- The bucket is one of those which a group covers. -/
def InGrp (W B p idx : Nat) : Prop := B < W ∨ ∃ r, r < W ∧ (p + r) % B = idx

theorem pow_dvd_of_lt {a b : Nat} (h : 2 ^ b < 2 ^ a) : 2 ^ b ∣ 2 ^ a :=
  Nat.pow_dvd_pow 2 (by
    rcases Nat.lt_or_ge a b with h1 | h1
    · have := Nat.pow_le_pow_right (n := 2) (by decide) (Nat.le_of_lt h1); omega
    · exact h1)

/-- What a group loaded at `p` has. -/
theorem group_bytes {g : Group} {a b : Nat} {c : Nat → Byte} {ctrl : Bytes} (hw : g.width = 2 ^ a)
    (h : View g.width (2 ^ b) c ctrl) (hc : ∀ i, i < 2 ^ b → IsCtrl (c i)) (p : Nat) (hp : p < 2 ^ b) :
    ∃ s, groupAt g ctrl p = some s ∧ s.length = g.width ∧ (∀ x ∈ s, IsCtrl x) ∧
      (∀ r x, s[r]? = some x → r < g.width ∧ (x = c ((p + r) % 2 ^ b) ∨ x = empty)) ∧
      (∀ idx, idx < 2 ^ b → InGrp g.width (2 ^ b) p idx → ∃ r : Nat, s[r]? = some (c idx) ∧ (p + r) % 2 ^ b = idx) ∧
      (2 ^ b < g.width → empty ∈ s) ∧
      (g.width ≤ 2 ^ b → empty ∈ s → ∃ r, r < g.width ∧ c ((p + r) % 2 ^ b) = empty) ∧
      (∀ r, r < g.width → s[r]? = ctrl[p + r]?) := by
  have hB : 0 < 2 ^ b := Nat.two_pow_pos b
  have hlen := h.long
  have hget : ∀ r, r < g.width → ((ctrl.drop p).take g.width)[r]? = ctrl[p + r]? := by
    intro r hr
    rw [List.getElem?_take_of_lt hr, List.getElem?_drop]
  have hslen : ((ctrl.drop p).take g.width).length = g.width := by
    rw [List.length_take, List.length_drop]; omega
  have hval : ∀ r x, ((ctrl.drop p).take g.width)[r]? = some x → r < g.width ∧
      (x = c ((p + r) % 2 ^ b) ∨ x = empty) := by
    intro r x hx
    have hr : r < g.width := by
      have := (List.getElem?_eq_some_iff.1 hx).1
      omega
    refine ⟨hr, ?_⟩
    rw [hget r hr, h.at_ _ (by omega)] at hx
    cases hx
    split
    · exact .inr rfl
    · exact .inl rfl
  refine ⟨(ctrl.drop p).take g.width, ?_, hslen, ?_, hval, ?_, ?_, ?_, hget⟩
  · unfold groupAt
    rw [if_pos (by omega)]
  · intro x hx
    obtain ⟨r, hr⟩ := List.mem_iff_getElem?.1 hx
    rcases (hval r x hr).2 with rfl | rfl
    · exact hc _ (Nat.mod_lt _ hB)
    · exact .inr rfl
  · intro idx hidx hin
    by_cases hsm : 2 ^ b < g.width
    · have hdvd : 2 ^ b ∣ g.width := by
        rw [hw] at hsm ⊢
        exact pow_dvd_of_lt hsm
      by_cases hpi : p ≤ idx
      · refine ⟨idx - p, ?_, ?_⟩
        · rw [hget _ (by omega), show p + (idx - p) = idx by omega, h.at_lt hidx]
        · rw [show p + (idx - p) = idx by omega, Nat.mod_eq_of_lt hidx]
      · refine ⟨g.width + idx - p, ?_, ?_⟩
        · rw [hget _ (by omega), show p + (g.width + idx - p) = g.width + idx by omega,
            h.at_ _ (by omega), if_neg (by omega), Nat.add_mod, Nat.mod_eq_zero_of_dvd hdvd, Nat.zero_add,
            Nat.mod_mod, Nat.mod_eq_of_lt hidx]
        · rw [show p + (g.width + idx - p) = g.width + idx by omega, Nat.add_mod,
            Nat.mod_eq_zero_of_dvd hdvd, Nat.zero_add, Nat.mod_mod, Nat.mod_eq_of_lt hidx]
    · rcases hin with hin | ⟨r, hr, hri⟩
      · omega
      · refine ⟨r, ?_, hri⟩
        rw [hget r hr, h.at_ _ (by omega), if_neg (by omega), hri]
  · intro hsm
    rw [List.mem_iff_getElem?]
    refine ⟨2 ^ b - p, ?_⟩
    rw [hget _ (by omega), show p + (2 ^ b - p) = 2 ^ b by omega, h.at_ _ (by omega), if_pos (by omega)]
  · intro hbig hm
    obtain ⟨r, hr⟩ := List.mem_iff_getElem?.1 hm
    have hrw := (hval r _ hr).1
    refine ⟨r, hrw, ?_⟩
    rw [hget r hrw, h.at_ _ (by omega), if_neg (by omega)] at hr
    exact Option.some.inj hr

/-- The new control bytes. -/
def upd (c : Nat → Byte) (i : Nat) (x : Byte) : Nat → Byte := fun j => if j = i then x else c j

theorem and_mask (x b : Nat) : x &&& (2 ^ b - 1) = x % 2 ^ b := Nat.and_two_pow_sub_one_eq_mod x b

theorem setCtrl_view {g : Group} {a b : Nat} {c : Nat → Byte} {ctrl : Bytes} (hw : g.width = 2 ^ a) (hw16 : g.width ≤ 16)
    (h : View g.width (2 ^ b) c ctrl) (hb : b ≤ 64) (i : Nat) (hi : i < 2 ^ b) (x : Byte) :
    ∃ ctrl', setCtrl g ctrl (2 ^ b - 1) i x = .ok ctrl' ∧ View g.width (2 ^ b) (upd c i x) ctrl' ∧
      ctrl'.length = ctrl.length := by
  have hB : 0 < 2 ^ b := Nat.two_pow_pos b
  have hW : 0 < g.width := by rw [hw]; exact Nat.two_pow_pos a
  have hlen := h.long
  have hd64 : 2 ^ b ∣ 2 ^ 64 := Nat.pow_dvd_pow 2 hb
  have hB64 : 2 ^ b ≤ 2 ^ 64 := Nat.le_of_dvd (by decide) hd64
  -- the place of the copy
  have hi2 : ((i + 2 ^ 64 - g.width) % 2 ^ 64 &&& (2 ^ b - 1)) + g.width =
      (if 2 ^ b < g.width then g.width + i else if i < g.width then 2 ^ b + i else i) := by
    rw [and_mask, Nat.mod_mod_of_dvd _ hd64]
    obtain ⟨q, hq⟩ := hd64
    by_cases hsm : 2 ^ b < g.width
    · rw [if_pos hsm]
      have hdvd : 2 ^ b ∣ g.width := by
        rw [hw] at hsm ⊢
        exact pow_dvd_of_lt hsm
      obtain ⟨w, hw'⟩ := hdvd
      have hwq : w ≤ q := by
        apply Nat.le_of_mul_le_mul_left _ hB
        rw [← hq, ← hw']
        omega
      have : i + 2 ^ 64 - g.width = i + 2 ^ b * (q - w) := by
        rw [Nat.mul_sub, ← hq, ← hw']
        omega
      rw [this, Nat.add_mul_mod_self_left, Nat.mod_eq_of_lt hi, Nat.add_comm]
    · rw [if_neg hsm]
      by_cases hlt : i < g.width
      · rw [if_pos hlt]
        have hq0 : 0 < q := by
          rcases Nat.eq_zero_or_pos q with h0 | h0
          · rw [h0, Nat.mul_zero] at hq; simp at hq
          · exact h0
        have : i + 2 ^ 64 - g.width = (i + 2 ^ b - g.width) + 2 ^ b * (q - 1) := by
          rw [Nat.mul_sub, Nat.mul_one, ← hq]
          omega
        rw [this, Nat.add_mul_mod_self_left, Nat.mod_eq_of_lt (by omega)]
        omega
      · rw [if_neg hlt]
        have : i + 2 ^ 64 - g.width = (i - g.width) + 2 ^ b * q := by
          rw [← hq]
          omega
        rw [this, Nat.add_mul_mod_self_left, Nat.mod_eq_of_lt (by omega)]
        omega
  unfold setCtrl
  dsimp only
  rw [hi2]
  have hlt2 : (if 2 ^ b < g.width then g.width + i else if i < g.width then 2 ^ b + i else i) < 2 ^ b + g.width := by
    split
    · omega
    · split <;> omega
  rw [if_pos ⟨by omega, by omega⟩]
  refine ⟨_, rfl, ⟨?_, ?_⟩, ?_⟩
  · rw [List.length_set, List.length_set]; exact hlen
  · intro y hy
    rw [List.getElem?_set, List.getElem?_set]
    rw [List.length_set]
    have hold := h.at_ y hy
    by_cases hsm : 2 ^ b < g.width
    · have hdvd : 2 ^ b ∣ g.width := by
        rw [hw] at hsm ⊢
        exact pow_dvd_of_lt hsm
      rw [if_pos hsm]
      by_cases h1 : g.width + i = y
      · have hm : y % 2 ^ b = i := by
          rw [← h1, Nat.add_mod, Nat.mod_eq_zero_of_dvd hdvd, Nat.zero_add, Nat.mod_mod, Nat.mod_eq_of_lt hi]
        rw [if_pos h1, if_pos (by omega), if_neg (by omega), hm]
        simp [upd]
      · rw [if_neg h1]
        by_cases h2 : i = y
        · rw [if_pos h2, if_pos (by omega), if_neg (by omega), ← h2, Nat.mod_eq_of_lt hi]
          simp [upd]
        · rw [if_neg h2, hold]
          split
          · rfl
          · have : y % 2 ^ b ≠ i := by
              intro h3
              rename_i h4
              rcases Nat.lt_or_ge y (2 ^ b) with h5 | h5
              · rw [Nat.mod_eq_of_lt h5] at h3; omega
              · obtain ⟨w, hw'⟩ := hdvd
                have e : y = (y - g.width) + 2 ^ b * w := by rw [← hw']; omega
                rw [e, Nat.add_mul_mod_self_left, Nat.mod_eq_of_lt (by omega)] at h3
                omega
            simp [upd, this]
    · rw [if_neg hsm]
      have hne : ¬(2 ^ b ≤ y ∧ y < g.width) := by omega
      rw [if_neg hne] at hold ⊢
      by_cases h2 : i = y
      · have hyb : y % 2 ^ b = i := by rw [← h2, Nat.mod_eq_of_lt hi]
        rw [hyb]
        have hyl : y < ctrl.length := by omega
        simp [upd, h2, hyl]
        intro h9
        rw [if_neg (by omega)]
        exact hyl
      · rw [if_neg h2, hold]
        rcases Nat.lt_or_ge y (2 ^ b) with h5 | h5
        · rw [Nat.mod_eq_of_lt h5]
          have : y ≠ i := by omega
          rw [if_neg]
          · simp [upd, this]
          · split <;> omega
        · have hyb : y % 2 ^ b = y - 2 ^ b := by
            rw [Nat.mod_eq_sub_mod h5, Nat.mod_eq_of_lt (by omega)]
          rw [hyb]
          by_cases h6 : y - 2 ^ b = i
          · rw [if_pos (by rw [if_pos (by omega)]; omega), if_pos (by rw [if_pos (by omega)]; omega)]
            simp [upd, h6]
          · rw [if_neg]
            · simp [upd, h6]
            · split <;> omega
  · rw [List.length_set, List.length_set]

theorem new_view (g : Group) (B : Nat) {V : Type} (zero : V) :
    View g.width B (fun _ => empty) (newTable g B zero).ctrl := by
  refine ⟨?_, ?_⟩
  · simp only [newTable, List.length_replicate]; omega
  · intro x hx
    simp only [newTable, ite_self]
    rw [List.getElem?_replicate, if_pos (by omega)]

theorem take_view {W B : Nat} {c : Nat → Byte} {ctrl : Bytes} (h : View W B c ctrl) :
    View W B c (ctrl.take (B + W)) := by
  have := h.long
  refine ⟨?_, ?_⟩
  · rw [List.length_take]; omega
  · intro x hx
    rw [List.getElem?_take_of_lt hx]
    exact h.at_ x hx

end Musli.Zero.Swiss
