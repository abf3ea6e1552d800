import Verif.Model.Int
import Verif.Spec.Base128
namespace Musli.Varint
open Musli.Spec

theorem and_mask (b : Byte) : (b &&& MASK).toNat = b.toNat % 128 := by
  revert b; decide

theorem and_cont_eq (b : Byte) : b &&& CONT = CONT ↔ 128 ≤ b.toNat := by
  revert b; decide

theorem and_cont_zero (b : Byte) : b &&& CONT = 0 ↔ b.toNat < 128 := by
  revert b; decide

theorem or_cont (b : Byte) : (b ||| CONT).toNat = b.toNat % 128 + 128 := by
  revert b; decide

/-- Reference encoder on natural numbers. -/
def natEnc (n : Nat) : Bytes :=
  if h : n < 128 then [BitVec.ofNat 8 n]
  else BitVec.ofNat 8 (n % 128 + 128) :: natEnc (n / 128)
termination_by n
decreasing_by omega

theorem byte_ext {a b : Byte} (h : a.toNat = b.toNat) : a = b := BitVec.eq_of_toNat_eq h

theorem encodeLoop_eq {w : Nat} (fuel : Nat) (v : BitVec w) (hf : v.toNat < 128 ^ fuel)
    (h1 : 1 ≤ fuel) : encodeLoop fuel v (v.setWidth 8) = natEnc v.toNat := by
  induction fuel generalizing v with
  | zero => omega
  | succ n ih =>
    have hs : (v >>> 7).toNat = v.toNat / 128 := by
      simp [BitVec.toNat_ushiftRight, Nat.shiftRight_eq_div_pow]
    have hz : v >>> 7 = 0 ↔ v.toNat < 128 := by
      rw [← BitVec.toNat_inj, hs]; simp
    simp only [encodeLoop]
    rw [natEnc]
    by_cases hc : v.toNat < 128
    · simp only [hz.2 hc, if_true, hc, dite_true]
      congr 1
      apply byte_ext
      rw [and_mask]
      simp
      omega
    · have hz' : ¬ v >>> 7 = 0 := fun h => hc (hz.1 h)
      simp only [if_neg hz', dif_neg hc]
      have hn : 1 ≤ n := by
        rcases n with _ | n
        · simp at hf; omega
        · omega
      rw [ih (v >>> 7) (by rw [hs]; rw [Nat.pow_succ] at hf; omega) hn, hs]
      congr 1
      apply byte_ext
      rw [or_cont]
      simp
      omega

theorem pow_bound {w : Nat} (v : BitVec w) : v.toNat < 128 ^ (w + 1) := by
  have h := v.isLt
  have : (2 : Nat) ^ w ≤ 128 ^ (w + 1) := by
    calc (2 : Nat) ^ w ≤ 128 ^ w := Nat.pow_le_pow_left (by omega) w
      _ ≤ 128 ^ (w + 1) := Nat.pow_le_pow_right (by omega) (by omega)
  omega

theorem encode_eq {w : Nat} (hw : 8 ≤ w) (v : BitVec w) : encode v = natEnc v.toNat := by
  have hc : (CONT.setWidth w).toNat = 128 := by
    simp [CONT]
    have : (2:Nat)^8 ≤ 2^w := Nat.pow_le_pow_right (by omega) hw
    exact Nat.mod_eq_of_lt (by omega)
  unfold encode
  simp only [BitVec.lt_def, hc]
  by_cases h : v.toNat < 128
  · rw [if_pos h, natEnc, dif_pos h]
    congr 1
    apply byte_ext
    simp
  · rw [if_neg h]
    exact encodeLoop_eq _ _ (pow_bound v) (by omega)

theorem denote_natEnc (n : Nat) : denote (natEnc n) = n := by
  induction n using Nat.strongRecOn with
  | ind n ih =>
    rw [natEnc]
    by_cases h : n < 128
    · simp [h, denote]
    · rw [dif_neg h]
      simp only [denote, ih (n/128) (by omega)]
      simp
      omega

theorem wellFormed_natEnc (n : Nat) : WellFormed (natEnc n) := by
  induction n using Nat.strongRecOn with
  | ind n ih =>
    rw [natEnc]
    by_cases h : n < 128
    · rw [dif_pos h]
      exact ⟨[], _, rfl, by simp, by simp; omega⟩
    · rw [dif_neg h]
      obtain ⟨i, l, e, hi, hl⟩ := ih (n/128) (by omega)
      refine ⟨BitVec.ofNat 8 (n % 128 + 128) :: i, l, by simp [e], ?_, hl⟩
      intro b hb
      rcases List.mem_cons.1 hb with rfl | hb
      · simp; omega
      · exact hi b hb

theorem length_natEnc (n : Nat) : IsGroupCount n (natEnc n).length := by
  induction n using Nat.strongRecOn with
  | ind n ih =>
    rw [natEnc]
    by_cases h : n < 128
    · rw [dif_pos h]; refine ⟨by simp, by simpa using h, by simp⟩
    · rw [dif_neg h]
      obtain ⟨h1, h2, h3⟩ := ih (n/128) (by omega)
      refine ⟨by simp, ?_, ?_⟩
      · simp only [List.length_cons, Nat.pow_succ]; omega
      · intro _
        simp only [List.length_cons, Nat.add_sub_cancel]
        generalize (natEnc (n/128)).length = k at *
        rcases k with _ | _ | k
        · omega
        · simp; omega
        · have := h3 (by omega)
          simp only [Nat.add_sub_cancel] at this
          rw [Nat.pow_succ]; omega

/-- Whatever the decoding loop accepts, it consumed a run of groups and added
their (shifted) value. -/
theorem decodeLoop_sound {w : Nat} (s : Bytes) : ∀ (b : Byte) (value : BitVec w) (shift : Nat)
    {v s'}, decodeLoop b value shift s = .ok (v, s') →
    (b.toNat < 128 ∧ v = value ∧ s' = s) ∨
    (128 ≤ b.toNat ∧ ∃ c, s = c ++ s' ∧ WellFormed c ∧ shift + 7 * c.length < w ∧
      v = value + BitVec.ofNat w (denote c * 2 ^ (shift + 7))) := by
  induction s with
  | nil =>
    intro b value shift v s' h
    unfold decodeLoop at h
    by_cases hb : 128 ≤ b.toNat
    · rw [if_pos ((and_cont_eq b).2 hb)] at h; split at h <;> cases h
    · rw [if_neg (fun h' => hb ((and_cont_eq b).1 h'))] at h; cases h
      exact .inl ⟨by omega, rfl, rfl⟩
  | cons b' s ih =>
    intro b value shift v s' h
    unfold decodeLoop at h
    by_cases hb : 128 ≤ b.toNat
    · rw [if_pos ((and_cont_eq b).2 hb)] at h
      split at h
      · cases h
      rename_i hlt
      right
      refine ⟨hb, ?_⟩
      have hsh : (b' &&& MASK).setWidth w <<< (shift + 7)
          = BitVec.ofNat w (b'.toNat % 128 * 2 ^ (shift + 7)) := by
        apply BitVec.eq_of_toNat_eq
        rw [BitVec.toNat_shiftLeft, BitVec.toNat_setWidth, and_mask, BitVec.toNat_ofNat,
          Nat.shiftLeft_eq, Nat.mod_mul_mod]
      rcases ih _ _ _ h with ⟨h1, h2, h3⟩ | ⟨h1, c, h2, h3, h4, h5⟩
      · refine ⟨[b'], by simp [h3], ⟨[], b', rfl, by simp, h1⟩, by simp; omega, ?_⟩
        rw [h2, hsh]; simp [denote]
      · obtain ⟨i, l, e, hi, hl⟩ := h3
        refine ⟨b' :: c, by simp [h2], ⟨b' :: i, l, by simp [e], ?_, hl⟩, by simp; omega, ?_⟩
        · intro x hx
          rcases List.mem_cons.1 hx with rfl | hx
          · exact h1
          · exact hi x hx
        · rw [h5, hsh, BitVec.add_assoc, ← BitVec.ofNat_add]
          have e2 : (2:Nat) ^ (shift + 7 + 7) = 128 * 2 ^ (shift + 7) := by
            rw [Nat.pow_add 2 (shift + 7) 7, Nat.mul_comm]
          have e : b'.toNat % 128 * 2 ^ (shift + 7) + denote c * 2 ^ (shift + 7 + 7)
              = denote (b' :: c) * 2 ^ (shift + 7) := by
            rw [denote, Nat.add_mul, e2, ← Nat.mul_assoc, Nat.mul_comm (denote c) 128]
          rw [e]
    · rw [if_neg (fun h' => hb ((and_cont_eq b).1 h'))] at h; cases h
      exact .inl ⟨by omega, rfl, rfl⟩

theorem decode_sound {w : Nat} (hw : 8 ≤ w) {s : Bytes} {v s'} (h : decode w s = .ok (v, s')) :
    ∃ c, s = c ++ s' ∧ WellFormed c ∧ (c.length = 1 ∨ 7 * (c.length - 1) < w) ∧
      v.toNat = denote c % 2 ^ w := by
  cases s with
  | nil => simp [decode] at h
  | cons b s =>
    simp only [decode] at h
    by_cases hb : b.toNat < 128
    · rw [if_pos ((and_cont_zero b).2 hb)] at h
      cases h
      refine ⟨[b], rfl, ⟨[], b, rfl, by simp, hb⟩, .inl rfl, ?_⟩
      simp [denote, Nat.mod_eq_of_lt hb]
    · rw [if_neg (fun h' => hb ((and_cont_zero b).1 h'))] at h
      rcases decodeLoop_sound _ _ _ _ h with ⟨h1, _, _⟩ | ⟨h1, c, h2, ⟨i, l, e, hi, hl⟩, h4, h5⟩
      · omega
      · refine ⟨b :: c, by simp [h2], ⟨b :: i, l, by simp [e], ?_, hl⟩, .inr (by simp; omega), ?_⟩
        · intro x hx
          rcases List.mem_cons.1 hx with rfl | hx
          · exact h1
          · exact hi x hx
        · have h128 : (2:Nat)^8 ≤ 2^w := Nat.pow_le_pow_right (by omega) hw
          rw [h5]
          simp only [denote, BitVec.toNat_add, BitVec.toNat_setWidth, and_mask, BitVec.toNat_ofNat]
          rw [Nat.mul_comm 128]
          simp

/-- The loop accepts every run of groups which fits into the width. -/
theorem decodeLoop_complete {w : Nat} (i : Bytes) : ∀ (b : Byte) (value : BitVec w) (shift : Nat)
    (l : Byte) (rest : Bytes), 128 ≤ b.toNat → (∀ x ∈ i, 128 ≤ x.toNat) → l.toNat < 128 →
    shift + 7 * (i.length + 1) < w →
    ∃ v, decodeLoop b value shift (i ++ l :: rest) = .ok (v, rest) := by
  induction i with
  | nil =>
    intro b value shift l rest hb _ hl hw
    simp only [List.nil_append]
    unfold decodeLoop
    simp at hw
    rw [if_pos ((and_cont_eq b).2 hb), if_neg (by omega)]
    rw [decodeLoop.eq_def]
    cases rest <;>
    simp only [if_neg (fun h' => by have := (and_cont_eq l).1 h'; omega : ¬ l &&& CONT = CONT)] <;>
    exact ⟨_, rfl⟩
  | cons x i ih =>
    intro b value shift l rest hb hi hl hw
    simp only [List.cons_append]
    simp at hw
    unfold decodeLoop
    rw [if_pos ((and_cont_eq b).2 hb), if_neg (by omega)]
    exact ih _ _ _ _ _ (hi x (by simp)) (fun y hy => hi y (by simp [hy])) hl (by omega)

theorem decode_complete {w : Nat} {c : Bytes} (h : WellFormed c)
    (hl : c.length = 1 ∨ 7 * (c.length - 1) < w) (rest : Bytes) :
    ∃ v, decode w (c ++ rest) = .ok (v, rest) := by
  obtain ⟨i, l, rfl, hi, hl'⟩ := h
  cases i with
  | nil =>
    simp only [List.nil_append, List.singleton_append, decode]
    rw [if_pos ((and_cont_zero l).2 hl')]; exact ⟨_, rfl⟩
  | cons b i =>
    simp only [List.cons_append, List.append_assoc, List.nil_append, decode]
    have hb := hi b (by simp)
    rw [if_neg (fun h' => by have := (and_cont_zero b).1 h'; omega)]
    refine decodeLoop_complete i _ _ _ _ _ hb (fun x hx => hi x (by simp [hx])) hl' ?_
    simp at hl; omega

/-- Two splittings of the same input into a well-formed run and a rest agree. -/
theorem wellFormed_unique {a b r r' : Bytes} (ha : WellFormed a) (hb : WellFormed b)
    (h : a ++ r = b ++ r') : a = b ∧ r = r' := by
  obtain ⟨i, l, rfl, hi, hl⟩ := ha
  obtain ⟨j, m, rfl, hj, hm⟩ := hb
  induction i generalizing j with
  | nil =>
    cases j with
    | nil => simp at h; simp [h]
    | cons y j => simp at h; have := hj y (by simp); rw [← h.1] at this; omega
  | cons x i ih =>
    cases j with
    | nil => simp at h; have := hi x (by simp); rw [h.1] at this; omega
    | cons y j =>
      simp only [List.cons_append, List.cons.injEq] at h
      obtain ⟨h1, h2⟩ := ih (fun z hz => hi z (by simp [hz])) j h.2 (fun z hz => hj z (by simp [hz]))
      simp [h.1, h1, h2]

theorem natEnc_len_le {w n : Nat} (hn : n < 2 ^ w) :
    (natEnc n).length = 1 ∨ 7 * ((natEnc n).length - 1) < w := by
  obtain ⟨h1, _, h3⟩ := length_natEnc n
  generalize (natEnc n).length = k at *
  by_cases hk : 1 < k
  · right
    have h4 := h3 hk
    have h5 : (2:Nat) ^ (7 * (k - 1)) < 2 ^ w := by
      rw [Nat.pow_mul]; exact Nat.lt_of_le_of_lt h4 hn
    exact (Nat.pow_lt_pow_iff_right (by omega)).1 h5
  · left; omega

theorem decode_natEnc {w : Nat} (hw : 8 ≤ w) (v : BitVec w) (rest : Bytes) :
    decode w (natEnc v.toNat ++ rest) = .ok (v, rest) := by
  obtain ⟨v', h⟩ := decode_complete (w := w) (wellFormed_natEnc v.toNat) (natEnc_len_le v.isLt) rest
  obtain ⟨c, h1, h2, _, h3⟩ := decode_sound hw h
  obtain ⟨rfl, _⟩ := wellFormed_unique (wellFormed_natEnc _) h2 h1
  rw [h]
  congr 2
  apply BitVec.eq_of_toNat_eq
  rw [h3, denote_natEnc, Nat.mod_eq_of_lt v.isLt]

theorem decode_encode {w : Nat} (hw : 8 ≤ w) (v : BitVec w) (rest : Bytes) :
    decode w (encode v ++ rest) = .ok (v, rest) := by
  rw [encode_eq hw]; exact decode_natEnc hw v rest

end Musli.Varint
