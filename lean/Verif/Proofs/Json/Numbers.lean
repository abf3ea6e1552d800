import Verif.Spec.Json.Numbers
import Verif.Proofs.Json.Strings
import Verif.Model.Json.Number
/-!
# JSON integers
-/
namespace Musli.Json
open Musli Spec

theorem isDigit_iff (b : Byte) : isDigit b = true ↔ Digit b := by
  unfold isDigit Digit
  simp [BitVec.le_def]

theorem isDigitNonzero_iff (b : Byte) :
    isDigitNonzero b = true ↔ 0x31 ≤ b.toNat ∧ b.toNat ≤ 0x39 := by
  unfold isDigitNonzero
  simp [BitVec.le_def]

theorem valueFrom_cons (n : Nat) (b : Byte) (l : Bytes) :
    valueFrom n (b :: l) = valueFrom (n * 10 + (b.toNat - 0x30)) l := by
  unfold valueFrom
  rw [List.foldl_cons]

theorem valueFrom_append (n : Nat) (a b : Bytes) :
    valueFrom n (a ++ b) = valueFrom (valueFrom n a) b := by
  simp [valueFrom, List.foldl_append]

theorem valueFrom_ge (n : Nat) (l : Bytes) : n ≤ valueFrom n l := by
  induction l generalizing n with
  | nil => exact Nat.le_refl _
  | cons b l ih => rw [valueFrom_cons]; exact Nat.le_trans (by omega) (ih _)

theorem valueFrom_eq (n : Nat) (l : Bytes) : valueFrom n l = n * 10 ^ l.length + value l := by
  induction l generalizing n with
  | nil => simp [valueFrom, value]
  | cons b l ih =>
    unfold value
    rw [valueFrom_cons, valueFrom_cons, ih, ih (0 * 10 + _), List.length_cons, Nat.pow_succ,
      Nat.add_mul, Nat.add_mul, Nat.mul_assoc, Nat.mul_comm 10]
    omega

theorem valueFrom_mod (n m w : Nat) (h : n % 2 ^ w = m % 2 ^ w) (l : Bytes) :
    valueFrom n l % 2 ^ w = valueFrom m l % 2 ^ w := by
  rw [valueFrom_eq, valueFrom_eq, Nat.add_mod, Nat.mul_mod, h, ← Nat.mul_mod, ← Nat.add_mod]

section
variable {w : Nat}

theorem digit_ok {out : BitVec w} (h : out.toNat * 10 < 2 ^ w) (b : Byte) (s : Bytes) :
    digit out (b :: s) = .ok (BitVec.ofNat w (out.toNat * 10 + (b.toNat - 0x30)), s) := by
  unfold digit checkedMul10
  rw [if_pos h]
  show Except.ok _ = Except.ok _
  simp only [fromDigit, BitVec.ofNat_add]

theorem digit_inv {out v : BitVec w} {b : Byte} {s s' : Bytes}
    (h : digit out (b :: s) = .ok (v, s')) :
    out.toNat * 10 < 2 ^ w ∧ s' = s ∧ v = BitVec.ofNat w (out.toNat * 10 + (b.toNat - 0x30)) := by
  by_cases hb : out.toNat * 10 < 2 ^ w
  · rw [digit_ok hb] at h
    cases h
    exact ⟨hb, rfl, rfl⟩
  · unfold digit checkedMul10 at h
    rw [if_neg hb] at h
    cases h

theorem digits_stop {s : Bytes} (h : NoDigit s) (out : BitVec w) : digits out s = .ok (out, s) := by
  cases s with
  | nil => rfl
  | cons b s =>
    have : isDigit b = false := by
      cases hb : isDigit b with
      | false => rfl
      | true => exact absurd ((isDigit_iff b).1 hb) (h b s rfl)
    simp [digits, this]

/-- In range, digits are accepted and denote what they should. -/
theorem digits_ok {l : Bytes} (hl : Digits l) {s : Bytes} (hs : NoDigit s) :
    ∀ out : BitVec w, valueFrom out.toNat l < 2 ^ w →
      digits out (l ++ s) = .ok (BitVec.ofNat w (valueFrom out.toNat l), s) := by
  induction l with
  | nil => intro out _; simp [digits_stop hs, valueFrom]
  | cons b l ih =>
    intro out h
    have hb := (isDigit_iff b).2 (hl b (by simp))
    rw [valueFrom_cons] at h ⊢
    have hge := valueFrom_ge (out.toNat * 10 + (b.toNat - 48)) l
    have hlt : out.toNat * 10 + (b.toNat - 48) < 2 ^ w := by omega
    simp only [List.cons_append, digits, hb, if_true]
    rw [digit_ok (by omega)]
    have ht : (BitVec.ofNat w (out.toNat * 10 + (b.toNat - 48))).toNat =
        out.toNat * 10 + (b.toNat - 48) := by
      rw [BitVec.toNat_ofNat, Nat.mod_eq_of_lt hlt]
    have := ih (fun x hx => hl x (by simp [hx]))
      (BitVec.ofNat w (out.toNat * 10 + (b.toNat - 48))) (by rw [ht]; exact h)
    rw [ht] at this
    exact this

/-- Whatever is accepted are digits, which denote the result modulo the width. -/
theorem digits_inv : ∀ (s : Bytes) (out v : BitVec w) (s' : Bytes),
    digits out s = .ok (v, s') →
    ∃ l, Digits l ∧ s = l ++ s' ∧ NoDigit s' ∧ v.toNat = valueFrom out.toNat l % 2 ^ w := by
  intro s
  induction s with
  | nil =>
    intro out v s' h
    cases h
    exact ⟨[], by simp [Digits], rfl, by simp [NoDigit], by
      simp only [valueFrom, List.foldl_nil]
      rw [Nat.mod_eq_of_lt out.isLt]⟩
  | cons b s ih =>
    intro out v s' h
    unfold digits at h
    split at h
    · rename_i hb
      split at h
      · rename_i o2 s2 hd
        obtain ⟨_, rfl, rfl⟩ := digit_inv hd
        obtain ⟨l, hl, rfl, hn, hv⟩ := ih _ _ _ h
        refine ⟨b :: l, ?_, rfl, hn, ?_⟩
        · intro x hx
          simp only [List.mem_cons] at hx
          rcases hx with rfl | hx
          · exact (isDigit_iff _).1 hb
          · exact hl x hx
        · rw [hv, valueFrom_cons]
          apply valueFrom_mod
          rw [BitVec.toNat_ofNat, Nat.mod_mod]
      · cases h
    · rename_i hb
      cases h
      refine ⟨[], by simp [Digits], rfl, ?_, by
        simp only [valueFrom, List.foldl_nil]
        rw [Nat.mod_eq_of_lt out.isLt]⟩
      intro x r hx hd
      cases hx
      exact hb ((isDigit_iff b).2 hd)

/-- Digits end where something else begins; a leading zero ends at once. -/
def Ends (num s : Bytes) : Prop := num = [0x30#8] ∨ NoDigit s

theorem numeral_value_cons {b : Byte} {r : Bytes} : value (b :: r) = valueFrom (b.toNat - 0x30) r := by
  unfold value
  rw [valueFrom_cons]
  simp

theorem unsignedBase_ok {num : Bytes} (hn : Numeral num) {s : Bytes} (hs : Ends num s)
    (hv : value num < 2 ^ w) :
    unsignedBase w (num ++ s) = .ok (BitVec.ofNat w (value num), s) := by
  rcases hn with rfl | ⟨b, r, rfl, h1, h2, hr⟩
  · rfl
  · have hs' : NoDigit s := by
      rcases hs with h | h
      · cases h; simp at h1
      · exact h
    have hb0 : (b == 0x30#8) = false := by
      cases h : b == 0x30#8 with
      | false => rfl
      | true => simp at h; subst h; simp at h1
    have hb1 := (isDigitNonzero_iff b).2 ⟨h1, h2⟩
    rw [numeral_value_cons] at hv ⊢
    have hge := valueFrom_ge (b.toNat - 48) r
    have ht : (fromDigit w b).toNat = b.toNat - 48 := by
      unfold fromDigit
      rw [BitVec.toNat_ofNat, Nat.mod_eq_of_lt (by omega)]
    show (do
      let b ← P.readByte
      if b == 0x30#8 then pure 0
      else if isDigitNonzero b then digits (fromDigit w b)
      else P.fail .invalid : P (BitVec w)) (b :: (r ++ s)) = _
    rw [P.bind_ok (a := b) (s' := r ++ s) rfl]
    simp only [hb0, hb1, if_true, Bool.false_eq_true, if_false]
    have := digits_ok (w := w) hr hs' (fromDigit w b) (by rw [ht]; exact hv)
    rw [ht] at this
    exact this

theorem unsignedBase_inv (hw : 4 ≤ w) {s s' : Bytes} {v : BitVec w}
    (h : unsignedBase w s = .ok (v, s')) :
    ∃ num, Numeral num ∧ s = num ++ s' ∧ Ends num s' ∧ v.toNat = value num % 2 ^ w := by
  unfold unsignedBase at h
  obtain ⟨b, s1, h1, h2⟩ := P.bind_eq_ok.1 h
  have := readByte_inv h1; subst this
  split at h2
  · rename_i hb
    have hb' : b = 0x30#8 := by simpa using hb
    cases h2
    exact ⟨[b], .inl (by rw [hb']), rfl, .inl (by rw [hb']), by subst hb'; simp [value, valueFrom]⟩
  split at h2
  · rename_i hb0 hb
    obtain ⟨l, hl, rfl, hn, hv⟩ := digits_inv _ _ _ _ h2
    have hb' := (isDigitNonzero_iff b).1 hb
    refine ⟨b :: l, .inr ⟨b, l, rfl, hb'.1, hb'.2, hl⟩, rfl, .inr hn, ?_⟩
    rw [hv, numeral_value_cons]
    have h16 : 2 ^ 4 ≤ 2 ^ w := Nat.pow_le_pow_right (by omega) hw
    have ht : (fromDigit w b).toNat = b.toNat - 48 := by
      unfold fromDigit
      rw [BitVec.toNat_ofNat, Nat.mod_eq_of_lt (by omega)]
    rw [ht]
  · cases h2

theorem skipWs_bind {α} (f : Unit → P α) (s : Bytes) : (skipWs >>= f) s = f () (dropWs s) := rfl

theorem digit_not_ws {b : Byte} (h : Digit b) : isWs b = false := by
  unfold Digit at h
  revert h; revert b; decide

theorem numeral_cons {num : Bytes} (h : Numeral num) : ∃ b r, num = b :: r ∧ Digit b := by
  rcases h with rfl | ⟨b, r, rfl, h1, h2, _⟩
  · exact ⟨_, _, rfl, by unfold Digit; decide⟩
  · exact ⟨b, r, rfl, by unfold Digit; omega⟩

theorem dropWs_numeral {ws num : Bytes} (hw : Ws ws) (hn : Numeral num) (s : Bytes) :
    dropWs (ws ++ (num ++ s)) = num ++ s := by
  obtain ⟨b, r, rfl, hb⟩ := numeral_cons hn
  rw [dropWs_ws hw, List.cons_append, dropWs_of_not (digit_not_ws hb)]

theorem minus_numeral {num : Bytes} (hn : Numeral num) (s : Bytes) :
    minus (num ++ s) = .ok (false, num ++ s) := by
  obtain ⟨b, r, rfl, hb⟩ := numeral_cons hn
  have : (b == 0x2D#8) = false := by
    cases h : b == 0x2D#8 with
    | false => rfl
    | true => simp at h; subst h; exact absurd hb (by unfold Digit; decide)
  unfold minus
  rw [P.bind_ok (a := some b) (s' := b :: r ++ s) rfl]
  simp only [Option.some_beq_some, this]
  rfl

theorem minus_sign (s : Bytes) : minus (0x2D#8 :: s) = .ok (true, s) := rfl

theorem minus_inv {s s' : Bytes} {neg : Bool} (h : minus s = .ok (neg, s')) : s = sign neg ++ s' := by
  unfold minus at h
  obtain ⟨b, s1, h1, h2⟩ := P.bind_eq_ok.1 h
  cases h1
  split at h2
  · rename_i hb
    obtain ⟨_, s2, h3, h4⟩ := P.bind_eq_ok.1 h2
    cases h4
    cases s with
    | nil => simp at hb
    | cons x r =>
      simp at hb
      simp [P.skip] at h3
      rw [hb, h3]; rfl
  · cases h2; rfl

/-! ## The values of signed numbers -/

theorem computeSigned_ok (hw : 0 < w) {neg : Bool} {n : Nat}
    (h : if neg then n ≤ 2 ^ (w - 1) else n < 2 ^ (w - 1)) :
    ∃ v : BitVec w, computeSigned neg (BitVec.ofNat w n) = .ok v ∧
      v.toInt = signedValue neg n := by
  obtain ⟨k, rfl⟩ : ∃ k, w = k + 1 := ⟨w - 1, by omega⟩
  simp only [Nat.add_sub_cancel] at h
  have h2 : 2 ^ (k + 1) = 2 * 2 ^ k := by rw [Nat.pow_succ]; omega
  have hp : 0 < 2 ^ k := Nat.two_pow_pos k
  have hlt : n < 2 ^ (k + 1) := by split at h <;> omega
  have ht : (BitVec.ofNat (k + 1) n).toNat = n := by
    rw [BitVec.toNat_ofNat, Nat.mod_eq_of_lt hlt]
  have hhalf : (2 ^ (k + 1) - 1) / 2 = 2 ^ k - 1 := by omega
  cases neg with
  | false =>
    have hn : n < 2 ^ k := by simpa using h
    refine ⟨BitVec.ofNat (k + 1) n, ?_, ?_⟩
    · unfold computeSigned signed
      simp only [Bool.false_eq_true, if_false, ht, hhalf]
      rw [if_neg (by omega)]
    · rw [BitVec.toInt_eq_toNat_cond, ht, if_pos (by omega)]
      rfl
  | true =>
    have hn : n ≤ 2 ^ k := by simpa using h
    refine ⟨-BitVec.ofNat (k + 1) n, ?_, ?_⟩
    · unfold computeSigned negate
      simp only [if_true, ht, hhalf]
      rw [if_neg (by omega)]
    · have hneg : (-BitVec.ofNat (k + 1) n).toNat = (2 ^ (k + 1) - n) % 2 ^ (k + 1) := by
        rw [BitVec.toNat_neg, ht]
      rw [BitVec.toInt_eq_toNat_cond, hneg]
      unfold signedValue
      simp only [if_true]
      by_cases h0 : n = 0
      · subst h0
        rw [Nat.sub_zero, Nat.mod_self, if_pos (by omega)]
        simp
      · rw [Nat.mod_eq_of_lt (by omega), if_neg (by omega)]
        omega

theorem computeSigned_inv (hw : 0 < w) {neg : Bool} {u v : BitVec w}
    (h : computeSigned neg u = .ok v) : v.toInt = signedValue neg u.toNat := by
  obtain ⟨k, rfl⟩ : ∃ k, w = k + 1 := ⟨w - 1, by omega⟩
  have h2 : 2 ^ (k + 1) = 2 * 2 ^ k := by rw [Nat.pow_succ]; omega
  have hp : 0 < 2 ^ k := Nat.two_pow_pos k
  have hhalf : (2 ^ (k + 1) - 1) / 2 = 2 ^ k - 1 := by omega
  have hrange : if neg then u.toNat ≤ 2 ^ k else u.toNat < 2 ^ k := by
    unfold computeSigned negate signed at h
    rw [hhalf] at h
    cases neg with
    | true =>
      simp only [if_true] at h ⊢
      by_cases hb : u.toNat > 2 ^ k - 1 + 1
      · rw [if_pos hb] at h; cases h
      · omega
    | false =>
      simp only [Bool.false_eq_true, if_false] at h ⊢
      by_cases hb : u.toNat > 2 ^ k - 1
      · rw [if_pos hb] at h; cases h
      · omega
  obtain ⟨v', hv, ht⟩ := computeSigned_ok (w := k + 1) (by omega) (neg := neg) (n := u.toNat)
    (by simpa using hrange)
  rw [BitVec.ofNat_toNat, BitVec.setWidth_eq, h] at hv
  cases hv
  exact ht

end

/-! ## Numbers with a fraction and an exponent -/

theorem ends_of_noNumber {num s : Bytes} (h : NoNumber s) : Ends num s :=
  .inr (fun b r hb => (h b r hb).1)

theorem unsignedFull_ok {w : Nat} {num : Bytes} (hn : Numeral num) {s : Bytes} (hs : NoNumber s)
    (hv : value num < 2 ^ w) :
    unsignedFull w (num ++ s) =
      .ok ({ base := BitVec.ofNat w (value num), mantissa := 0, mexp := 0, e := 0 }, s) := by
  have h1 : (s.head? == some 0x2E#8) = false := by
    cases s with
    | nil => rfl
    | cons b r => have := (hs b r rfl).2.1; simpa using this
  have h2 : (s.head? == some 0x65#8 || s.head? == some 0x45#8) = false := by
    cases s with
    | nil => rfl
    | cons b r => have := (hs b r rfl).2.2; simpa using this
  unfold unsignedFull
  rw [P.bind_ok (unsignedBase_ok hn (ends_of_noNumber hs) hv),
    P.bind_ok (a := s.head?) (s' := s) rfl]
  simp only [h1, Bool.false_eq_true, if_false]
  rw [P.bind_ok (a := (0, 0)) (s' := s) rfl, P.bind_ok (a := s.head?) (s' := s) rfl]
  simp only [h2, Bool.false_eq_true, if_false]
  rw [P.bind_ok (a := 0) (s' := s) rfl]
  rfl

theorem compute_int {w : Nat} (b : BitVec w) :
    ({ base := b, mantissa := 0, mexp := 0, e := 0 } : Parts w).compute = .ok b := by
  simp [Parts.compute]

/-! ## Both parsers on integers -/

theorem parseUnsigned_ok (full : Bool) {w : Nat} {ws num s : Bytes} (hw : Ws ws) (hn : Numeral num)
    (hs : NoNumber s) (hv : value num < 2 ^ w) :
    parseUnsigned full w (ws ++ (num ++ s)) = .ok (BitVec.ofNat w (value num), s) := by
  unfold parseUnsigned
  cases full with
  | false =>
    rw [if_neg (by decide)]
    unfold parseUnsignedBase
    rw [skipWs_bind, dropWs_numeral hw hn]
    exact unsignedBase_ok hn (ends_of_noNumber hs) hv
  | true =>
    rw [if_pos rfl]
    unfold parseUnsignedFull
    rw [skipWs_bind, dropWs_numeral hw hn, P.bind_ok (unsignedFull_ok hn hs hv), compute_int]
    rfl

theorem minus_sign_numeral {num : Bytes} (neg : Bool) (hn : Numeral num) (s : Bytes) :
    minus (sign neg ++ (num ++ s)) = .ok (neg, num ++ s) := by
  cases neg with
  | true => rfl
  | false => exact minus_numeral hn s

theorem dropWs_signed {ws num : Bytes} (neg : Bool) (hw : Ws ws) (hn : Numeral num) (s : Bytes) :
    dropWs (ws ++ (sign neg ++ (num ++ s))) = sign neg ++ (num ++ s) := by
  cases neg with
  | false => exact dropWs_numeral hw hn s
  | true =>
    rw [dropWs_ws hw]
    exact dropWs_of_not (by decide) _

theorem parseSigned_ok (full : Bool) {w : Nat} (hw0 : 0 < w) {ws num s : Bytes} {neg : Bool}
    (hw : Ws ws) (hn : Numeral num) (hs : NoNumber s)
    (hv : if neg then value num ≤ 2 ^ (w - 1) else value num < 2 ^ (w - 1)) :
    ∃ v : BitVec w, parseSigned full w (ws ++ (sign neg ++ (num ++ s))) = .ok (v, s) ∧
      v.toInt = signedValue neg (value num) := by
  obtain ⟨v, h1, h2⟩ := computeSigned_ok hw0 hv
  refine ⟨v, ?_, h2⟩
  have hlt : value num < 2 ^ w := by
    obtain ⟨k, rfl⟩ : ∃ k, w = k + 1 := ⟨w - 1, by omega⟩
    have h2 : 2 ^ (k + 1) = 2 * 2 ^ k := by rw [Nat.pow_succ]; omega
    have hp : 0 < 2 ^ k := Nat.two_pow_pos k
    simp only [Nat.add_sub_cancel] at hv
    split at hv <;> omega
  unfold parseSigned
  cases full with
  | false =>
    rw [if_neg (by decide)]
    unfold parseSignedBase
    rw [skipWs_bind, dropWs_signed neg hw hn, P.bind_ok (minus_sign_numeral neg hn s),
      P.bind_ok (unsignedBase_ok hn (ends_of_noNumber hs) hlt), h1]
    rfl
  | true =>
    rw [if_pos rfl]
    unfold parseSignedFull
    rw [skipWs_bind, dropWs_signed neg hw hn, P.bind_ok (minus_sign_numeral neg hn s),
      P.bind_ok (unsignedFull_ok hn hs hlt), compute_int,
      P.bind_ok (a := BitVec.ofNat w (value num)) (s' := s) rfl, h1]
    rfl

/-! ## Formatting -/

theorem digit_byte {d : Nat} (h : d < 10) : (BitVec.ofNat 8 (0x30 + d) : Byte).toNat = 0x30 + d := by
  rw [BitVec.toNat_ofNat, Nat.mod_eq_of_lt (by omega)]

theorem decimal_spec (n : Nat) : Digits (decimal n) ∧ value (decimal n) = n ∧
    (0 < n → ∃ b r, decimal n = b :: r ∧ 0x31 ≤ b.toNat ∧ b.toNat ≤ 0x39) := by
  induction n using Nat.strongRecOn with
  | _ n ih =>
    unfold decimal
    by_cases h : n < 10
    · rw [if_pos h]
      have hb := digit_byte h
      refine ⟨?_, ?_, ?_⟩
      · intro b hb'
        simp only [List.mem_cons, List.not_mem_nil, or_false] at hb'
        subst hb'
        unfold Digit; omega
      · unfold value
        rw [valueFrom_cons, hb]
        simp [valueFrom]
      · intro hn
        exact ⟨_, [], rfl, by rw [hb]; omega, by rw [hb]; omega⟩
    · rw [if_neg h]
      obtain ⟨h1, h2, h3⟩ := ih (n / 10) (by omega)
      have hb := digit_byte (d := n % 10) (by omega)
      refine ⟨?_, ?_, ?_⟩
      · intro b hb'
        simp only [List.mem_append, List.mem_cons, List.not_mem_nil, or_false] at hb'
        rcases hb' with hb' | hb'
        · exact h1 b hb'
        · subst hb'; unfold Digit; omega
      · unfold value at h2 ⊢
        rw [valueFrom_append, h2, valueFrom_cons, hb]
        simp only [valueFrom, List.foldl_nil]
        omega
      · intro _
        obtain ⟨b, r, hd, hr⟩ := h3 (by omega)
        rw [hd]
        exact ⟨b, _, rfl, hr⟩

theorem decimal_numeral (n : Nat) : Numeral (decimal n) := by
  by_cases h : n = 0
  · left; subst h; unfold decimal; rfl
  · right
    obtain ⟨h1, _, h3⟩ := decimal_spec n
    obtain ⟨b, r, hd, h4, h5⟩ := h3 (by omega)
    refine ⟨b, r, hd, h4, h5, ?_⟩
    intro x hx
    exact h1 x (by rw [hd]; simp [hx])

theorem value_decimal (n : Nat) : value (decimal n) = n := (decimal_spec n).2.1

theorem fmtSigned_eq {w : Nat} (v : BitVec w) :
    fmtSigned v = sign (decide (v.toInt < 0)) ++ decimal v.toInt.natAbs := by
  unfold fmtSigned
  by_cases h : v.toInt < 0 <;> simp [h, sign]

theorem ws_nil : Ws [] := by simp [Ws]

theorem parse_fmtUnsigned (full : Bool) {w : Nat} (v : BitVec w) {s : Bytes} (hs : NoNumber s) :
    parseUnsigned full w (fmtUnsigned v ++ s) = .ok (v, s) := by
  have := parseUnsigned_ok full (w := w) ws_nil (decimal_numeral v.toNat) hs
    (by rw [value_decimal]; exact v.isLt)
  rw [value_decimal, BitVec.ofNat_toNat, BitVec.setWidth_eq] at this
  exact this

theorem parse_fmtSigned (full : Bool) {w : Nat} (hw : 0 < w) (v : BitVec w) {s : Bytes}
    (hs : NoNumber s) : parseSigned full w (fmtSigned v ++ s) = .ok (v, s) := by
  obtain ⟨v', h1, h2⟩ := parseSigned_ok full (w := w) hw (neg := decide (v.toInt < 0)) ws_nil
    (decimal_numeral v.toInt.natAbs) hs (by
      rw [value_decimal]
      have h1 := BitVec.two_mul_toInt_lt (x := v)
      have h2 := BitVec.le_two_mul_toInt (x := v)
      obtain ⟨k, rfl⟩ : ∃ k, w = k + 1 := ⟨w - 1, by omega⟩
      have h3 : 2 ^ (k + 1) = 2 * 2 ^ k := by rw [Nat.pow_succ]; omega
      simp only [Nat.add_sub_cancel]
      have h4 : ((2 ^ (k + 1) : Nat) : Int) = 2 * ((2 ^ k : Nat) : Int) := by rw [h3]; simp
      have h1' : 2 * v.toInt < ((2 ^ (k + 1) : Nat) : Int) := by exact_mod_cast h1
      have h2' : -((2 ^ (k + 1) : Nat) : Int) ≤ 2 * v.toInt := by exact_mod_cast h2
      rw [h4] at h1' h2'
      generalize (2 ^ k : Nat) = m at *
      by_cases hn : v.toInt < 0
      · simp only [hn, decide_true, if_true]; omega
      · simp only [hn, decide_false, Bool.false_eq_true, if_false]; omega)
  rw [value_decimal] at h2
  have : v' = v := by
    apply BitVec.eq_of_toInt_eq
    rw [h2]
    unfold signedValue
    by_cases hn : v.toInt < 0
    · simp only [hn, decide_true, if_true]; omega
    · simp only [hn, decide_false, Bool.false_eq_true, if_false]; omega
  rw [fmtSigned_eq, List.append_assoc]
  rw [this] at h1
  exact h1

/-! ## Skipping numbers -/

theorem dropDigits_eq {l s : Bytes} (hl : Digits l) (hs : NoDigit s) : dropDigits (l ++ s) = s := by
  induction l with
  | nil =>
    cases s with
    | nil => rfl
    | cons b s =>
      have : isDigit b = false := by
        cases hb : isDigit b with
        | false => rfl
        | true => exact absurd ((isDigit_iff b).1 hb) (hs b s rfl)
      simp [dropDigits, this]
  | cons b l ih =>
    have hb := (isDigit_iff b).2 (hl b (by simp))
    simp only [List.cons_append, dropDigits, hb, if_true]
    exact ih (fun x hx => hl x (by simp [hx]))

end Musli.Json
