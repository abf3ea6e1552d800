import Verif.Spec.Json.Decimals
import Verif.Proofs.Json.Range
import Verif.Proofs.Json.Api
/-!
# JSON integers written with a fraction and an exponent
-/
set_option linter.unusedSectionVars false
namespace Musli.Json
open Musli Spec

/-! ## Arithmetic -/

theorem ten_pow_pos (k : Nat) : 0 < 10 ^ k := Nat.pow_pos (by omega)

theorem toNat_ofNat_lt {w n : Nat} (h : n < 2 ^ w) : (BitVec.ofNat w n).toNat = n := by
  rw [BitVec.toNat_ofNat, Nat.mod_eq_of_lt h]

theorem ofNat_ne_zero {w n : Nat} (h : n < 2 ^ w) : ((BitVec.ofNat w n) != 0) = decide (n ≠ 0) := by
  have : (BitVec.ofNat w n = 0) ↔ n = 0 := by
    constructor
    · intro h1
      have := congrArg BitVec.toNat h1
      rw [toNat_ofNat_lt h] at this
      simpa using this
    · intro h1; subst h1; rfl
  by_cases hn : n = 0
  · subst hn; simp
  · rw [decide_eq_true hn, bne_iff_ne]
    exact fun h2 => hn (this.1 h2)

theorem checkedPow10_some {w a e : Nat} (ha : a < 2 ^ w) {v : BitVec w}
    (h : checkedPow10 (BitVec.ofNat w a) e = some v) : v = BitVec.ofNat w (a * 10 ^ e) ∧ a * 10 ^ e < 2 ^ w := by
  unfold checkedPow10 at h
  rw [toNat_ofNat_lt ha] at h
  split at h
  · split at h
    · rename_i h2
      cases h
      exact ⟨rfl, h2⟩
    · cases h
  · cases h

theorem checkedPow10_ok {w a e : Nat} (ha0 : a ≠ 0 ∨ 10 ^ e < 2 ^ w) (h : a * 10 ^ e < 2 ^ w) :
    checkedPow10 (BitVec.ofNat w a) e = some (BitVec.ofNat w (a * 10 ^ e)) := by
  have hp := ten_pow_pos e
  have ha : a < 2 ^ w := Nat.lt_of_le_of_lt (Nat.le_mul_of_pos_right a hp) h
  have h10 : 10 ^ e < 2 ^ w := by
    rcases ha0 with ha0 | h
    · exact Nat.lt_of_le_of_lt (Nat.le_mul_of_pos_left _ (by omega)) h
    · exact h
  unfold checkedPow10
  rw [toNat_ofNat_lt ha, if_pos h10, if_pos h]

/-! ## Computing the value -/

theorem toNat_neg_of_nonneg {e : Int} (h : 0 ≤ e) : (-e).toNat = 0 := by omega

/-- What is computed is what the parts denote. -/
theorem compute_sound {w B m k : Nat} {e : Int} {v : BitVec w} (hB : B < 2 ^ w) (hm : m < 2 ^ w)
    (h : ({ base := BitVec.ofNat w B, mantissa := BitVec.ofNat w m, mexp := k, e := e } :
      Parts w).compute = .ok v) :
    (B * 10 ^ k + m) * 10 ^ e.toNat = v.toNat * 10 ^ (k + (-e).toNat) := by
  unfold Parts.compute at h
  simp only [ofNat_ne_zero hm, ofNat_ne_zero hB] at h
  split at h
  · rename_i he
    subst he
    split at h
    · cases h
    · rename_i hm0
      have : m = 0 := by simpa using hm0
      subst this
      cases h
      rw [toNat_ofNat_lt hB]
      simp
  · split at h
    · rename_i he0 he
      split at h
      · cases h
      · rename_i hke
        have hneg : (-e).toNat = 0 := by omega
        obtain ⟨x, rfl⟩ : ∃ x : Nat, e = (k + x : Nat) := ⟨(e - k).toNat, by omega⟩
        have h1 : ((k + x : Nat) : Int).toNat = k + x := by omega
        have h2 : (((k + x : Nat) : Int) - k).toNat = x := by omega
        rw [h1, h2] at h
        rw [h1, hneg]
        split at h
        · cases h
        · rename_i base hbase
          split at h
          · cases h
          · rename_i mm hmm
            split at h
            · cases h
            · rename_i r hr
              cases h
              obtain ⟨rfl, hm2⟩ := checkedPow10_some hm hmm
              have hb : base = BitVec.ofNat w (B * 10 ^ (k + x)) ∧ B * 10 ^ (k + x) < 2 ^ w := by
                split at hbase
                · exact checkedPow10_some hB hbase
                · rename_i hz
                  have : B = 0 := by simpa using hz
                  subst this
                  cases hbase
                  simp [Nat.two_pow_pos]
              obtain ⟨rfl, hb2⟩ := hb
              unfold checkedAdd at hr
              rw [toNat_ofNat_lt hb2, toNat_ofNat_lt hm2] at hr
              split at hr
              · rename_i hlt
                cases hr
                rw [BitVec.toNat_add, toNat_ofNat_lt hb2, toNat_ofNat_lt hm2, Nat.mod_eq_of_lt hlt]
                simp only [Nat.add_zero, Nat.pow_add, Nat.add_mul]
                congr 1
                · simp only [Nat.mul_assoc, Nat.mul_comm, Nat.mul_left_comm]
                · simp only [Nat.mul_comm, Nat.mul_left_comm]
              · cases hr
    · rename_i he0 he
      split at h
      · cases h
      · rename_i hm0
        have : m = 0 := by simpa using hm0
        subst this
        have h0 : e.toNat = 0 := by omega
        rw [h0]
        split at h
        · cases h
        · rename_i x hx
          cases h
          unfold checkedNegPow10 at hx
          rw [toNat_ofNat_lt hB] at hx
          split at hx
          · split at hx
            · cases hx
            · rename_i hmod
              have hmod : B % 10 ^ (-e).toNat = 0 := by simpa using hmod
              cases hx
              rw [toNat_ofNat_lt (Nat.lt_of_le_of_lt (Nat.div_le_self _ _) hB)]
              have hd := Nat.div_add_mod B (10 ^ (-e).toNat)
              rw [hmod] at hd
              generalize B / 10 ^ (-e).toNat = q at hd ⊢
              rw [← hd]
              simp only [Nat.pow_add, Nat.add_zero, Nat.pow_zero, Nat.mul_one]
              simp only [Nat.mul_comm, Nat.mul_left_comm]
          · cases hx

theorem ten_pow_succ_mod (m x : Nat) : (m * 10 ^ (x + 1)) % 10 = 0 := by
  rw [Nat.pow_succ, ← Nat.mul_assoc, Nat.mul_mod_left]

/-- Numbers in range are computed. -/
theorem compute_complete {w B m k n : Nat} {e : Int} (hB : B < 2 ^ w) (hm : m < 2 ^ w) (hn : n < 2 ^ w)
    (h : (B * 10 ^ k + m) * 10 ^ e.toNat = n * 10 ^ (k + (-e).toNat))
    (hm10 : m ≠ 0 → m % 10 ≠ 0) (hmk : m < 10 ^ k) (h0 : n ≠ 0 ∨ e = 0)
    (hpad : ¬ (m = 0 ∧ 0 < e ∧ e < k)) :
    ({ base := BitVec.ofNat w B, mantissa := BitVec.ofNat w m, mexp := k, e := e } :
      Parts w).compute = .ok (BitVec.ofNat w n) := by
  have hpk := ten_pow_pos k
  unfold Parts.compute
  simp only [ofNat_ne_zero hm, ofNat_ne_zero hB]
  by_cases he : e = 0
  · subst he
    rw [if_pos rfl]
    simp only [Int.toNat_zero, Int.neg_zero, Nat.pow_zero, Nat.mul_one, Nat.add_zero] at h
    have hm0 : m = 0 := by
      have h1 : (B * 10 ^ k + m) % 10 ^ k = m := by
        rw [Nat.add_comm, Nat.add_mul_mod_self_right, Nat.mod_eq_of_lt hmk]
      rw [h, Nat.mul_mod_left] at h1
      exact h1.symm
    subst hm0
    have : B = n := by
      have : B * 10 ^ k = n * 10 ^ k := by omega
      exact Nat.eq_of_mul_eq_mul_right hpk this
    subst this
    simp
  · have hn0 : n ≠ 0 := by rcases h0 with h | h; exact h; exact absurd h he
    rw [if_neg he]
    by_cases hpos : e ≥ 0
    · rw [if_pos hpos]
      obtain ⟨x, rfl⟩ : ∃ x : Nat, e = (x : Int) := ⟨e.toNat, by omega⟩
      have e1 : ((x : Int)).toNat = x := by omega
      have e2 : (-(x : Int)).toNat = 0 := by omega
      rw [e1, e2, Nat.add_zero] at h
      rw [e1]
      have hkx : k ≤ x := by
        by_cases hm0 : m = 0
        · apply Nat.le_of_not_lt
          intro hlt
          exact hpad ⟨hm0, by omega, by omega⟩
        · apply Nat.le_of_not_lt
          intro hlt
          obtain ⟨y, rfl⟩ : ∃ y, k = x + (y + 1) := ⟨k - x - 1, by omega⟩
          have h2 : B * 10 ^ (x + (y + 1)) + m = n * 10 ^ (y + 1) := by
            apply Nat.eq_of_mul_eq_mul_right (ten_pow_pos x)
            rw [h, Nat.mul_assoc, ← Nat.pow_add, Nat.add_comm (y + 1)]
          have h3 : (B * 10 ^ (x + (y + 1)) + m) % 10 = m % 10 := by
            rw [← Nat.add_assoc x y 1, Nat.add_mod, ten_pow_succ_mod]; simp
          rw [h2, ten_pow_succ_mod] at h3
          exact hm10 hm0 h3.symm
      rw [if_neg (by omega)]
      obtain ⟨y, rfl⟩ : ∃ y, x = k + y := ⟨x - k, by omega⟩
      have e3 : (((k + y : Nat) : Int) - k).toNat = y := by omega
      rw [e3]
      have hval : B * 10 ^ (k + y) + m * 10 ^ y = n := by
        apply Nat.eq_of_mul_eq_mul_right hpk
        rw [← h, Nat.add_mul, Nat.add_mul, Nat.pow_add]
        simp only [Nat.mul_assoc, Nat.mul_comm, Nat.mul_left_comm]
      have hb : (if decide (B ≠ 0) then checkedPow10 (BitVec.ofNat w B) (k + y) else some (BitVec.ofNat w B))
          = some (BitVec.ofNat w (B * 10 ^ (k + y))) := by
        by_cases hB0 : B = 0
        · subst hB0; simp
        · rw [if_pos (by simpa using hB0), checkedPow10_ok (.inl hB0) (by omega)]
      have hmm : checkedPow10 (BitVec.ofNat w m) y = some (BitVec.ofNat w (m * 10 ^ y)) := by
        apply checkedPow10_ok
        · by_cases hm0 : m = 0
          · right
            subst hm0
            have hB0 : B ≠ 0 := by
              intro hB0; subst hB0; simp at hval; omega
            have : 10 ^ y ≤ 10 ^ (k + y) := Nat.pow_le_pow_right (by omega) (by omega)
            have : 10 ^ (k + y) ≤ B * 10 ^ (k + y) := Nat.le_mul_of_pos_left _ (by omega)
            omega
          · exact .inl hm0
        · omega
      rw [hb]
      simp only [hmm]
      unfold checkedAdd
      have l1 : B * 10 ^ (k + y) < 2 ^ w := by omega
      have l2 : m * 10 ^ y < 2 ^ w := by omega
      rw [toNat_ofNat_lt l1, toNat_ofNat_lt l2, if_pos (by omega)]
      simp only [← BitVec.ofNat_add, hval]
    · rw [if_neg hpos]
      obtain ⟨x, rfl⟩ : ∃ x : Nat, e = -((x + 1 : Nat) : Int) := ⟨(-e).toNat - 1, by omega⟩
      have e1 : (-((x + 1 : Nat) : Int)).toNat = 0 := by omega
      have e2 : (-(-((x + 1 : Nat) : Int))).toNat = x + 1 := by omega
      rw [e1, e2] at h
      rw [e2]
      simp only [Nat.pow_zero, Nat.mul_one] at h
      have hm0 : m = 0 := by
        have h1 : (B * 10 ^ k + m) % 10 ^ k = m := by
          rw [Nat.add_comm, Nat.add_mul_mod_self_right, Nat.mod_eq_of_lt hmk]
        rw [h, Nat.pow_add, Nat.mul_comm (10 ^ k), ← Nat.mul_assoc, Nat.mul_mod_left] at h1
        exact h1.symm
      subst hm0
      have hB2 : B = n * 10 ^ (x + 1) := by
        apply Nat.eq_of_mul_eq_mul_right hpk
        rw [Nat.add_zero] at h
        rw [h, Nat.mul_assoc, ← Nat.pow_add, Nat.add_comm k]
      simp only [ne_eq, not_true_eq_false, decide_false, Bool.false_eq_true, if_false]
      have hpx := ten_pow_pos (x + 1)
      have h10 : 10 ^ (x + 1) < 2 ^ w := by
        have : 10 ^ (x + 1) ≤ n * 10 ^ (x + 1) := Nat.le_mul_of_pos_left _ (by omega)
        omega
      unfold checkedNegPow10
      rw [toNat_ofNat_lt hB, if_pos h10, hB2, Nat.mul_mod_left, if_neg (by simp),
        Nat.mul_div_cancel _ hpx]

/-! ## Digits after the decimal point -/

/-- No prefix, continuing from `a`, exceeds `2 ^ w - 1` by less than five. -/
def NoWrapFrom (w a : Nat) (l : Bytes) : Prop :=
  ∀ p r, l = p ++ r → ¬ (2 ^ w ≤ valueFrom a p ∧ valueFrom a p < 2 ^ w + 4)

/-- The input does not start with a zero. -/
def NoZero (s : Bytes) : Prop := ∀ b r, s = b :: r → b ≠ 0x30#8

theorem zeros_split (s : Bytes) : s = List.replicate (zeros s).1 0x30#8 ++ (zeros s).2 ∧
    NoZero (zeros s).2 := by
  induction s with
  | nil => exact ⟨rfl, fun _ _ h => nomatch h⟩
  | cons b s ih =>
    unfold zeros
    split
    · rename_i hb
      have hb : b = 0x30#8 := by simpa using hb
      subst hb
      exact ⟨by rw [List.replicate_succ, List.cons_append, ← ih.1], ih.2⟩
    · rename_i hb
      refine ⟨rfl, ?_⟩
      intro x r hx
      cases hx
      simpa using hb

theorem zeros_eq {n : Nat} {s : Bytes} (h : NoZero s) :
    zeros (List.replicate n 0x30#8 ++ s) = (n, s) := by
  induction n with
  | zero =>
    cases s with
    | nil => rfl
    | cons b s =>
      have := h b s rfl
      simp [zeros, this]
  | succ n ih =>
    rw [List.replicate_succ, List.cons_append, zeros, if_pos (by decide), ih]

theorem valueFrom_zeros (a n : Nat) : valueFrom a (List.replicate n 0x30#8) = a * 10 ^ n := by
  induction n generalizing a with
  | zero => simp [valueFrom]
  | succ n ih =>
    rw [List.replicate_succ, valueFrom_cons, ih, Nat.pow_succ, Nat.mul_comm (10 ^ n), ← Nat.mul_assoc]
    rfl

theorem noDigit_noZero {s : Bytes} (h : NoDigit s) : NoZero s := by
  intro b r hb hz
  subst hz
  exact h _ r hb (by unfold Digit; decide)

/-- Splitting off leading zeros. -/
theorem leading_zeros {f : Bytes} (hf : Digits f) : ∃ z g, f = List.replicate z 0x30#8 ++ g ∧
    Digits g ∧ NoZero g := by
  obtain ⟨h1, h2⟩ := zeros_split f
  refine ⟨_, _, h1, ?_, h2⟩
  intro b hb
  exact hf b (by rw [h1]; simp [hb])

theorem noZero_append {g s : Bytes} (h : NoZero g) (hs : NoZero s) : NoZero (g ++ s) := by
  cases g with
  | nil => exact hs
  | cons b g =>
    intro x r hx
    rw [List.cons_append] at hx
    cases hx
    exact h _ _ rfl

theorem fracLoop_stop {w : Nat} {s : Bytes} (h : NoDigit s) (fuel : Nat) (v : BitVec w) (exp z : Nat) :
    fracLoop (fuel + 1) v exp z s = .ok ((v, exp), s) := by
  cases s with
  | nil => rfl
  | cons b s =>
    have : isDigit b = false := by
      cases hb : isDigit b with
      | false => rfl
      | true => exact absurd ((isDigit_iff b).1 hb) (h b s rfl)
    simp [fracLoop, this]

/-- One turn of the loop. -/
theorem fracLoop_step {w : Nat} (fuel : Nat) (v : BitVec w) (exp z : Nat) {b : Byte} {s : Bytes}
    (hb : Digit b) (hz : v.toNat ≠ 0 ∨ z = 0) (ha : v.toNat * 10 ^ z * 10 < 2 ^ w) :
    fracLoop (fuel + 1) v exp z (b :: s) =
      fracLoop fuel (BitVec.ofNat w (v.toNat * 10 ^ z * 10 + (b.toNat - 0x30))) (exp + z + 1)
        (zeros s).1 (zeros s).2 := by
  have hd : isDigit b = true := (isDigit_iff b).2 hb
  have h1 : (if z > 0 then checkedPow10 v z else some v) = some (BitVec.ofNat w (v.toNat * 10 ^ z)) := by
    by_cases hz0 : z = 0
    · subst hz0; simp
    · have hv : v.toNat ≠ 0 := by rcases hz with h | h; exact h; exact absurd h hz0
      rw [if_pos (by omega)]
      have := checkedPow10_ok (w := w) (a := v.toNat) (e := z) (.inl hv) (by omega)
      rwa [BitVec.ofNat_toNat, BitVec.setWidth_eq] at this
  have h2 : (if z > 0 then exp + z else exp) + 1 = exp + z + 1 := by split <;> omega
  have h3 := digit_ok (w := w) (out := BitVec.ofNat w (v.toNat * 10 ^ z))
    (by rw [toNat_ofNat_lt (by omega)]; exact ha) b s
  rw [toNat_ofNat_lt (by omega)] at h3
  conv => lhs; unfold fracLoop
  simp only [hd, if_true, h1, h2]
  rw [P.bind_ok h3]
  rfl

theorem fracLoop_step_err {w : Nat} (fuel : Nat) (v : BitVec w) (exp z : Nat) {b : Byte} {s : Bytes}
    (hb : Digit b) (ha : 2 ^ w ≤ v.toNat * 10 ^ z * 10) :
    ∃ r, fracLoop (fuel + 1) v exp z (b :: s) = .error r := by
  have hd : isDigit b = true := (isDigit_iff b).2 hb
  unfold fracLoop
  simp only [hd, if_true]
  split
  · exact ⟨_, rfl⟩
  · rename_i x hx
    have hx2 : x.toNat = v.toNat * 10 ^ z := by
      split at hx
      · rw [show v = BitVec.ofNat w v.toNat by rw [BitVec.ofNat_toNat, BitVec.setWidth_eq]] at hx
        obtain ⟨rfl, hlt⟩ := checkedPow10_some v.isLt hx
        rw [toNat_ofNat_lt hlt]
      · have : z = 0 := by omega
        subst this
        cases hx
        simp
    have : digit x (b :: s) = .error (.overflow, b :: s) := by
      unfold digit checkedMul10
      rw [if_neg (by omega)]
      rfl
    exact ⟨_, P.bind_err this⟩

theorem value_lt {l : Bytes} (h : Digits l) : value l < 10 ^ l.length := by
  induction l with
  | nil => simp [value, valueFrom]
  | cons b l ih =>
    have h1 := ih (fun x hx => h x (by simp [hx]))
    have hb := h b (by simp)
    unfold Digit at hb
    rw [numeral_value_cons, valueFrom_eq, List.length_cons, Nat.pow_succ]
    have : (b.toNat - 48) * 10 ^ l.length ≤ 9 * 10 ^ l.length := Nat.mul_le_mul_right _ (by omega)
    omega

theorem noWrapFrom_tail {w a : Nat} {p q : Bytes} (h : NoWrapFrom w a (p ++ q)) :
    NoWrapFrom w (valueFrom a p) q := by
  intro x r hx
  rw [← valueFrom_append]
  exact h (p ++ x) r (by rw [hx, List.append_assoc])

/-- Digits without their trailing zeros. -/
theorem trailing : ∀ {f : Bytes}, Digits f → f ≠ [] → NoZero f → ∀ a : Nat,
    ∃ m k, 1 ≤ k ∧ k ≤ f.length ∧ m % 10 ≠ 0 ∧ m * 10 ^ (f.length - k) = valueFrom a f := by
  suffices h : ∀ (n : Nat) (f : Bytes), f.length ≤ n → Digits f → f ≠ [] → NoZero f → ∀ a : Nat,
      ∃ m k, 1 ≤ k ∧ k ≤ f.length ∧ m % 10 ≠ 0 ∧ m * 10 ^ (f.length - k) = valueFrom a f from
    fun {f} h1 h2 h3 a => h f.length f (Nat.le_refl _) h1 h2 h3 a
  intro n
  induction n with
  | zero =>
    intro f hl _ hne
    exact absurd (List.length_eq_zero_iff.1 (by omega)) hne
  | succ n ih =>
    intro f hl hf hne hnz a
    obtain ⟨b, f', rfl⟩ : ∃ b f', f = b :: f' := by
      cases f with
      | nil => exact absurd rfl hne
      | cons b f' => exact ⟨b, f', rfl⟩
    have hb : Digit b := hf b (by simp)
    have hb0 : b.toNat ≠ 0x30 := fun h => hnz b f' rfl (BitVec.eq_of_toNat_eq h)
    unfold Digit at hb
    obtain ⟨z', g, rfl, hg, hgz⟩ := leading_zeros (f := f') (fun x hx => hf x (by simp [hx]))
    rw [valueFrom_cons, valueFrom_append, valueFrom_zeros]
    simp only [List.length_cons, List.length_append, List.length_replicate] at hl ⊢
    by_cases hg0 : g = []
    · subst hg0
      exact ⟨a * 10 + (b.toNat - 0x30), 1, by omega, by omega, by omega, by simp [valueFrom]⟩
    · obtain ⟨m, k, k1, k2, hm, hv⟩ := ih g (by omega) hg hg0 hgz
        ((a * 10 + (b.toNat - 0x30)) * 10 ^ z')
      refine ⟨m, 1 + z' + k, by omega, by omega, hm, ?_⟩
      rw [← hv]
      congr 2
      omega

/-- The loop over the digits after leading zeros computes the number without its trailing zeros, or
fails when that is too large. -/
theorem fracLoop_spec {w : Nat} (hw : 2 ^ w % 10 = 6) {s : Bytes} (hs : NoDigit s) :
    ∀ (fuel : Nat) (f : Bytes) (v : BitVec w) (exp z : Nat), f.length < fuel → f ≠ [] → Digits f →
    NoZero f → (v.toNat ≠ 0 ∨ z = 0) →
    ∃ m k, 1 ≤ k ∧ k ≤ f.length ∧ m % 10 ≠ 0 ∧
      m * 10 ^ (f.length - k) = valueFrom (v.toNat * 10 ^ z) f ∧
      (m < 2 ^ w → fracLoop fuel v exp z (f ++ s) = .ok ((BitVec.ofNat w m, exp + z + k), s)) ∧
      (2 ^ w ≤ m → NoWrapFrom w (v.toNat * 10 ^ z) f →
        ∃ r, fracLoop fuel v exp z (f ++ s) = .error r) := by
  intro fuel
  induction fuel with
  | zero => intro f _ _ _ h; omega
  | succ fuel ih =>
    intro f v exp z hlen hne hf hnz hz
    obtain ⟨b, f', rfl⟩ : ∃ b f', f = b :: f' := by
      cases f with
      | nil => exact absurd rfl hne
      | cons b f' => exact ⟨b, f', rfl⟩
    have hb : Digit b := hf b (by simp)
    have hb0 : b.toNat ≠ 0x30 := fun h => hnz b f' rfl (BitVec.eq_of_toNat_eq h)
    have hbr := hb
    unfold Digit at hbr
    obtain ⟨z', g, rfl, hg, hgz⟩ := leading_zeros (f := f') (fun x hx => hf x (by simp [hx]))
    have hzs : zeros (List.replicate z' 0x30#8 ++ g ++ s) = (z', g ++ s) := by
      rw [List.append_assoc]
      exact zeros_eq (noZero_append hgz (noDigit_noZero hs))
    generalize ha : v.toNat * 10 ^ z = a at *
    have hfinal : ∀ l, valueFrom a (b :: (List.replicate z' 0x30#8 ++ l)) =
        valueFrom ((a * 10 + (b.toNat - 0x30)) * 10 ^ z') l := by
      intro l
      rw [valueFrom_cons, valueFrom_append, valueFrom_zeros]
    by_cases hg0 : g = []
    · subst hg0
      refine ⟨a * 10 + (b.toNat - 0x30), 1, by omega, by simp, by omega, ?_, ?_, ?_⟩
      · rw [hfinal]; simp [valueFrom]
      · intro hlt
        rw [List.cons_append, fracLoop_step fuel v exp z hb hz (by rw [ha]; omega), ha, hzs]
        simp only [List.nil_append]
        cases fuel with
        | zero => simp at hlen
        | succ fuel =>
        rw [fracLoop_stop hs]
      · intro hge hnw
        have h1 := hnw [b] _ rfl
        have hv1 : valueFrom a [b] = a * 10 + (b.toNat - 0x30) := by simp [valueFrom]
        rw [hv1] at h1
        rw [List.cons_append]
        exact fracLoop_step_err fuel v exp z hb (by rw [ha]; omega)
    · have hlen' : g.length < fuel := by
        simp only [List.length_cons, List.length_append, List.length_replicate] at hlen
        omega
      by_cases h10 : a * 10 + (b.toNat - 0x30) < 2 ^ w
      · have ht := toNat_ofNat_lt h10
        obtain ⟨m, k, k1, k2, hm10, hmv, hok, herr⟩ := ih g
          (BitVec.ofNat w (a * 10 + (b.toNat - 0x30))) (exp + z + 1) z' hlen' hg0 hg hgz
          (.inl (by rw [ht]; omega))
        rw [ht] at hmv herr
        refine ⟨m, 1 + z' + k, by omega, ?_, hm10, ?_, ?_, ?_⟩
        · simp only [List.length_cons, List.length_append, List.length_replicate]; omega
        · rw [hfinal, ← hmv]
          congr 2
          simp only [List.length_cons, List.length_append, List.length_replicate]; omega
        · intro hlt
          rw [List.cons_append, fracLoop_step fuel v exp z hb hz (by rw [ha]; omega), ha, hzs, hok hlt]
          congr 3
          omega
        · intro hge hnw
          have hnw2 := noWrapFrom_tail (p := b :: List.replicate z' 0x30#8) (q := g) hnw
          have hv : valueFrom a (b :: List.replicate z' 0x30#8) =
              (a * 10 + (b.toNat - 0x30)) * 10 ^ z' := by
            rw [valueFrom_cons, valueFrom_zeros]
          rw [hv] at hnw2
          obtain ⟨r, hr⟩ := herr hge hnw2
          exact ⟨r, by rw [List.cons_append, fracLoop_step fuel v exp z hb hz (by rw [ha]; omega), ha, hzs]; exact hr⟩
      · -- the number is too large already
        obtain ⟨m, k, k1, k2, hm10, hmv⟩ : ∃ m k, 1 ≤ k ∧ k ≤ g.length ∧ m % 10 ≠ 0 ∧
            m * 10 ^ (g.length - k) = valueFrom ((a * 10 + (b.toNat - 0x30)) * 10 ^ z') g :=
          trailing hg hg0 hgz _
        have hbig : 2 ^ w ≤ m := by
          have h1 : (a * 10 + (b.toNat - 0x30)) * 10 ^ z' * 10 ^ g.length ≤ m * 10 ^ (g.length - k) := by
            rw [hmv, valueFrom_eq]; omega
          have h2 : m * 10 ^ (g.length - k) ≤ m * 10 ^ g.length :=
            Nat.mul_le_mul_left _ (Nat.pow_le_pow_right (by omega) (by omega))
          have h3 := Nat.le_of_mul_le_mul_right (Nat.le_trans h1 h2) (ten_pow_pos _)
          have h4 : a * 10 + (b.toNat - 0x30) ≤ (a * 10 + (b.toNat - 0x30)) * 10 ^ z' :=
            Nat.le_mul_of_pos_right _ (ten_pow_pos _)
          omega
        refine ⟨m, 1 + z' + k, by omega, ?_, hm10, ?_, fun h => absurd h (by omega), ?_⟩
        · simp only [List.length_cons, List.length_append, List.length_replicate]; omega
        · rw [hfinal, ← hmv]
          congr 2
          simp only [List.length_cons, List.length_append, List.length_replicate]; omega
        · intro _ hnw
          have h1 := hnw [b] _ rfl
          have hv1 : valueFrom a [b] = a * 10 + (b.toNat - 0x30) := by simp [valueFrom]
          rw [hv1] at h1
          rw [List.cons_append]
          exact fracLoop_step_err fuel v exp z hb (by rw [ha]; omega)

/-! ## The parts of a number -/

/-- The fraction, as read by `unsignedFull`. -/
def fracPart (w : Nat) : P (BitVec w × Nat) := do
  let dot ← P.peek
  if dot == some 0x2E#8 then do
    P.skip 1
    let z ← (fun s => .ok (zeros s) : P Nat)
    fun s => fracLoop (s.length + 1) (0 : BitVec w) z 0 s
  else pure (0, 0)

/-- The exponent, as read by `unsignedFull`. -/
def expPart : P Int := do
  let c ← P.peek
  if c == some 0x65#8 || c == some 0x45#8 then do
    P.skip 1
    exponent
  else pure 0

theorem unsignedFull_parts (w : Nat) : unsignedFull w = (do
    let base ← unsignedBase w
    let f ← fracPart w
    let e ← expPart
    pure { base := base, mantissa := f.1, mexp := f.2, e := e }) := by
  funext s
  unfold unsignedFull fracPart expPart
  rw [P.bind_apply, P.bind_apply]
  cases unsignedBase w s with
  | error e => rfl
  | ok p =>
    obtain ⟨b, s1⟩ := p
    rfl

/-- The text of an optional fraction. -/
def fracText : Option Bytes → Bytes
  | some f => 0x2E#8 :: f
  | none => []

/-- The text of an optional exponent. -/
def expText : Option Exponent → Bytes
  | some e => e.text
  | none => []

/-- Where a fraction ends. -/
def FracEnds (f : Option Bytes) (s : Bytes) : Prop :=
  (f ≠ none → NoDigit s) ∧ (f = none → s.head? ≠ some 0x2E#8)

theorem fracPart_spec {w : Nat} (hw : 2 ^ w % 10 = 6) {f : Option Bytes} (hf : Digits (f.getD []))
    {s : Bytes} (hs : FracEnds f s) :
    ∃ m k, k ≤ (f.getD []).length ∧ (m ≠ 0 → m % 10 ≠ 0) ∧ (m = 0 → k = (f.getD []).length) ∧
      m * 10 ^ ((f.getD []).length - k) = value (f.getD []) ∧
      (m < 2 ^ w → fracPart w (fracText f ++ s) = .ok ((BitVec.ofNat w m, k), s)) ∧
      (2 ^ w ≤ m → NoWrap w (f.getD []) → ∃ r, fracPart w (fracText f ++ s) = .error r) := by
  have hpos := Nat.two_pow_pos w
  cases f with
  | none =>
    refine ⟨0, 0, by simp, by simp, by simp, by simp [value, valueFrom], ?_, by omega⟩
    intro _
    have h1 : (s.head? == some 0x2E#8) = false := by
      cases h : s.head? == some 0x2E#8 with
      | false => rfl
      | true => exact absurd (by simpa using h) (hs.2 rfl)
    unfold fracPart
    show (P.peek >>= _) s = _
    rw [P.bind_ok (a := s.head?) (s' := s) rfl]
    simp only [h1, Bool.false_eq_true, if_false]
    rfl
  | some f =>
    have hs' : NoDigit s := hs.1 (by simp)
    simp only [Option.getD_some] at hf ⊢
    obtain ⟨z, g, rfl, hg, hgz⟩ := leading_zeros hf
    have hzs : zeros (List.replicate z 0x30#8 ++ g ++ s) = (z, g ++ s) := by
      rw [List.append_assoc]
      exact zeros_eq (noZero_append hgz (noDigit_noZero hs'))
    have hrun : fracPart w (fracText (some (List.replicate z 0x30#8 ++ g)) ++ s) =
        fracLoop ((g ++ s).length + 1) (0 : BitVec w) z 0 (g ++ s) := by
      unfold fracPart
      rw [P.bind_ok (a := some 0x2E#8) (s' := 0x2E#8 :: (List.replicate z 0x30#8 ++ g ++ s)) rfl]
      show fracLoop ((zeros (List.replicate z 0x30#8 ++ g ++ s)).2.length + 1) _
        (zeros (List.replicate z 0x30#8 ++ g ++ s)).1 0
        (zeros (List.replicate z 0x30#8 ++ g ++ s)).2 = _
      rw [hzs]
    rw [hrun]
    have hval : value (List.replicate z 0x30#8 ++ g) = value g := by
      unfold value
      rw [valueFrom_append, valueFrom_zeros, Nat.zero_mul]
    rw [hval]
    by_cases hg0 : g = []
    · subst hg0
      refine ⟨0, z, by simp, by simp, by simp, by simp [value, valueFrom], ?_, by omega⟩
      intro _
      rw [List.nil_append, fracLoop_stop hs']
      rfl
    · obtain ⟨m, k, k1, k2, hm10, hmv, hok, herr⟩ := fracLoop_spec hw hs' ((g ++ s).length + 1) g
        (0 : BitVec w) z 0 (by rw [List.length_append]; omega) hg0 hg hgz (.inr rfl)
      have ha : (0 : BitVec w).toNat * 10 ^ 0 = 0 := by simp
      rw [ha] at hmv herr
      refine ⟨m, z + k, ?_, fun _ => hm10, fun h => absurd h (by intro h; subst h; simp at hm10), ?_,
        ?_, ?_⟩
      · simp only [List.length_append, List.length_replicate]; omega
      · unfold value
        rw [← hmv]
        congr 2
        simp only [List.length_append, List.length_replicate]; omega
      · intro hlt
        rw [hok hlt]
        rfl
      · intro hge hnw
        refine herr hge ?_
        intro p r hp
        have := hnw (List.replicate z 0x30#8 ++ p) r (by rw [hp, List.append_assoc])
        unfold value at this
        rwa [valueFrom_append, valueFrom_zeros, Nat.zero_mul] at this

/-- Where an exponent ends. -/
def ExpEnds (e : Option Exponent) (s : Bytes) : Prop :=
  (∀ x, e = some x → NoDigit s ∧
    (x.sign = none → x.digits = [] → s.head? ≠ some 0x2D#8 ∧ s.head? ≠ some 0x2B#8)) ∧
  (e = none → s.head? ≠ some 0x65#8 ∧ s.head? ≠ some 0x45#8)

/-- The value of an optional exponent. -/
def expVal : Option Exponent → Int
  | some e => e.value
  | none => 0

/-- The digits of an optional exponent. -/
def expDig : Option Exponent → Bytes
  | some e => e.digits
  | none => []

theorem computeSigned_total {w : Nat} (hw : 0 < w) (neg : Bool) {n : Nat} (hn : n < 2 ^ w) :
    (∃ v : BitVec w, computeSigned neg (BitVec.ofNat w n) = .ok v ∧ v.toInt = signedValue neg n) ∨
    computeSigned neg (BitVec.ofNat w n) = .error .overflow := by
  by_cases h : if neg then n ≤ 2 ^ (w - 1) else n < 2 ^ (w - 1)
  · exact .inl (computeSigned_ok hw h)
  · exact .inr (computeSigned_overflow hw hn h)

theorem exponent_run {neg : Bool} {s d : Bytes} (h : exponent s =
    (do let e ← digits (0 : BitVec 32)
        let v ← P.ofExcept (computeSigned neg e)
        pure v.toInt : P Int) d) {l r : Bytes} (hd : d = l ++ r) (hl : Digits l) (hr : NoDigit r) :
    ((if neg then value l ≤ 2 ^ 31 else value l < 2 ^ 31) →
      exponent s = .ok (signedValue neg (value l), r)) ∧
    (NoWrap 32 l → exponent s = .ok (signedValue neg (value l), r) ∨ ∃ x, exponent s = .error x) := by
  subst hd
  rw [h]
  have key : ∀ hlt : value l < 2 ^ 32,
      (∃ v : BitVec 32, computeSigned neg (BitVec.ofNat 32 (value l)) = .ok v ∧
        v.toInt = signedValue neg (value l)) →
      (do let e ← digits (0 : BitVec 32)
          let v ← P.ofExcept (computeSigned neg e)
          pure v.toInt : P Int) (l ++ r) = .ok (signedValue neg (value l), r) := by
    intro hlt ⟨v, h1, h2⟩
    have hd := digits_ok (w := 32) hl hr (0 : BitVec 32) (by simpa [value] using hlt)
    rw [P.bind_ok hd]
    have : valueFrom (0 : BitVec 32).toNat l = value l := rfl
    rw [this, h1, P.bind_ok (a := v) (s' := r) rfl, ← h2]
    rfl
  constructor
  · intro hin
    have hlt : value l < 2 ^ 32 := by split at hin <;> omega
    exact key hlt (computeSigned_ok (by omega) (by simpa using hin))
  · intro hnw
    by_cases hlt : value l < 2 ^ 32
    · rcases computeSigned_total (w := 32) (by omega) neg hlt with h1 | h1
      · exact .inl (key hlt h1)
      · right
        have hd := digits_ok (w := 32) hl hr (0 : BitVec 32) (by simpa [value] using hlt)
        rw [P.bind_ok hd]
        have : valueFrom (0 : BitVec 32).toNat l = value l := rfl
        rw [this, h1]
        exact ⟨_, rfl⟩
    · right
      obtain ⟨x, hx⟩ := digits_overflow (w := 32) (by decide) r l 0 hl
        (by show _ ≤ value l; omega) hnw
      exact ⟨_, P.bind_err hx⟩

theorem expPart_spec {e : Option Exponent} {s : Bytes}
    (hl : ∀ x, e = some x → x.letter = 0x65#8 ∨ x.letter = 0x45#8)
    (hsg : ∀ x, e = some x → x.sign = none ∨ x.sign = some 0x2D#8 ∨ x.sign = some 0x2B#8)
    (hd : Digits (expDig e)) (hs : ExpEnds e s) :
    (-(2 ^ 31 : Int) ≤ expVal e → expVal e < 2 ^ 31 → expPart (expText e ++ s) = .ok (expVal e, s)) ∧
    (NoWrap 32 (expDig e) → expPart (expText e ++ s) = .ok (expVal e, s) ∨
      ∃ x, expPart (expText e ++ s) = .error x) := by
  cases e with
  | none =>
    have h0 := hs.2 rfl
    have h1 : (s.head? == some 0x65#8 || s.head? == some 0x45#8) = false := by
      simp [h0.1, h0.2]
    have : expPart (expText none ++ s) = .ok (0, s) := by
      unfold expPart
      show (P.peek >>= _) s = _
      rw [P.bind_ok (a := s.head?) (s' := s) rfl]
      simp only [h1, Bool.false_eq_true, if_false]
      rfl
    exact ⟨fun _ _ => this, fun _ => .inl this⟩
  | some x =>
    obtain ⟨hnd, hsign⟩ := hs.1 x rfl
    have hl := hl x rfl
    have hsg := hsg x rfl
    have hrun : expPart (expText (some x) ++ s) = exponent (x.sign.toList ++ x.digits ++ s) := by
      unfold expPart expText Exponent.text
      rw [List.cons_append, P.bind_ok (a := some x.letter)
        (s' := x.letter :: (x.sign.toList ++ x.digits ++ s)) rfl]
      have : (some x.letter == some 0x65#8 || some x.letter == some 0x45#8) = true := by
        rcases hl with h | h <;> rw [h] <;> decide
      rw [if_pos this]
      rw [P.bind_ok (a := ()) (s' := x.sign.toList ++ x.digits ++ s) rfl]
    rw [hrun]
    simp only [expVal, expDig] at hd ⊢
    have hexp : exponent (x.sign.toList ++ x.digits ++ s) =
        (do let e ← digits (0 : BitVec 32)
            let v ← P.ofExcept (computeSigned (x.sign == some 0x2D#8) e)
            pure v.toInt : P Int) (x.digits ++ s) := by
      unfold exponent
      rcases hsg with h | h | h
      · rw [h]
        show (P.peek >>= _) (x.digits ++ s) = _
        rw [P.bind_ok (a := (x.digits ++ s).head?) (s' := x.digits ++ s) rfl]
        have h2 : (x.digits ++ s).head? ≠ some 0x2D#8 ∧ (x.digits ++ s).head? ≠ some 0x2B#8 := by
          cases hx : x.digits with
          | nil => exact hsign h hx
          | cons b r =>
            have hb : Digit b := hd b (by rw [hx]; simp)
            simp only [List.cons_append, List.head?_cons, ne_eq, Option.some.injEq]
            constructor <;> intro hc <;> subst hc <;> revert hb <;> unfold Digit <;> decide
        have h3 : ((x.digits ++ s).head? == some 0x2D#8) = false := by simpa using h2.1
        have h4 : ((x.digits ++ s).head? == some 0x2B#8) = false := by simpa using h2.2
        simp only [h3, h4, Bool.false_eq_true, if_false]
        rw [P.bind_ok (a := false) (s' := x.digits ++ s) rfl]
        rfl
      · rw [h]; rfl
      · rw [h]; rfl
    have := exponent_run hexp rfl hd hnd
    have hv : signedValue (x.sign == some 0x2D#8) (value x.digits) = x.value := by
      unfold signedValue Exponent.value
      by_cases h : x.sign = some 0x2D#8
      · rw [if_pos (by simpa using h), if_pos h]
      · rw [if_neg (by simpa using h), if_neg h]
    rw [hv] at this
    refine ⟨fun h1 h2 => this.1 ?_, this.2⟩
    unfold Exponent.value at h1 h2
    by_cases h : x.sign = some 0x2D#8
    · rw [if_pos h] at h1 h2
      rw [if_pos (by simpa using h)]
      omega
    · rw [if_neg h] at h1 h2
      rw [if_neg (by simpa using h)]
      omega

/-! ## Whole numbers -/

theorem decimal_text (d : Decimal) : d.text = d.int ++ (fracText d.frac ++ expText d.exp) := by
  unfold Decimal.text fracText expText
  cases d.frac <;> cases d.exp <;> rfl

theorem digits_ne_dot {b : Byte} (h : Digit b) : b ≠ 0x2E#8 := by
  intro hc; subst hc; revert h; unfold Digit; decide

/-- Where a number ends. -/
structure NumEnds (d : Decimal) (s : Bytes) : Prop where
  int : Ends d.int (fracText d.frac ++ (expText d.exp ++ s))
  frac : FracEnds d.frac (expText d.exp ++ s)
  exp : ExpEnds d.exp s

theorem noDigit_cons {b : Byte} (h : ¬ Digit b) (s : Bytes) : NoDigit (b :: s) := by
  intro x r hx
  cases hx
  exact h

theorem noDigit_letter {b : Byte} (h : b = 0x65#8 ∨ b = 0x45#8) (s : Bytes) : NoDigit (b :: s) := by
  apply noDigit_cons
  rcases h with rfl | rfl <;> unfold Digit <;> decide

theorem numEnds_of_noNumber {d : Decimal} (hd : Lenient d) {s : Bytes} (hs : NoNumber s)
    (hstrict : ∀ x, d.exp = some x → x.sign = none → x.digits = [] →
      s.head? ≠ some 0x2D#8 ∧ s.head? ≠ some 0x2B#8) : NumEnds d s := by
  have hsd : NoDigit s := fun b r hb => (hs b r hb).1
  have hexp : NoDigit (expText d.exp ++ s) ∧ (expText d.exp ++ s).head? ≠ some 0x2E#8 := by
    cases he : d.exp with
    | none =>
      refine ⟨hsd, ?_⟩
      cases s with
      | nil => simp [expText]
      | cons b r => simpa [expText] using (hs b r rfl).2.1
    | some x =>
      have hl := hd.letter x he
      refine ⟨noDigit_letter hl _, ?_⟩
      simp only [expText, Exponent.text, List.cons_append, List.head?_cons, ne_eq, Option.some.injEq]
      rcases hl with h | h <;> rw [h] <;> decide
  refine ⟨?_, ⟨fun _ => hexp.1, fun _ => hexp.2⟩, ?_, ?_⟩
  · right
    cases hf : d.frac with
    | none => exact hexp.1
    | some f => exact noDigit_cons (by unfold Digit; decide) _
  · intro x hx
    exact ⟨hsd, hstrict x hx⟩
  · intro _
    cases s with
    | nil => simp
    | cons b r => have := (hs b r rfl).2.2; simpa using this

theorem expVal_eq (d : Decimal) : expVal d.exp = d.expValue := by
  unfold expVal Decimal.expValue
  cases d.exp <;> rfl

theorem expDig_eq (d : Decimal) : expDig d.exp = d.expDigits := by
  unfold expDig Decimal.expDigits
  cases d.exp <;> rfl

/-- Dropping a common power of ten. -/
theorem denotes_iff (d : Decimal) {m k n : Nat} (hk : k ≤ d.fracDigits.length)
    (hv : m * 10 ^ (d.fracDigits.length - k) = value d.fracDigits) :
    d.Denotes n ↔ (value d.int * 10 ^ k + m) * 10 ^ d.expValue.toNat =
      n * 10 ^ (k + (-d.expValue).toNat) := by
  unfold Decimal.Denotes
  have h1 : value (d.int ++ d.fracDigits) =
      (value d.int * 10 ^ k + m) * 10 ^ (d.fracDigits.length - k) := by
    show valueFrom 0 _ = _
    rw [valueFrom_append, valueFrom_eq, ← hv, Nat.add_mul, Nat.mul_assoc, ← Nat.pow_add,
      Nat.add_sub_cancel' hk]
    rfl
  have h2 : d.fracDigits.length + (-d.expValue).toNat =
      (k + (-d.expValue).toNat) + (d.fracDigits.length - k) := by omega
  rw [h1, h2, Nat.pow_add _ (k + _), Nat.mul_right_comm, ← Nat.mul_assoc]
  constructor
  · exact Nat.eq_of_mul_eq_mul_right (ten_pow_pos _)
  · intro h; rw [h]

/-- A number which denotes an integer in range is read as this integer. -/
theorem unsignedFull_complete {w : Nat} (hw : 2 ^ w % 10 = 6) {d : Decimal}
    (hd : Lenient d) {s : Bytes} (hs : NumEnds d s) {n : Nat} (hn : n < 2 ^ w) (hden : d.Denotes n)
    (h0 : n ≠ 0 ∨ d.expValue = 0) (hpad : ¬ d.Padded)
    (he : -(2 ^ 31 : Int) ≤ d.expValue ∧ d.expValue < 2 ^ 31)
    (hint : value d.int < 2 ^ w) :
    ∃ p : Parts w, unsignedFull w (d.text ++ s) = .ok (p, s) ∧ p.compute = .ok (BitVec.ofNat w n) := by
  obtain ⟨m, k, hk, hm10, hmk0, hmv, hok, _⟩ := fracPart_spec hw hd.frac hs.frac
  have hk' : k ≤ d.fracDigits.length := hk
  have hmv' : m * 10 ^ (d.fracDigits.length - k) = value d.fracDigits := hmv
  have hden' := (denotes_iff d hk' hmv').1 hden
  have hmk : m < 10 ^ k := by
    have h1 := value_lt hd.frac
    have h2 : value (d.frac.getD []) < 10 ^ k * 10 ^ (d.fracDigits.length - k) := by
      rw [← Nat.pow_add, Nat.add_sub_cancel' hk']; exact h1
    rw [← hmv] at h2
    exact Nat.lt_of_mul_lt_mul_right h2
  -- the mantissa is in range
  have hm : m < 2 ^ w := by
    by_cases hm0 : m = 0
    · subst hm0; exact Nat.two_pow_pos w
    · -- then the exponent moves all of it before the decimal point
      have hke : (k : Int) ≤ d.expValue := by
        apply Int.not_lt.1
        intro hlt
        generalize d.expValue = e at hden' hlt
        have hpow : ∃ y, k + (-e).toNat = e.toNat + (y + 1) := ⟨k + (-e).toNat - e.toNat - 1, by omega⟩
        obtain ⟨y, hy⟩ := hpow
        rw [hy, Nat.add_comm e.toNat, Nat.pow_add, ← Nat.mul_assoc] at hden'
        have h2 := Nat.eq_of_mul_eq_mul_right (ten_pow_pos _) hden'
        have hk0 : k ≠ 0 := by intro hk0; subst hk0; simp at hmk; omega
        obtain ⟨k', rfl⟩ : ∃ k', k = k' + 1 := ⟨k - 1, by omega⟩
        have h3 : (value d.int * 10 ^ (k' + 1) + m) % 10 = m % 10 := by
          rw [Nat.add_mod, ten_pow_succ_mod]; simp
        rw [h2, ten_pow_succ_mod] at h3
        exact hm10 hm0 h3.symm
      obtain ⟨x, hx⟩ : ∃ x : Nat, d.expValue = ((k + x : Nat) : Int) := ⟨(d.expValue - k).toNat, by omega⟩
      rw [hx] at hden'
      have e1 : (((k + x : Nat) : Int)).toNat = k + x := by omega
      have e2 : (-((k + x : Nat) : Int)).toNat = 0 := by omega
      rw [e1, e2, Nat.add_zero, Nat.add_comm k x, Nat.pow_add, ← Nat.mul_assoc] at hden'
      have h2 := Nat.eq_of_mul_eq_mul_right (ten_pow_pos _) hden'
      have h3 : m ≤ (value d.int * 10 ^ k + m) * 10 ^ x :=
        Nat.le_trans (by omega) (Nat.le_mul_of_pos_right _ (ten_pow_pos x))
      omega
  have hE := (expPart_spec (e := d.exp) (s := s) hd.letter hd.sign
    (by rw [expDig_eq]; exact hd.exp) hs.exp).1 (by rw [expVal_eq]; exact he.1)
    (by rw [expVal_eq]; exact he.2)
  rw [expVal_eq] at hE
  refine ⟨{ base := BitVec.ofNat w (value d.int), mantissa := BitVec.ofNat w m, mexp := k,
            e := d.expValue }, ?_, ?_⟩
  · rw [unsignedFull_parts, decimal_text, List.append_assoc, List.append_assoc,
      P.bind_ok (unsignedBase_ok hd.int hs.int hint), P.bind_ok (hok hm), P.bind_ok hE]
    rfl
  · refine compute_complete hint hm hn hden' hm10 hmk h0 ?_
    intro ⟨hm0, hpos, hlt⟩
    apply hpad
    refine ⟨?_, hpos, ?_⟩
    · rw [← hmv', hm0, Nat.zero_mul]
    · rw [hmk0 hm0] at hlt; exact hlt

/-- What is read is denoted by the text. -/
theorem unsignedFull_sound {w : Nat} (hw4 : 4 ≤ w) (hw : 2 ^ w % 10 = 6) {d : Decimal}
    (hd : Lenient d) {s r : Bytes} (hs : NumEnds d s) {p : Parts w} {v : BitVec w}
    (hnw : NoWrap w d.int) (hnf : NoWrap w d.fracDigits) (hne : NoWrap 32 d.expDigits)
    (h : unsignedFull w (d.text ++ s) = .ok (p, r)) (hv : p.compute = .ok v) :
    r = s ∧ d.Denotes v.toNat := by
  rw [unsignedFull_parts, decimal_text, List.append_assoc, List.append_assoc] at h
  obtain ⟨b, s1, h1, h2⟩ := P.bind_eq_ok.1 h
  have hint : value d.int < 2 ^ w := by
    apply Nat.lt_of_not_le
    intro hle
    obtain ⟨x, hx⟩ := unsignedBase_overflow hw4 hw hd.int (fracText d.frac ++ (expText d.exp ++ s)) hle hnw
    rw [hx] at h1; cases h1
  rw [unsignedBase_ok hd.int hs.int hint] at h1
  cases h1
  obtain ⟨m, k, hk, hm10, hmk0, hmv, hok, herr⟩ := fracPart_spec hw hd.frac hs.frac
  obtain ⟨f, s2, h3, h4⟩ := P.bind_eq_ok.1 h2
  have hm : m < 2 ^ w := by
    apply Nat.lt_of_not_le
    intro hle
    obtain ⟨x, hx⟩ := herr hle hnf
    rw [hx] at h3; cases h3
  rw [hok hm] at h3
  cases h3
  obtain ⟨e, s3, h5, h6⟩ := P.bind_eq_ok.1 h4
  rcases (expPart_spec (e := d.exp) (s := s) hd.letter hd.sign
    (by rw [expDig_eq]; exact hd.exp) hs.exp).2 (by rw [expDig_eq]; exact hne) with hE | ⟨x, hx⟩
  · rw [hE] at h5
    cases h5
    cases h6
    refine ⟨rfl, ?_⟩
    have := compute_sound hint hm hv
    rw [expVal_eq] at this
    exact (denotes_iff d hk hmv).2 this
  · rw [hx] at h5; cases h5

/-! ## What is accepted is a number -/

theorem digits_replicate (n : Nat) : Digits (List.replicate n 0x30#8) := by
  intro b hb
  rw [List.mem_replicate] at hb
  rw [hb.2]
  unfold Digit; decide

theorem digits_append {a b : Bytes} (ha : Digits a) (hb : Digits b) : Digits (a ++ b) := by
  intro x hx
  rcases List.mem_append.1 hx with h | h
  · exact ha x h
  · exact hb x h

theorem fracLoop_shape {w : Nat} : ∀ (fuel : Nat) (v : BitVec w) (exp z : Nat) (s r : Bytes)
    (x : BitVec w × Nat), fracLoop fuel v exp z s = .ok (x, r) →
    ∃ f, Digits f ∧ s = f ++ r ∧ NoDigit r := by
  intro fuel
  induction fuel with
  | zero => intro v exp z s r x h; cases h
  | succ fuel ih =>
    intro v exp z s r x h
    unfold fracLoop at h
    cases s with
    | nil => cases h; exact ⟨[], by simp [Digits], rfl, by simp [NoDigit]⟩
    | cons b s =>
      simp only at h
      split at h
      · rename_i hb
        split at h
        · cases h
        · obtain ⟨y, s1, h1, h2⟩ := P.bind_eq_ok.1 h
          obtain ⟨_, rfl, _⟩ := digit_inv h1
          obtain ⟨z', s2, h3, h4⟩ := P.bind_eq_ok.1 h2
          obtain ⟨f, hf, e, hr⟩ := ih _ _ _ _ _ _ h4
          have hz := (zeros_split s1).1
          have h3' : zeros s1 = (z', s2) := by
            have : Except.ok (ε := Err × Bytes) (zeros s1) = Except.ok (z', s2) := h3
            exact Except.ok.inj this
          rw [h3'] at hz
          refine ⟨b :: (List.replicate z' 0x30#8 ++ f), ?_, ?_, hr⟩
          · intro c hc
            rcases List.mem_cons.1 hc with h | h
            · rw [h]; exact (isDigit_iff b).1 hb
            · exact digits_append (digits_replicate z') hf c h
          · rw [hz, e]; simp
      · rename_i hb
        cases h
        refine ⟨[], by simp [Digits], rfl, ?_⟩
        exact noDigit_cons (fun hd => hb ((isDigit_iff b).2 hd)) s

theorem fracPart_shape {w : Nat} {s r : Bytes} {x : BitVec w × Nat}
    (h : fracPart w s = .ok (x, r)) :
    ∃ f, Digits (f.getD []) ∧ s = fracText f ++ r ∧ FracEnds f r := by
  unfold fracPart at h
  obtain ⟨dot, s1, h1, h2⟩ := P.bind_eq_ok.1 h
  cases h1
  split at h2
  · rename_i hd
    cases s with
    | nil => simp at hd
    | cons b s =>
      have hb : b = 0x2E#8 := by simpa using hd
      subst hb
      obtain ⟨_, s2, h3, h4⟩ := P.bind_eq_ok.1 h2
      have h3' : s = s2 := by
        have : Except.ok (ε := Err × Bytes) ((), s) = Except.ok ((), s2) := h3
        exact (Prod.mk.inj (Except.ok.inj this)).2
      subst h3'
      obtain ⟨z, s3, h5, h6⟩ := P.bind_eq_ok.1 h4
      have h5' : zeros s = (z, s3) := by
        have : Except.ok (ε := Err × Bytes) (zeros s) = Except.ok (z, s3) := h5
        exact Except.ok.inj this
      obtain ⟨f, hf, e, hr⟩ := fracLoop_shape _ _ _ _ _ _ _ h6
      have hz := (zeros_split s).1
      rw [h5'] at hz
      refine ⟨some (List.replicate z 0x30#8 ++ f), digits_append (digits_replicate z) hf, ?_,
        fun _ => hr, fun h => nomatch h⟩
      simp only [fracText]
      rw [hz, e]; simp
  · rename_i hd
    cases h2
    exact ⟨none, by simp [Digits], rfl, fun h => absurd rfl h, fun _ => by simpa using hd⟩

theorem expPart_shape {s r : Bytes} {x : Int} (h : expPart s = .ok (x, r)) :
    ∃ e : Option Exponent, (∀ x, e = some x → x.letter = 0x65#8 ∨ x.letter = 0x45#8) ∧
      (∀ x, e = some x → x.sign = none ∨ x.sign = some 0x2D#8 ∨ x.sign = some 0x2B#8) ∧
      Digits (expDig e) ∧ s = expText e ++ r ∧ ExpEnds e r := by
  unfold expPart at h
  obtain ⟨c, s1, h1, h2⟩ := P.bind_eq_ok.1 h
  cases h1
  split at h2
  · rename_i hd
    cases s with
    | nil => simp at hd
    | cons b s =>
      have hb : b = 0x65#8 ∨ b = 0x45#8 := by simpa using hd
      obtain ⟨_, s2, h3, h4⟩ := P.bind_eq_ok.1 h2
      have h3' : s = s2 := by
        have : Except.ok (ε := Err × Bytes) ((), s) = Except.ok ((), s2) := h3
        exact (Prod.mk.inj (Except.ok.inj this)).2
      subst h3'
      unfold exponent at h4
      obtain ⟨c, s3, h5, h6⟩ := P.bind_eq_ok.1 h4
      cases h5
      obtain ⟨neg, s4, h7, h8⟩ := P.bind_eq_ok.1 h6
      obtain ⟨e, s5, h9, h10⟩ := P.bind_eq_ok.1 h8
      obtain ⟨l, hl, rfl, hn, _⟩ := digits_inv _ _ _ _ h9
      obtain ⟨y, s6, h11, h12⟩ := P.bind_eq_ok.1 h10
      have hrest : s5 = r := by
        cases h12
        cases hce : computeSigned neg e with
        | error q => rw [hce] at h11; cases h11
        | ok q => rw [hce] at h11; cases h11; rfl
      subst hrest
      have hsign : ∃ sg : Option Byte, (sg = none ∨ sg = some 0x2D#8 ∨ sg = some 0x2B#8) ∧
          s = sg.toList ++ (l ++ s5) ∧
          (sg = none → s.head? ≠ some 0x2D#8 ∧ s.head? ≠ some 0x2B#8) := by
        split at h7
        · rename_i hm
          obtain ⟨_, q, h13, h14⟩ := P.bind_eq_ok.1 h7
          cases h14
          cases s with
          | nil => simp at hm
          | cons b s =>
            have hm : b = 0x2D#8 := by simpa using hm
            have : Except.ok (ε := Err × Bytes) ((), s) = Except.ok ((), l ++ s5) := h13
            have := (Prod.mk.inj (Except.ok.inj this)).2
            exact ⟨some 0x2D#8, by simp, by rw [hm, this]; rfl, fun h => nomatch h⟩
        · rename_i hm
          split at h7
          · rename_i hm
            obtain ⟨_, q, h13, h14⟩ := P.bind_eq_ok.1 h7
            cases h14
            cases s with
            | nil => simp at hm
            | cons b s =>
              have hm : b = 0x2B#8 := by simpa using hm
              have : Except.ok (ε := Err × Bytes) ((), s) = Except.ok ((), l ++ s5) := h13
              have := (Prod.mk.inj (Except.ok.inj this)).2
              exact ⟨some 0x2B#8, by simp, by rw [hm, this]; rfl, fun h => nomatch h⟩
          · rename_i hp
            cases h7
            exact ⟨none, by simp, rfl, fun _ => ⟨by simpa using hm, by simpa using hp⟩⟩
      obtain ⟨sg, hsg, es, hnone⟩ := hsign
      refine ⟨some ⟨b, sg, l⟩, ?_, ?_, hl, ?_, ?_, ?_⟩
      · intro x hx; cases hx; exact hb
      · intro x hx; cases hx; exact hsg
      · simp only [expText, Exponent.text]; rw [es]; simp
      · intro x hx
        cases hx
        refine ⟨hn, fun h1 h2 => ?_⟩
        simp only at h1 h2
        have := hnone h1
        rw [es, h1] at this
        rw [h2] at this
        exact this
      · intro h; cases h
  · rename_i hd
    cases h2
    refine ⟨none, (fun _ h => nomatch h), (fun _ h => nomatch h), by simp [Digits, expDig], rfl,
      (fun _ h => nomatch h), fun _ => ?_⟩
    simpa using hd

/-- Whatever is accepted is the text of a number. -/
theorem unsignedFull_shape {w : Nat} (hw4 : 4 ≤ w) {s r : Bytes} {p : Parts w}
    (h : unsignedFull w s = .ok (p, r)) :
    ∃ d, Lenient d ∧ s = d.text ++ r ∧ NumEnds d r := by
  rw [unsignedFull_parts] at h
  obtain ⟨b, s1, h1, h2⟩ := P.bind_eq_ok.1 h
  obtain ⟨num, hn, rfl, hends, _⟩ := unsignedBase_inv hw4 h1
  obtain ⟨x, s2, h3, h4⟩ := P.bind_eq_ok.1 h2
  obtain ⟨f, hf, rfl, hfe⟩ := fracPart_shape h3
  obtain ⟨e, s3, h5, h6⟩ := P.bind_eq_ok.1 h4
  obtain ⟨ex, hl, hsg, hed, rfl, hee⟩ := expPart_shape h5
  cases h6
  refine ⟨⟨num, f, ex⟩, ⟨hn, hf, hl, hsg, ?_⟩, ?_, hends, hfe, hee⟩
  · rw [← expDig_eq]; exact hed
  · rw [decimal_text]; simp

/-! ## Unsigned and signed numbers -/

theorem dropWs_decimal {ws : Bytes} {d : Decimal} (neg : Bool) (hw : Ws ws) (hd : Lenient d) (s : Bytes) :
    dropWs (ws ++ (sign neg ++ (d.text ++ s))) = sign neg ++ (d.text ++ s) := by
  rw [decimal_text, List.append_assoc]
  exact dropWs_signed neg hw hd.int _

theorem minus_decimal {d : Decimal} (neg : Bool) (hd : Lenient d) (s : Bytes) :
    minus (sign neg ++ (d.text ++ s)) = .ok (neg, d.text ++ s) := by
  rw [decimal_text, List.append_assoc]
  exact minus_sign_numeral neg hd.int _

theorem parseUnsignedFull_complete {w : Nat} (hw : 2 ^ w % 10 = 6) {ws : Bytes} (hws : Ws ws)
    {d : Decimal} (hd : Lenient d) {s : Bytes} (hs : NumEnds d s) {n : Nat} (hn : n < 2 ^ w)
    (hden : d.Denotes n) (h0 : n ≠ 0 ∨ d.expValue = 0) (hpad : ¬ d.Padded)
    (he : -(2 ^ 31 : Int) ≤ d.expValue ∧ d.expValue < 2 ^ 31) (hint : value d.int < 2 ^ w) :
    parseUnsignedFull w (ws ++ (d.text ++ s)) = .ok (BitVec.ofNat w n, s) := by
  obtain ⟨p, h1, h2⟩ := unsignedFull_complete hw hd hs hn hden h0 hpad he hint
  unfold parseUnsignedFull
  rw [skipWs_bind]
  have := dropWs_decimal false hws hd s
  simp only [sign, List.nil_append] at this
  rw [this, P.bind_ok h1, h2]
  rfl

theorem parseSignedFull_complete {w : Nat} (hw0 : 0 < w) (hw : 2 ^ w % 10 = 6) {ws : Bytes} (hws : Ws ws)
    {d : Decimal} (hd : Lenient d) {s : Bytes} (hs : NumEnds d s) {n : Nat} {neg : Bool}
    (hn : if neg then n ≤ 2 ^ (w - 1) else n < 2 ^ (w - 1))
    (hden : d.Denotes n) (h0 : n ≠ 0 ∨ d.expValue = 0) (hpad : ¬ d.Padded)
    (he : -(2 ^ 31 : Int) ≤ d.expValue ∧ d.expValue < 2 ^ 31) (hint : value d.int < 2 ^ w) :
    ∃ v : BitVec w, v.toInt = signedValue neg n ∧
      parseSignedFull w (ws ++ (sign neg ++ (d.text ++ s))) = .ok (v, s) := by
  have hlt : n < 2 ^ w := by
    obtain ⟨k, rfl⟩ : ∃ k, w = k + 1 := ⟨w - 1, by omega⟩
    have h2 : 2 ^ (k + 1) = 2 * 2 ^ k := by rw [Nat.pow_succ]; omega
    have hp : 0 < 2 ^ k := Nat.two_pow_pos k
    simp only [Nat.add_sub_cancel] at hn
    split at hn <;> omega
  obtain ⟨p, h1, h2⟩ := unsignedFull_complete hw hd hs hlt hden h0 hpad he hint
  obtain ⟨v, hv, ht⟩ := computeSigned_ok hw0 hn
  refine ⟨v, ht, ?_⟩
  unfold parseSignedFull
  rw [skipWs_bind, dropWs_decimal neg hws hd s, P.bind_ok (minus_decimal neg hd s), P.bind_ok h1, h2,
    P.bind_ok (a := BitVec.ofNat w n) (s' := s) rfl, hv]
  rfl

theorem parseUnsignedFull_sound {w : Nat} (hw4 : 4 ≤ w) (hw : 2 ^ w % 10 = 6) {s r : Bytes} {v : BitVec w}
    (h : parseUnsignedFull w s = .ok (v, r)) :
    ∃ ws d, Ws ws ∧ Lenient d ∧ s = ws ++ (d.text ++ r) ∧
      (NoWrap w d.int → NoWrap w d.fracDigits → NoWrap 32 d.expDigits → d.Denotes v.toNat) := by
  unfold parseUnsignedFull at h
  obtain ⟨_, s1, h1, h2⟩ := P.bind_eq_ok.1 h
  cases h1
  obtain ⟨ws, hws, e⟩ := skipWs_inv (s := s)
  obtain ⟨p, s2, h3, h4⟩ := P.bind_eq_ok.1 h2
  obtain ⟨d, hd, e2, hends⟩ := unsignedFull_shape hw4 h3
  cases hc : p.compute with
  | error x => rw [hc] at h4; cases h4
  | ok x =>
    rw [hc] at h4
    cases h4
    refine ⟨ws, d, hws, hd, by rw [← e2]; exact e, fun n1 n2 n3 => ?_⟩
    rw [e2] at h3
    exact (unsignedFull_sound hw4 hw hd hends n1 n2 n3 h3 hc).2

theorem parseSignedFull_sound {w : Nat} (hw4 : 4 ≤ w) (hw : 2 ^ w % 10 = 6) {s r : Bytes} {v : BitVec w}
    (h : parseSignedFull w s = .ok (v, r)) :
    ∃ ws neg d n, Ws ws ∧ Lenient d ∧ s = ws ++ (sign neg ++ (d.text ++ r)) ∧
      v.toInt = signedValue neg n ∧
      (NoWrap w d.int → NoWrap w d.fracDigits → NoWrap 32 d.expDigits → d.Denotes n) := by
  unfold parseSignedFull at h
  obtain ⟨_, s1, h1, h2⟩ := P.bind_eq_ok.1 h
  cases h1
  obtain ⟨ws, hws, e⟩ := skipWs_inv (s := s)
  obtain ⟨neg, s2, h3, h4⟩ := P.bind_eq_ok.1 h2
  have hneg := minus_inv h3
  obtain ⟨p, s3, h5, h6⟩ := P.bind_eq_ok.1 h4
  obtain ⟨d, hd, e2, hends⟩ := unsignedFull_shape hw4 h5
  obtain ⟨u, s4, h7, h8⟩ := P.bind_eq_ok.1 h6
  cases hc : p.compute with
  | error x => rw [hc] at h7; cases h7
  | ok x =>
    rw [hc] at h7
    cases h7
    cases hcs : computeSigned neg u with
    | error y => rw [hcs] at h8; cases h8
    | ok y =>
      rw [hcs] at h8
      cases h8
      refine ⟨ws, neg, d, u.toNat, hws, hd, ?_, computeSigned_inv (by omega) hcs, fun n1 n2 n3 => ?_⟩
      · rw [← e2, ← hneg]; exact e
      · rw [e2] at h5
        exact (unsignedFull_sound hw4 hw hd hends n1 n2 n3 h5 hc).2

end Musli.Json
