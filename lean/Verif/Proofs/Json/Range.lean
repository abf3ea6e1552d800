import Verif.Proofs.Json.DecodeTy
/-!
# JSON integers out of range, and byte arrays of the wrong length
-/
set_option linter.unusedSectionVars false
namespace Musli.Json
open Musli Spec

/-! ## Integers -/

theorem digits_overflow {w : Nat} (hw : 2 ^ w % 10 = 6) (s : Bytes) :
    ∀ (l : Bytes) (out : BitVec w), Digits l → 2 ^ w ≤ valueFrom out.toNat l →
    (∀ p r, l = p ++ r → ¬ (2 ^ w ≤ valueFrom out.toNat p ∧ valueFrom out.toNat p < 2 ^ w + 4)) →
    ∃ r, digits out (l ++ s) = .error (.overflow, r) := by
  intro l
  induction l with
  | nil =>
    intro out _ h _
    have := out.isLt
    simp [valueFrom] at h
    omega
  | cons b l ih =>
    intro out hl hv hp
    have hb : Digit b := hl b (by simp)
    have hd : isDigit b = true := (isDigit_iff b).2 hb
    unfold Digit at hb
    by_cases ho : out.toNat * 10 < 2 ^ w
    · have h1 := digit_ok ho b (l ++ s)
      by_cases hn : out.toNat * 10 + (b.toNat - 0x30) < 2 ^ w
      · obtain ⟨r, hr⟩ := ih (BitVec.ofNat w (out.toNat * 10 + (b.toNat - 0x30)))
          (fun x hx => hl x (by simp [hx]))
          (by rw [BitVec.toNat_ofNat, Nat.mod_eq_of_lt hn, ← valueFrom_cons]; exact hv)
          (by
            intro p r hpr
            rw [BitVec.toNat_ofNat, Nat.mod_eq_of_lt hn, ← valueFrom_cons]
            exact hp (b :: p) r (by rw [hpr]; rfl))
        refine ⟨r, ?_⟩
        rw [List.cons_append, digits, if_pos hd, h1]
        exact hr
      · exfalso
        refine hp [b] l rfl ⟨?_, ?_⟩
        · simp only [valueFrom_cons]; simp only [valueFrom, List.foldl_nil]; omega
        · simp only [valueFrom_cons]; simp only [valueFrom, List.foldl_nil]; omega
    · refine ⟨b :: (l ++ s), ?_⟩
      have h1 : digit out (b :: (l ++ s)) = .error (.overflow, b :: (l ++ s)) := by
        unfold digit checkedMul10
        rw [if_neg ho]
        rfl
      rw [List.cons_append, digits, if_pos hd, h1]

/-- A numeral has no prefix that exceeds `2 ^ w - 1` by less than five. -/
def NoWrap (w : Nat) (num : Bytes) : Prop :=
  ∀ p r, num = p ++ r → ¬ (2 ^ w ≤ value p ∧ value p < 2 ^ w + 4)

theorem unsignedBase_overflow {w : Nat} (hw4 : 4 ≤ w) (hw : 2 ^ w % 10 = 6) {num : Bytes}
    (hn : Numeral num) (s : Bytes) (hv : 2 ^ w ≤ value num) (hp : NoWrap w num) :
    ∃ r, unsignedBase w (num ++ s) = .error (.overflow, r) := by
  have h16 : 2 ^ 4 ≤ 2 ^ w := Nat.pow_le_pow_right (by omega) hw4
  rcases hn with rfl | ⟨b, r, rfl, h1, h2, hr⟩
  · have : value [0x30#8] = 0 := rfl
    omega
  · have hb0 : (b == 0x30#8) = false := by
      cases h : b == 0x30#8 with
      | false => rfl
      | true => simp at h; subst h; simp at h1
    have hb1 := (isDigitNonzero_iff b).2 ⟨h1, h2⟩
    have ht : (fromDigit w b).toNat = b.toNat - 48 := by
      unfold fromDigit
      rw [BitVec.toNat_ofNat, Nat.mod_eq_of_lt (by omega)]
    rw [numeral_value_cons] at hv
    obtain ⟨x, hx⟩ := digits_overflow hw s r (fromDigit w b) hr (by rw [ht]; exact hv) (by
      intro p q hpq
      rw [ht, ← numeral_value_cons]
      exact hp (b :: p) q (by rw [hpq]; rfl))
    refine ⟨x, ?_⟩
    show (do
      let b ← P.readByte
      if b == 0x30#8 then pure 0
      else if isDigitNonzero b then digits (fromDigit w b)
      else P.fail .invalid : P (BitVec w)) (b :: (r ++ s)) = _
    rw [P.bind_ok (a := b) (s' := r ++ s) rfl]
    simp only [hb0, hb1, if_true, Bool.false_eq_true, if_false]
    exact hx

theorem P.bind_err {α β} {x : P α} {f : α → P β} {s : Bytes} {r : Err × Bytes}
    (h : x s = .error r) : (x >>= f) s = .error r := by
  rw [P.bind_apply, h]

theorem unsignedFull_overflow {w : Nat} {s : Bytes} {r : Err × Bytes}
    (h : unsignedBase w s = .error r) : unsignedFull w s = .error r := by
  unfold unsignedFull
  exact P.bind_err h

theorem parseUnsigned_overflow (full : Bool) {w : Nat} (hw4 : 4 ≤ w) (hw : 2 ^ w % 10 = 6)
    {ws num : Bytes} (hws : Ws ws) (hn : Numeral num) (s : Bytes) (hv : 2 ^ w ≤ value num)
    (hp : NoWrap w num) : ∃ r, parseUnsigned full w (ws ++ (num ++ s)) = .error (.overflow, r) := by
  obtain ⟨r, hr⟩ := unsignedBase_overflow hw4 hw hn s hv hp
  refine ⟨r, ?_⟩
  unfold parseUnsigned
  cases full with
  | false =>
    rw [if_neg (by decide)]
    unfold parseUnsignedBase
    rw [skipWs_bind, dropWs_numeral hws hn]
    exact hr
  | true =>
    rw [if_pos rfl]
    unfold parseUnsignedFull
    rw [skipWs_bind, dropWs_numeral hws hn]
    exact P.bind_err (unsignedFull_overflow hr)

theorem computeSigned_overflow {w : Nat} (hw : 0 < w) {neg : Bool} {n : Nat} (hn : n < 2 ^ w)
    (h : ¬ if neg then n ≤ 2 ^ (w - 1) else n < 2 ^ (w - 1)) :
    computeSigned neg (BitVec.ofNat w n) = .error .overflow := by
  obtain ⟨k, rfl⟩ : ∃ k, w = k + 1 := ⟨w - 1, by omega⟩
  have h2 : 2 ^ (k + 1) = 2 * 2 ^ k := by rw [Nat.pow_succ]; omega
  have hp : 0 < 2 ^ k := Nat.two_pow_pos k
  have ht : (BitVec.ofNat (k + 1) n).toNat = n := by rw [BitVec.toNat_ofNat, Nat.mod_eq_of_lt hn]
  simp only [Nat.add_sub_cancel] at h
  unfold computeSigned negate signed
  rw [ht]
  cases neg with
  | true =>
    simp only [if_true] at h ⊢
    rw [if_pos (by omega)]
  | false =>
    simp only [Bool.false_eq_true, if_false] at h ⊢
    rw [if_pos (by omega)]

theorem parseSigned_overflow (full : Bool) {w : Nat} (hw4 : 4 ≤ w) (hw : 2 ^ w % 10 = 6) {neg : Bool}
    {ws num : Bytes} (hws : Ws ws) (hn : Numeral num) {s : Bytes} (hs : NoNumber s)
    (hv : ¬ if neg then value num ≤ 2 ^ (w - 1) else value num < 2 ^ (w - 1))
    (hp : NoWrap w num) :
    ∃ r, parseSigned full w (ws ++ (sign neg ++ (num ++ s))) = .error (.overflow, r) := by
  unfold parseSigned
  by_cases hlt : value num < 2 ^ w
  · have h1 := computeSigned_overflow (by omega) hlt hv
    refine ⟨s, ?_⟩
    cases full with
    | false =>
      rw [if_neg (by decide)]
      unfold parseSignedBase
      rw [skipWs_bind, dropWs_signed neg hws hn, P.bind_ok (minus_sign_numeral neg hn s),
        P.bind_ok (unsignedBase_ok hn (ends_of_noNumber hs) hlt), h1]
      rfl
    | true =>
      rw [if_pos rfl]
      unfold parseSignedFull
      rw [skipWs_bind, dropWs_signed neg hws hn, P.bind_ok (minus_sign_numeral neg hn s),
        P.bind_ok (unsignedFull_ok hn hs hlt), compute_int,
        P.bind_ok (a := BitVec.ofNat w (value num)) (s' := s) rfl, h1]
      rfl
  · obtain ⟨r, hr⟩ := unsignedBase_overflow hw4 hw hn s (by omega) hp
    refine ⟨r, ?_⟩
    cases full with
    | false =>
      rw [if_neg (by decide)]
      unfold parseSignedBase
      rw [skipWs_bind, dropWs_signed neg hws hn, P.bind_ok (minus_sign_numeral neg hn s)]
      exact P.bind_err hr
    | true =>
      rw [if_pos rfl]
      unfold parseSignedFull
      rw [skipWs_bind, dropWs_signed neg hws hn, P.bind_ok (minus_sign_numeral neg hn s)]
      exact P.bind_err (unsignedFull_overflow hr)

/-! ## Byte arrays -/

theorem arrayLoop_any (full : Bool) (n : Nat) (s : Bytes) :
    ∀ (l acc : Bytes), acc.length ≤ n →
    ∀ (first : Bool) (e : Bytes), After first (l.map (fun b => NatText b.toNat)) e →
    ∀ fuel, l.length < fuel →
      (acc.length + l.length ≤ n → arrayLoop full n fuel first acc acc.length (e ++ 0x5D#8 :: s) =
        .ok ((acc ++ l, acc.length + l.length), 0x5D#8 :: s)) ∧
      (n < acc.length + l.length → ∃ r,
        arrayLoop full n fuel first acc acc.length (e ++ 0x5D#8 :: s) = .error (.panic, r)) := by
  intro l
  induction l with
  | nil =>
    intro acc hn first e he fuel hf
    obtain ⟨f, rfl⟩ : ∃ f, fuel = f + 1 := ⟨fuel - 1, by simp at hf; omega⟩
    refine ⟨fun _ => ?_, fun h => absurd h (by simp; omega)⟩
    unfold arrayLoop
    rw [P.bind_apply, nextValue_ws (after_nil he), nextValue_close]
    show Except.ok _ = _
    simp
  | cons a l ih =>
    intro acc hn first e he fuel hf
    obtain ⟨f, rfl⟩ : ∃ f, fuel = f + 1 := ⟨fuel - 1, by simp at hf; omega⟩
    obtain ⟨x, r, hx, hr, h1, _⟩ := after_cons he
    unfold arrayLoop
    rw [P.bind_ok (h1 (natText_isValue hx) _)]
    simp only [List.length_cons] at hf
    rw [List.length_cons]
    rw [if_pos rfl, if_pos hn]
    have h2 := parseUnsigned_text full (w := 8) a x hx [] ws_nil _ (more_noNumber hr noNumber_bracket s)
    rw [List.nil_append] at h2
    rw [P.bind_ok h2]
    by_cases hlt : acc.length < n
    · rw [if_pos hlt]
      have := ih (acc ++ [a]) (by simp; omega) false r hr f (by omega)
      simp only [List.length_append, List.length_cons, List.length_nil, List.append_assoc,
        List.cons_append, List.nil_append, Nat.zero_add] at this
      rw [show acc.length + (l.length + 1) = acc.length + 1 + l.length from by omega]
      exact this
    · rw [if_neg hlt]
      exact ⟨fun h => absurd h (by omega), fun _ => ⟨_, rfl⟩⟩

theorem decArray_wrong (full : Bool) (n : Nat) (l : Bytes) {x : Bytes}
    (hx : Arr (l.map (fun b => NatText b.toNat)) x) {ws : Bytes} (hw : Ws ws) (s : Bytes) :
    (l.length < n → ∃ r, decArray full n (ws ++ (x ++ s)) = .error (.length, r)) ∧
    (n < l.length → ∃ r, decArray full n (ws ++ (x ++ s)) = .error (.panic, r)) := by
  obtain ⟨e, he, h1⟩ := arr_ws hx hw (s := s)
  have hl := separated_length he (by
    intro q hq x hx
    obtain ⟨a, ha, rfl⟩ := List.mem_map.1 hq
    exact isValue_ne_nil (natText_isValue hx))
  rw [List.length_map] at hl
  have h2 := arrayLoop_any full n s l [] (by simp) true e he
    ((e ++ 0x5D#8 :: s).length + 1) (by simp; omega)
  simp only [List.length_nil, Nat.zero_add, List.nil_append] at h2
  constructor
  · intro h
    have h3 : arrayElems full n (e ++ 0x5D#8 :: s) = _ := h2.1 (by omega)
    refine ⟨0x5D#8 :: s, ?_⟩
    unfold decArray
    rw [P.bind_ok h1, P.bind_ok h3]
    dsimp only
    rw [if_neg (by omega)]
    rfl
  · intro h
    obtain ⟨r, hr⟩ := h2.2 h
    have h3 : arrayElems full n (e ++ 0x5D#8 :: s) = _ := hr
    refine ⟨r, ?_⟩
    unfold decArray
    rw [P.bind_ok h1]
    exact P.bind_err h3

end Musli.Json
