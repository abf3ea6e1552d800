import Verif.Proofs.Float.Top
import Verif.Model.Json.Float
/-!
# Properties of float parsing

The specification is in `Spec/Float.lean` (binary formats and rounding) and
`Spec/FloatText.lean` (decimal literals).
-/
set_option linter.unusedSectionVars false
namespace Musli.Dec2Flt
open Musli.Spec.Float

/-- The bit pattern with the sign of the literal. -/
def signed (F : Format) (sign : Option Bool) (b : Nat) : Nat := if sign = some true then F.sign + b else b

section
variable {R : RawFloat}

theorem dec2flt_literal (L : LawfulAll R) (hF : R.fmt.inf < R.fmt.sign) (l : Signed) {rest : Bytes} (h : l.lit.Ends rest)
    (he : l.lit.exponent.natAbs < 655360 ∨ l.lit.digits.length ≤ 65000) :
    ∃ b, R.fmt.Nearest l.lit.value b ∧
      dec2flt R (l.text ++ rest) = some (some (signed R.fmt l.sign b, l.text.length)) := by
  obtain ⟨b, h1, h2⟩ := dec2flt_read L l h
  refine ⟨b, nearest_value L.slow l.lit he h1, ?_⟩
  rw [h2, signed, RawFloat.neg, neg_eq _ hF h1.1]

end

/-- **C83** for `f64`, up to absurd literals. A literal with an optional sign, followed by
anything which cannot continue it, is read as the `f64` which is nearest to its value,
ties to even, and exactly the literal is consumed. What is missing: literals with
more than 65000 digits and an exponent of at least 655360 (see `C83_violated`). -/
theorem C83_f64_correctly_rounded_partial (l : Signed) (rest : Bytes) (h : l.lit.Ends rest)
    (he : l.lit.exponent.natAbs < 655360 ∨ l.lit.digits.length ≤ 65000) :
    ∃ b, f64.Nearest l.lit.value b ∧
      dec2flt rawF64 (l.text ++ rest) = some (some (signed f64 l.sign b, l.text.length)) :=
  dec2flt_literal lawfulAll64 (by decide) l h he

/-- **C83** for `f32`. -/
theorem C83_f32_correctly_rounded_partial (l : Signed) (rest : Bytes) (h : l.lit.Ends rest)
    (he : l.lit.exponent.natAbs < 655360 ∨ l.lit.digits.length ≤ 65000) :
    ∃ b, f32.Nearest l.lit.value b ∧
      dec2flt rawF32 (l.text ++ rest) = some (some (signed f32 l.sign b, l.text.length)) :=
  dec2flt_literal lawfulAll32 (by decide) l h he

/-- The correctly rounded result is unique, so that the theorems determine the result. -/
theorem C83_result_unique (F : Format) (x : ℚ) (a b : Nat) (ha : F.Nearest x a) (hb : F.Nearest x b) : a = b :=
  F.nearest_unique ha hb

/-- **C83**, a consequence: a literal which stands for a finite `f64` exactly is read as
that number. -/
theorem C83_f64_exact (l : Signed) (rest : Bytes) (h : l.lit.Ends rest)
    (he : l.lit.exponent.natAbs < 655360 ∨ l.lit.digits.length ≤ 65000) (b : Nat) (hb : b < f64.inf)
    (hv : l.lit.value = f64.value b) :
    dec2flt rawF64 (l.text ++ rest) = some (some (signed f64 l.sign b, l.text.length)) := by
  obtain ⟨c, h1, h2⟩ := C83_f64_correctly_rounded_partial l rest h he
  rw [hv] at h1
  rw [h2, f64.nearest_unique h1 (nearest_self f64 (le_of_lt hb))]

theorem nearest_mono (F : Format) {x y : ℚ} {a b : Nat} (ha : F.Nearest x a) (hb : F.Nearest y b) (h : x ≤ y) : a ≤ b := by
  by_contra hlt
  have hlt : b < a := by omega
  have hv : F.value b < F.value a := F.value_strictMono hlt
  have h1 := ha.2 b hb.1 (by omega)
  have h2 := hb.2 a ha.1 (by omega)
  have e1 : |x - F.value a| ≤ |x - F.value b| := by rcases h1 with h | h; exact le_of_lt h; exact le_of_eq h.1
  have e2 : |y - F.value b| ≤ |y - F.value a| := by rcases h2 with h | h; exact le_of_lt h; exact le_of_eq h.1
  -- x is above the middle, y below
  have m1 : F.value a + F.value b ≤ 2 * x := by
    by_contra hc
    have hc : 2 * x < F.value a + F.value b := lt_of_not_ge hc
    have : |x - F.value b| < |x - F.value a| := by
      rw [abs_sub_comm x (F.value a), abs_of_pos (show 0 < F.value a - x by linarith)]
      exact abs_lt.2 ⟨by linarith, by linarith⟩
    linarith
  have m2 : 2 * y ≤ F.value a + F.value b := by
    by_contra hc
    have hc : F.value a + F.value b < 2 * y := lt_of_not_ge hc
    have : |y - F.value a| < |y - F.value b| := by
      rw [abs_of_pos (show 0 < y - F.value b by linarith)]
      exact abs_lt.2 ⟨by linarith, by linarith⟩
    linarith
  have hxy : x = y := by linarith
  subst hxy
  have := F.nearest_unique ha hb
  omega

/-- **C83**, a consequence: reading preserves the order of literals without a sign. -/
theorem C83_f64_monotone (l m : Literal) (r s : Bytes) (hl : l.Ends r) (hm : m.Ends s)
    (hle : l.exponent.natAbs < 655360 ∨ l.digits.length ≤ 65000)
    (hme : m.exponent.natAbs < 655360 ∨ m.digits.length ≤ 65000) (h : l.value ≤ m.value) :
    ∃ a b, dec2flt rawF64 (l.text ++ r) = some (some (a, l.text.length)) ∧
      dec2flt rawF64 (m.text ++ s) = some (some (b, m.text.length)) ∧ a ≤ b := by
  obtain ⟨a, a1, a2⟩ := C83_f64_correctly_rounded_partial ⟨none, l⟩ r hl hle
  obtain ⟨b, b1, b2⟩ := C83_f64_correctly_rounded_partial ⟨none, m⟩ s hm hme
  exact ⟨a, b, a2, b2, nearest_mono _ a1 b1 h⟩

/-- `0.000..01e1000000`, with `n` zeros after the dot. -/
def longOne (n : Nat) : Literal where
  int := [0]
  frac := some (List.replicate n 0 ++ [1])
  exp := some ⟨false, none, [1, 0, 0, 0, 0, 0, 0], by simp⟩
  nonempty := List.cons_ne_nil _ _

theorem longOne_num (n : Nat) : num10 (vals (longOne n).digits) = 1 := by
  have h : vals (longOne n).digits = List.replicate 1 0 ++ (List.replicate n 0 ++ [1]) := by
    simp [Literal.digits, longOne, vals]
  rw [h, num10_append, num10_append, num10_replicate_zero, num10_replicate_zero]
  simp [num10]

theorem longOne_frac (n : Nat) : (((longOne n).frac.getD []).length : Int) = n + 1 := by
  simp [longOne]

/-- **C83** is violated by long literals with a large exponent: with 999999 zeros this
literal stands for one, and is read as zero. The exponent is not read to its end. -/
theorem C83_violated : ∃ l : Literal, l.value = 1 ∧ l.Ends [] ∧
    dec2flt rawF64 l.text = some (some (0, l.text.length)) := by
  have key : ∀ n, 101000 ≤ n → (longOne n).Ends [] ∧
      dec2flt rawF64 (longOne n).text = some (some (0, (longOne n).text.length)) := by
    intro n hn
    have hends : (longOne n).Ends [] := fun c hc => by simp at hc
    refine ⟨hends, ?_⟩
    obtain ⟨b, h1, h2⟩ := dec2flt_read lawfulAll64 ⟨none, longOne n⟩ hends
    have hsat : satExp (longOne n) = 100000 := by
      have : satExp (longOne n) = satNat [1, 0, 0, 0, 0, 0, 0] := by simp [satExp, longOne, vals]
      rw [this]; decide
    have hz : f64.Nearest (readValue (longOne n)) 0 := by
      apply f64.nearest_zero
      rw [readValue, longOne_num, hsat, longOne_frac]
      have h3 : (10 : ℚ) ^ ((100000 : Int) - (n + 1)) ≤ 10 ^ (-325 : Int) :=
        zpow_le_zpow_right₀ (by norm_num) (by omega)
      have h4 := lawfulSlow64.zero
      have h5 : rawF64.fmt = f64 := rfl
      rw [h5] at h4
      generalize (10 : ℚ) ^ ((100000 : Int) - (n + 1)) = A at h3 ⊢
      generalize (10 : ℚ) ^ (-325 : Int) = B at h3 h4
      push_cast
      linarith
    have hb : b = 0 := f64.nearest_unique h1 hz
    subst hb
    simpa [Signed.text, Signed.signText] using h2
  have hval : ∀ n, n + 1 = 1000000 → (longOne n).value = 1 := by
    intro n hn
    have hx : (longOne n).exponent = 1000000 := by
      simp [Literal.exponent, longOne, Exponent.value, digitsValue]
    have hn' : (n : Int) + 1 = 1000000 := by omega
    rw [Literal.value, digitsValue_eq, longOne_num, hx, longOne_frac, hn']
    norm_num
  exact ⟨longOne 999999, hval _ (by norm_num), key _ (by norm_num)⟩

/-! ## Which texts are accepted -/

/-- The text after an optional sign. -/
theorem dec2flt_unsigned (R : RawFloat) (s : Bytes) (hs : s ≠ []) (hm : s.head? ≠ some 0x2D#8) (hp : s.head? ≠ some 0x2B#8)
    (sign : Option Bool) (hno : parsePartialNumber s = some none) :
    dec2flt R (Signed.signText sign ++ s) = some ((parseInfNan s).map fun r =>
      (if sign = some true then R.neg (if r.1 = .inf then R.fmt.inf else R.fmt.nan)
        else (if r.1 = .inf then R.fmt.inf else R.fmt.nan), (Signed.signText sign).length + r.2)) := by
  have hmatch : ∀ sp : Special, (match sp with | .inf => R.fmt.inf | .nan => R.fmt.nan) =
      if sp = .inf then R.fmt.inf else R.fmt.nan := by intro sp; cases sp <;> rfl
  match sign with
  | some true =>
    simp only [Signed.signText, List.cons_append, List.nil_append, dec2flt, beq_self_eq_true, Bool.true_or, if_true]
    rw [if_neg hs, hno]
    cases hi : parseInfNan s with
    | none => simp
    | some r => obtain ⟨sp, n⟩ := r; cases sp <;> simp
  | some false =>
    simp only [Signed.signText, List.cons_append, List.nil_append, dec2flt, beq_self_eq_true, Bool.or_true, if_true,
      show ((0x2B#8 : Byte) == 0x2D#8) = false from rfl, Bool.false_eq_true, if_false]
    rw [if_neg hs, hno]
    cases hi : parseInfNan s with
    | none => simp
    | some r => obtain ⟨sp, n⟩ := r; cases sp <;> simp
  | none =>
    cases s with
    | nil => exact absurd rfl hs
    | cons c t =>
      have h1 : (c == 0x2D#8) = false := by simpa using hm
      have h2 : (c == 0x2B#8) = false := by simpa using hp
      simp only [Signed.signText, List.nil_append, dec2flt, h1, h2, Bool.or_self, Bool.false_eq_true, if_false]
      rw [if_neg hs, hno]
      cases hi : parseInfNan (c :: t) with
      | none => simp
      | some r => obtain ⟨sp, n⟩ := r; cases sp <;> simp

theorem word_head {s : Bytes} (h : isInf s ∨ isNan s) : ∃ c t, s = c :: t ∧
    (c.toNat = 0x49 ∨ c.toNat = 0x69 ∨ c.toNat = 0x4E ∨ c.toNat = 0x6E) := by
  cases s with
  | nil => simp [isInf, isNan, sameLetters] at h
  | cons c t =>
    refine ⟨c, t, rfl, ?_⟩
    have : (if 0x61 ≤ c.toNat ∧ c.toNat ≤ 0x7A then c.toNat - 0x20 else c.toNat) = 0x49 ∨
        (if 0x61 ≤ c.toNat ∧ c.toNat ≤ 0x7A then c.toNat - 0x20 else c.toNat) = 0x4E := by
      simp only [isInf, isNan, sameLetters, List.map_cons, List.cons.injEq] at h
      tauto
    split at this <;> omega

theorem literal_head (l : Literal) (rest : Bytes) : ∃ c t, l.text ++ rest = c :: t ∧
    (0x30 ≤ c.toNat ∧ c.toNat ≤ 0x39 ∨ c = 0x2E#8) := by
  rw [text_eq]
  cases hi : l.int with
  | cons d i =>
    refine ⟨_, _, rfl, .inl ((digit_iff _).1 ?_)⟩
    change digitOf (BitVec.ofNat 8 (0x30 + d.val)) < 10
    rw [digitOf_char d.isLt]; exact d.isLt
  | nil =>
    cases hf : l.frac with
    | none => exact absurd (by rw [hi, hf]; rfl) l.nonempty
    | some f => exact ⟨0x2E#8, _, by simp [vals, chars, tail, hf]; rfl, .inr rfl⟩

/-- A word is not a literal. -/
theorem word_rejected {s : Bytes} (h : isInf s ∨ isNan s) : parsePartialNumber s = some none := by
  rcases parsePartialNumber_cases s with hp | ⟨l, rest, rfl, -⟩
  · exact hp
  · obtain ⟨c, t, h1, h2⟩ := word_head h
    obtain ⟨c', t', h3, h4⟩ := literal_head l rest
    rw [h1] at h3
    obtain ⟨rfl, -⟩ := List.cons.inj h3
    rcases h4 with h4 | rfl
    · omega
    · exact absurd h2 (by decide)

/-- The sign of a text. -/
theorem split_sign (s : Bytes) : ∃ (sign : Option Bool) (t : Bytes), s = Signed.signText sign ++ t ∧
    (sign = none → t.head? ≠ some 0x2D#8 ∧ t.head? ≠ some 0x2B#8) := by
  cases s with
  | nil => exact ⟨none, [], rfl, by simp⟩
  | cons c t =>
    by_cases h1 : c = 0x2D#8
    · exact ⟨some true, t, by rw [h1]; rfl, by simp⟩
    · by_cases h2 : c = 0x2B#8
      · exact ⟨some false, t, by rw [h2]; rfl, by simp⟩
      · exact ⟨none, c :: t, rfl, fun _ => ⟨by simpa using h1, by simpa using h2⟩⟩

/-- **C84.** Infinity and NaN: exactly the words `inf`, `infinity` and `nan` in any mix of
cases, with an optional sign, and only if they are all that is left of the input. -/
theorem C84_words (R : RawFloat) (sign : Option Bool) (w : Bytes) :
    (isInf w → dec2flt R (Signed.signText sign ++ w) =
      some (some (if sign = some true then R.neg R.fmt.inf else R.fmt.inf, (Signed.signText sign ++ w).length))) ∧
    (isNan w → dec2flt R (Signed.signText sign ++ w) =
      some (some (if sign = some true then R.neg R.fmt.nan else R.fmt.nan, (Signed.signText sign ++ w).length))) := by
  have hspec := parseInfNan_spec w
  have key : isInf w ∨ isNan w → w ≠ [] ∧ w.head? ≠ some 0x2D#8 ∧ w.head? ≠ some 0x2B#8 := by
    intro h
    obtain ⟨c, t, rfl, h2⟩ := word_head h
    refine ⟨by simp, ?_, ?_⟩ <;> · simp; rintro rfl; revert h2; decide
  constructor
  · intro h
    obtain ⟨k1, k2, k3⟩ := key (.inl h)
    rw [dec2flt_unsigned R w k1 k2 k3 sign (word_rejected (.inl h)), hspec.1 h]
    simp
  · intro h
    obtain ⟨k1, k2, k3⟩ := key (.inr h)
    rw [dec2flt_unsigned R w k1 k2 k3 sign (word_rejected (.inr h)), hspec.2.1 h]
    simp

/-- The texts which are read as floats: a literal with anything after it which cannot
continue it, or one of the words. -/
def Accepted (s : Bytes) : Prop :=
  (∃ (l : Signed) (rest : Bytes), s = l.text ++ rest ∧ l.lit.Ends rest) ∨
  (∃ (sign : Option Bool) (w : Bytes), s = Signed.signText sign ++ w ∧ (isInf w ∨ isNan w))

theorem accepted_cases {R : RawFloat} (L : LawfulAll R) (s : Bytes) :
    (Accepted s ∧ ∃ r, dec2flt R s = some (some r)) ∨ (¬ Accepted s ∧ dec2flt R s = some none) := by
  by_cases ha : Accepted s
  · left
    refine ⟨ha, ?_⟩
    rcases ha with ⟨l, rest, rfl, h⟩ | ⟨sign, w, rfl, h⟩
    · obtain ⟨b, -, h2⟩ := dec2flt_read L l h
      exact ⟨_, h2⟩
    · rcases h with h | h
      · exact ⟨_, (C84_words R sign w).1 h⟩
      · exact ⟨_, (C84_words R sign w).2 h⟩
  · right
    refine ⟨ha, ?_⟩
    obtain ⟨sign, t, rfl, hs⟩ := split_sign s
    have hno : parsePartialNumber t = some none := by
      rcases parsePartialNumber_cases t with h | ⟨l, rest, rfl, h⟩
      · exact h
      · exact absurd (.inl ⟨⟨sign, l⟩, rest, by simp [Signed.text], h⟩) ha
    have hw : parseInfNan t = none :=
      (parseInfNan_spec t).2.2 (fun h => ha (.inr ⟨sign, t, rfl, .inl h⟩)) (fun h => ha (.inr ⟨sign, t, rfl, .inr h⟩))
    by_cases ht : t = []
    · subst ht
      cases sign with
      | none => rfl
      | some b => cases b <;> rfl
    match sign with
    | none =>
      rw [dec2flt_unsigned R t ht (hs rfl).1 (hs rfl).2 none hno, hw]; rfl
    | some true =>
      simp only [Signed.signText, List.cons_append, List.nil_append, dec2flt, beq_self_eq_true, Bool.true_or, if_true]
      rw [if_neg ht, hno]
      simp [hw]
    | some false =>
      simp only [Signed.signText, List.cons_append, List.nil_append, dec2flt, beq_self_eq_true, Bool.or_true, if_true]
      rw [if_neg ht, hno]
      simp [hw]

/-- **C84.** Exactly these texts are accepted. In particular `1e`, `1e+` and `.` are not, and
`.5`, `5.`, `+5` and `05` are. -/
theorem C84_accepted (s : Bytes) :
    ((∃ r, dec2flt rawF64 s = some (some r)) ↔ Accepted s) ∧
    ((∃ r, dec2flt rawF32 s = some (some r)) ↔ Accepted s) := by
  constructor
  · rcases accepted_cases lawfulAll64 s with ⟨h1, h2⟩ | ⟨h1, h2⟩
    · exact ⟨fun _ => h1, fun _ => h2⟩
    · exact ⟨fun ⟨r, h⟩ => by rw [h2] at h; simp at h, fun h => absurd h h1⟩
  · rcases accepted_cases lawfulAll32 s with ⟨h1, h2⟩ | ⟨h1, h2⟩
    · exact ⟨fun _ => h1, fun _ => h2⟩
    · exact ⟨fun ⟨r, h⟩ => by rw [h2] at h; simp at h, fun h => absurd h h1⟩

/-- **C85.** Reading a float never panics and always ends, whatever the input: no index is
out of bounds, no arithmetic overflows. -/
theorem C85_never_panics (s : Bytes) : (dec2flt rawF64 s).isSome ∧ (dec2flt rawF32 s).isSome := by
  constructor
  · rcases accepted_cases lawfulAll64 s with ⟨-, r, h⟩ | ⟨-, h⟩ <;> rw [h] <;> rfl
  · rcases accepted_cases lawfulAll32 s with ⟨-, r, h⟩ | ⟨-, h⟩ <;> rw [h] <;> rfl

/-- **C85.** Never more than the input is consumed. -/
theorem C85_length (s : Bytes) (v n : Nat) :
    (dec2flt rawF64 s = some (some (v, n)) → 0 < n ∧ n ≤ s.length) ∧
    (dec2flt rawF32 s = some (some (v, n)) → 0 < n ∧ n ≤ s.length) := by
  have key : ∀ {R : RawFloat} (L : LawfulAll R), dec2flt R s = some (some (v, n)) → 0 < n ∧ n ≤ s.length := by
    intro R L h
    rcases accepted_cases L s with ⟨ha, -⟩ | ⟨-, h2⟩
    · rcases ha with ⟨l, rest, rfl, hl⟩ | ⟨sign, w, rfl, hw⟩
      · obtain ⟨b, -, h2⟩ := dec2flt_read L l hl
        rw [h] at h2
        simp only [Option.some.injEq, Prod.mk.injEq] at h2
        rw [h2.2]
        obtain ⟨c, t, h3, -⟩ := literal_head l.lit []
        rw [List.append_nil] at h3
        refine ⟨?_, by simp⟩
        rw [Signed.text, h3]; simp
      · obtain ⟨c, t, hc, -⟩ := word_head hw
        have hpos : 0 < (Signed.signText sign ++ w).length := by rw [hc]; simp
        rcases hw with hw | hw
        · have h2 := (C84_words R sign w).1 hw
          rw [h] at h2
          simp only [Option.some.injEq, Prod.mk.injEq] at h2
          omega
        · have h2 := (C84_words R sign w).2 hw
          rw [h] at h2
          simp only [Option.some.injEq, Prod.mk.injEq] at h2
          omega
    · rw [h2] at h; simp at h
  exact ⟨key lawfulAll64, key lawfulAll32⟩

/-! ## Floats in JSON -/
open Musli.Json

/-- **C86**, what holds: a literal right at the position of the decoder is decoded, correctly
rounded, and exactly the literal is consumed. -/
theorem C86_json_float_partial (l : Signed) (rest : Bytes) (h : l.lit.Ends rest)
    (he : l.lit.exponent.natAbs < 655360 ∨ l.lit.digits.length ≤ 65000) :
    (∃ b, f64.Nearest l.lit.value b ∧ parseFloat rawF64 (l.text ++ rest) = .ok (signed f64 l.sign b, rest)) ∧
    (∃ b, f32.Nearest l.lit.value b ∧ parseFloat rawF32 (l.text ++ rest) = .ok (signed f32 l.sign b, rest)) := by
  constructor
  · obtain ⟨b, h1, h2⟩ := C83_f64_correctly_rounded_partial l rest h he
    exact ⟨b, h1, by simp [parseFloat, h2]⟩
  · obtain ⟨b, h1, h2⟩ := C83_f32_correctly_rounded_partial l rest h he
    exact ⟨b, h1, by simp [parseFloat, h2]⟩

theorem not_accepted_ws {c : Byte} (hc : isWs c = true) (s : Bytes) : ¬ Accepted (c :: s) := by
  have hws : c.toNat = 0x20 ∨ c.toNat = 0x0A ∨ c.toNat = 0x09 ∨ c.toNat = 0x0D := by
    revert c; decide +kernel
  rintro (⟨l, rest, h, -⟩ | ⟨sign, w, h, hw⟩)
  · obtain ⟨c', t, h3, h4⟩ := literal_head l.lit rest
    rw [Signed.text, List.append_assoc, h3] at h
    match hs : l.sign with
    | none =>
      rw [hs] at h
      obtain ⟨rfl, -⟩ := List.cons.inj h
      rcases h4 with h4 | rfl
      · omega
      · revert hws; decide
    | some true => rw [hs] at h; obtain ⟨rfl, -⟩ := List.cons.inj h; revert hws; decide
    | some false => rw [hs] at h; obtain ⟨rfl, -⟩ := List.cons.inj h; revert hws; decide
  · obtain ⟨c', t, rfl, h4⟩ := word_head hw
    match sign with
    | none => obtain ⟨rfl, -⟩ := List.cons.inj h; omega
    | some true => obtain ⟨rfl, -⟩ := List.cons.inj h; revert hws; decide
    | some false => obtain ⟨rfl, -⟩ := List.cons.inj h; revert hws; decide

/-- **C86** is violated: whitespace in front of a float is an error, for every input. -/
theorem C86_violated (c : Byte) (hc : isWs c = true) (s : Bytes) :
    parseFloat rawF64 (c :: s) = .error (.invalid, c :: s) ∧
    parseFloat rawF32 (c :: s) = .error (.invalid, c :: s) := by
  constructor
  · rcases accepted_cases lawfulAll64 (c :: s) with ⟨h, -⟩ | ⟨-, h⟩
    · exact absurd h (not_accepted_ws hc s)
    · simp [parseFloat, h]
  · rcases accepted_cases lawfulAll32 (c :: s) with ⟨h, -⟩ | ⟨-, h⟩
    · exact absurd h (not_accepted_ws hc s)
    · simp [parseFloat, h]

/-- **C86** is violated for the fields of objects: `{"a": 1.5}` cannot be decoded into a
struct with a field of type `f64`, because of the space after the colon. -/
theorem C86_violated_field (c : Byte) (hc : isWs c = true) (s : Bytes) :
    entryValue (parseFloat rawF64) (0x3A#8 :: c :: s) = .error (.invalid, c :: s) := by
  have h : expect .colon (0x3A#8 :: c :: s) = .ok ((), c :: s) := by
    simp [expect, lex, dropWs, isWs, tokenAt, Token.ofByte, P.skip, bind, P.bind]
  rw [entryValue, P.bind_ok h]
  exact (C86_violated c hc s).1

/-! ## Examples -/

/-- `-12.50e+1`, followed by a comma. -/
example : ∃ l : Signed, l.text ++ [0x2C#8] = [0x2D#8, 0x31#8, 0x32#8, 0x2E#8, 0x35#8, 0x30#8, 0x65#8, 0x2B#8, 0x31#8, 0x2C#8] ∧
    l.lit.Ends [0x2C#8] ∧ l.lit.value = 125 ∧ (l.lit.exponent.natAbs < 655360 ∨ l.lit.digits.length ≤ 65000) :=
  ⟨⟨some true, ⟨[1, 2], some [5, 0], some ⟨false, some false, [1], by simp⟩, by simp⟩⟩, by decide,
    fun c hc => by simp at hc; subst hc; decide,
    by simp [Literal.value, digitsValue, Literal.digits, Literal.exponent, Exponent.value]; norm_num,
    .inl (by decide)⟩

example : dec2flt rawF64 [0x31#8, 0x2E#8, 0x35#8] = some (some (0x3FF8000000000000, 3)) := by decide +kernel
example : dec2flt rawF64 [0x31#8, 0x65#8] = some none := by decide +kernel
example : isInf [0x49#8, 0x6E#8, 0x66#8] := by unfold isInf sameLetters; decide

end Musli.Dec2Flt
