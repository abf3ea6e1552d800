import Verif.Proofs.Float.Text
import Verif.Spec.FloatText
/-!
# Reading a number
-/
set_option linter.unusedSectionVars false
namespace Musli.Dec2Flt
open Musli.Spec.Float

/-- The digits of a literal as natural numbers. -/
def vals (ds : List (Fin 10)) : List Nat := ds.map Fin.val

theorem vals_lt (ds : List (Fin 10)) : ∀ d ∈ vals ds, d < 10 := by
  intro d hd
  obtain ⟨x, _, rfl⟩ := List.mem_map.1 hd
  exact x.isLt

theorem vals_append (a b : List (Fin 10)) : vals (a ++ b) = vals a ++ vals b := by simp [vals]
theorem vals_length (a : List (Fin 10)) : (vals a).length = a.length := by simp [vals]

theorem digitsText_eq (ds : List (Fin 10)) : digitsText ds = chars (vals ds) := by
  simp [digitsText, chars, vals]

theorem digitsValue_eq (ds : List (Fin 10)) : digitsValue ds = num10 (vals ds) := by
  have h := foldl_num10 (vals ds) 0
  simp only [Nat.zero_mul, Nat.zero_add] at h
  rw [← h, digitsValue, vals, List.foldl_map]

theorem exists_vals {ds : List Nat} (h : ∀ d ∈ ds, d < 10) : ∃ a, ds = vals a := by
  induction ds with
  | nil => exact ⟨[], rfl⟩
  | cons d ds ih =>
    obtain ⟨a, ha⟩ := ih fun x hx => h x (by simp [hx])
    have hd := h d (by simp)
    exact ⟨⟨d, hd⟩ :: a, by rw [ha]; rfl⟩

theorem digit_iff : ∀ c : Byte, digitOf c < 10 ↔ 0x30 ≤ c.toNat ∧ c.toNat ≤ 0x39 := by decide +kernel

/-- The exponent as the code reads it: it stops at a value which is large enough. -/
def satNat (ds : List Nat) : Int := ds.foldl (fun (e : Int) (d : Nat) => if e < 0x10000 then 10 * e + (d : Int) else e) 0

theorem sat_aux (ds : List Nat) (x : Nat) :
    ∃ a b, ds = a ++ b ∧ ds.foldl (fun (e : Int) (d : Nat) => if e < 0x10000 then 10 * e + (d : Int) else e) (x : Int) =
      ((x * 10 ^ a.length + num10 a : Nat) : Int) ∧ (b = [] ∨ 65536 ≤ x * 10 ^ a.length + num10 a) := by
  induction ds generalizing x with
  | nil => exact ⟨[], [], rfl, by simp [num10], .inl rfl⟩
  | cons d ds ih =>
    by_cases hx : x < 65536
    · obtain ⟨a, b, h1, h2, h3⟩ := ih (10 * x + d)
      have hv : x * 10 ^ (d :: a).length + num10 (d :: a) = (10 * x + d) * 10 ^ a.length + num10 a := by
        simp only [num10, List.length_cons, Nat.pow_succ]; ring
      refine ⟨d :: a, b, by rw [h1]; rfl, ?_, hv ▸ h3⟩
      rw [hv, ← h2, List.foldl_cons, if_pos (by omega)]
      push_cast; rfl
    · refine ⟨[], d :: ds, rfl, ?_, .inr (by simp [num10]; omega)⟩
      have key : ∀ l : List Nat, l.foldl (fun (e : Int) (d : Nat) => if e < 0x10000 then 10 * e + (d : Int) else e) (x : Int) = x := by
        intro l
        induction l with
        | nil => rfl
        | cons d l ih => rw [List.foldl_cons, if_neg (by omega)]; exact ih
      rw [key]; simp [num10]

theorem satNat_spec (ds : List Nat) : satNat ds = num10 ds ∨ (65536 ≤ satNat ds ∧ 655360 ≤ num10 ds) := by
  obtain ⟨a, b, h1, h2, h3⟩ := sat_aux ds 0
  simp only [Nat.zero_mul, Nat.zero_add] at h2 h3
  change satNat ds = _ at h2
  rw [h2]
  cases b with
  | nil => left; rw [h1, List.append_nil]
  | cons d b =>
    right
    have h3 := h3.resolve_left (by simp)
    refine ⟨by exact_mod_cast h3, ?_⟩
    rw [h1, num10_append, List.length_cons, Nat.pow_succ]
    have : 1 ≤ 10 ^ b.length := Nat.one_le_pow _ _ (by norm_num)
    nlinarith

theorem satNat_nonneg (ds : List Nat) : 0 ≤ satNat ds := by
  rcases satNat_spec ds with h | h <;> omega

/-- The exponent of a literal as the code reads it. -/
def satExp (l : Literal) : Int :=
  match l.exp with
  | none => 0
  | some e => if e.sign = some true then -satNat (vals e.digits) else satNat (vals e.digits)

/-- The number of a literal as the code reads it. -/
def readValue (l : Literal) : ℚ :=
  num10 (vals l.digits) * 10 ^ (satExp l - ((l.frac.getD []).length : Int))

theorem parseScientific_digits {ds : List Nat} {rest : Bytes} (h : ∀ d ∈ ds, d < 10) (hne : ds ≠ []) (hr : NoDigit rest) :
    parseScientific (chars ds ++ rest) = some (satNat ds, rest) := by
  cases ds with
  | nil => exact absurd rfl hne
  | cons d ds =>
    have hd := h d (by simp)
    have hn : ∀ d < 10, (BitVec.ofNat 8 (0x30 + d) == 0x2D#8) = false ∧ (BitVec.ofNat 8 (0x30 + d) == 0x2B#8) = false := by
      decide
    have hp := parseDigits_spec (fun (e : Int) (d : Nat) => if e < 0x10000 then 10 * e + (d : Int) else e) h hr 0
    simp only [chars, List.map_cons, List.cons_append] at hp ⊢
    simp only [parseScientific, (hn d hd).1, (hn d hd).2, digitOf_char hd, hd, if_true, Bool.or_self]
    simp [hp, satNat, digitOf_char hd, hd]

theorem parseScientific_sign (neg : Bool) {ds : List Nat} {rest : Bytes} (h : ∀ d ∈ ds, d < 10) (hne : ds ≠ [])
    (hr : NoDigit rest) : parseScientific ((if neg then 0x2D#8 else 0x2B#8) :: (chars ds ++ rest)) =
      some (if neg then -satNat ds else satNat ds, rest) := by
  cases ds with
  | nil => exact absurd rfl hne
  | cons d ds =>
    have hd := h d (by simp)
    have hp := parseDigits_spec (fun (e : Int) (d : Nat) => if e < 0x10000 then 10 * e + (d : Int) else e) h hr 0
    simp only [chars, List.map_cons, List.cons_append] at hp ⊢
    cases neg <;> simp [parseScientific, digitOf_char hd, hd, hp, satNat]

theorem scientific_spec (l : Literal) {rest : Bytes} (h : l.Ends rest) :
    scientific ((l.exp.map Exponent.text).getD [] ++ rest) = some (rest, satExp l) := by
  have hr : NoDigit rest := fun c hc => fun hd => (h c hc).1 ((digit_iff c).1 hd)
  cases he : l.exp with
  | none =>
    simp only [Option.map_none, Option.getD_none, List.nil_append, satExp, he]
    cases rest with
    | nil => rfl
    | cons c rest =>
      have := (h c rfl).2.1 he
      simp [scientific, this]
  | some e =>
    simp only [Option.map_some, Option.getD_some, satExp, he, Exponent.text]
    have hne : vals e.digits ≠ [] := by simpa [vals] using e.nonempty
    have h0 : ∀ t, scientific ((if e.upper then 0x45#8 else 0x65#8) :: t) =
        (parseScientific t).map fun r => (r.2, r.1) := by
      intro t
      cases e.upper <;> simp [scientific]
    rw [List.cons_append, h0]
    simp only [digitsText_eq]
    cases hs : e.sign with
    | none => simp [parseScientific_digits (vals_lt _) hne hr]
    | some b =>
      cases b with
      | true =>
        have := parseScientific_sign true (vals_lt _) hne hr
        simp only [if_true] at this
        simp [this]
      | false =>
        have := parseScientific_sign false (vals_lt _) hne hr
        simp only [Bool.false_eq_true, if_false] at this
        simp [this]

/-- The text after the digits in front of the dot. -/
def tail (l : Literal) (rest : Bytes) : Bytes :=
  (match l.frac with
    | none => []
    | some f => 0x2E#8 :: chars (vals f)) ++ ((l.exp.map Exponent.text).getD [] ++ rest)

theorem text_eq (l : Literal) (rest : Bytes) : l.text ++ rest = chars (vals l.int) ++ tail l rest := by
  unfold Literal.text tail
  cases l.frac <;> simp [digitsText_eq]

theorem noDigit_exp (l : Literal) {rest : Bytes} (h : l.Ends rest) :
    NoDigit ((l.exp.map Exponent.text).getD [] ++ rest) := by
  intro c hc
  cases he : l.exp with
  | none =>
    simp only [he, Option.map_none, Option.getD_none, List.nil_append] at hc
    exact fun hd => (h c hc).1 ((digit_iff c).1 hd)
  | some e =>
    simp only [he, Option.map_some, Option.getD_some, Exponent.text, List.cons_append, List.head?_cons, Option.some.injEq] at hc
    rw [← hc]
    cases e.upper <;> decide

theorem noDigit_tail (l : Literal) {rest : Bytes} (h : l.Ends rest) : NoDigit (tail l rest) := by
  unfold tail
  cases hf : l.frac with
  | none => simpa using noDigit_exp l h
  | some f =>
    intro c hc
    simp at hc
    rw [← hc]; decide

theorem afterDot_spec (l : Literal) {rest : Bytes} (h : l.Ends rest) {m : Nat} (hm : m < 2 ^ 64) :
    afterDot (tail l rest) m = some ((l.exp.map Exponent.text).getD [] ++ rest,
      (m * 10 ^ (l.frac.getD []).length + num10 (vals (l.frac.getD []))) % 2 ^ 64, (l.frac.getD []).length) := by
  unfold tail
  cases hf : l.frac with
  | none =>
    simp only [List.nil_append, Option.getD_none, List.length_nil, vals, List.map_nil, num10, Nat.pow_zero, Nat.mul_one,
      Nat.add_zero, Nat.mod_eq_of_lt hm]
    cases ht : (l.exp.map Exponent.text).getD [] ++ rest with
    | nil => rfl
    | cons c t =>
      have hc : c ≠ 0x2E#8 := by
        cases he : l.exp with
        | none =>
          rw [he] at ht
          simp at ht
          exact (h c (by rw [ht]; rfl)).2.2 he hf
        | some e =>
          rw [he] at ht
          simp only [Option.map_some, Option.getD_some, Exponent.text, List.cons_append, List.cons.injEq] at ht
          rw [← ht.1]
          cases e.upper <;> decide
      simp [afterDot, hc]
  | some f =>
    have := tryParseDigits_spec (vals_lt f) (noDigit_exp l h) hm
    simp only [List.cons_append, Option.getD_some, afterDot, beq_self_eq_true, if_true, this, Option.bind_eq_bind,
      Option.bind_some, vals_length]
    simp [chars_length, vals_length]

theorem leadingZeros_le (s : Bytes) (n : Int) : leadingZeros s n ≤ n := by
  induction s generalizing n with
  | nil => simp [leadingZeros]
  | cons c s ih =>
    simp only [leadingZeros]
    split
    · exact (ih _).trans (by omega)
    · exact le_refl n

theorem leadingZeros_zeros (ds : List Nat) (h : ∀ d ∈ ds, d = 0) (r : Bytes) (n : Int) :
    leadingZeros (chars ds ++ r) n = leadingZeros r (n - ds.length) := by
  induction ds generalizing n with
  | nil => simp [chars]
  | cons d ds ih =>
    have hd := h d (by simp)
    subst hd
    have : leadingZeros (chars (0 :: ds) ++ r) n = leadingZeros (chars ds ++ r) (n - 1) := by
      simp [chars, leadingZeros]
    rw [this, ih (fun x hx => h x (by simp [hx]))]
    congr 1; push_cast [List.length_cons]; ring

theorem leadingZeros_stop {z : Nat} {b : List Nat} (hb : b ≠ []) (hd : ∀ d ∈ b, d < 10) (h1 : 1 ≤ b.headD 0) (r : Bytes) (n : Int) :
    leadingZeros (chars (List.replicate z 0 ++ b) ++ r) n = n - z := by
  rw [chars_append, List.append_assoc, leadingZeros_zeros _ (fun d hd => List.eq_of_mem_replicate hd), List.length_replicate]
  cases b with
  | nil => exact absurd rfl hb
  | cons d b =>
    have key : ∀ d < 10, 1 ≤ d → ¬ (((BitVec.ofNat 8 (0x30 + d) == 0x2E#8) || (BitVec.ofNat 8 (0x30 + d) == 0x30#8)) = true) := by
      decide
    simp only [chars, List.map_cons, List.cons_append, leadingZeros]
    rw [if_neg (key d (hd d (by simp)) h1)]

theorem split_zeros (ds : List Nat) : (∀ d ∈ ds, d = 0) ∨
    ∃ z b, ds = List.replicate z 0 ++ b ∧ b ≠ [] ∧ 1 ≤ b.headD 0 := by
  obtain ⟨z, h1, h2⟩ := dropZeros_spec ds
  cases hb : Decimal.dropZeros ds with
  | nil =>
    left
    rw [hb, List.append_nil] at h1
    rw [h1]; exact fun d hd => List.eq_of_mem_replicate hd
  | cons d b =>
    right
    rw [hb] at h1 h2
    exact ⟨z, d :: b, h1, by simp, by simp at h2 ⊢; omega⟩

theorem num10_zeros {ds : List Nat} (h : ∀ d ∈ ds, d = 0) : num10 ds = 0 := by
  rw [List.eq_replicate_iff.2 ⟨rfl, h⟩, num10_replicate_zero]

/-- Whether more than nineteen digits matter. -/
theorem leadingZeros_spec (l : Literal) (rest : Bytes) (n : Int) (hn : n = (l.digits.length : Int) - 19) :
    (leadingZeros (chars (vals l.int) ++ tail l rest) n ≤ 0 → num10 (vals l.digits) < 10 ^ 19) ∧
    (0 < leadingZeros (chars (vals l.int) ++ tail l rest) n → 10 ^ 19 ≤ num10 (vals l.digits)) := by
  have hlen : l.digits.length = (vals l.int).length + (vals (l.frac.getD [])).length := by
    simp [Literal.digits, vals_length]
  have hdig : vals l.digits = vals l.int ++ vals (l.frac.getD []) := vals_append _ _
  have hlen' : (vals l.digits).length = l.digits.length := vals_length _
  -- all digits are zero
  have hzero : (∀ d ∈ vals l.digits, d = 0) →
      leadingZeros (chars (vals l.int) ++ tail l rest) n ≤ n - l.digits.length →
      (leadingZeros (chars (vals l.int) ++ tail l rest) n ≤ 0 → num10 (vals l.digits) < 10 ^ 19) ∧
      (0 < leadingZeros (chars (vals l.int) ++ tail l rest) n → 10 ^ 19 ≤ num10 (vals l.digits)) := by
    intro h1 h2
    rw [num10_zeros h1]
    exact ⟨fun _ => by norm_num, fun h => by omega⟩
  -- they are not
  have hnz : ∀ z b, vals l.digits = List.replicate z 0 ++ b → b ≠ [] → 1 ≤ b.headD 0 →
      leadingZeros (chars (vals l.int) ++ tail l rest) n = n - z →
      (leadingZeros (chars (vals l.int) ++ tail l rest) n ≤ 0 → num10 (vals l.digits) < 10 ^ 19) ∧
      (0 < leadingZeros (chars (vals l.int) ++ tail l rest) n → 10 ^ 19 ≤ num10 (vals l.digits)) := by
    intro z b h1 h2 h3 h4
    rw [h4]
    have hl : l.digits.length = z + b.length := by rw [← hlen', h1]; simp
    have hb : ∀ d ∈ b, d < 10 := fun d hd => vals_lt l.digits d (by rw [h1]; simp [hd])
    have hv : num10 (vals l.digits) = num10 b := by rw [h1, num10_append, num10_replicate_zero]; omega
    have g1 := num10_lt hb
    have g2 := num10_ge h2 h3
    rw [hv]
    constructor
    · intro h
      exact lt_of_lt_of_le g1 (Nat.pow_le_pow_right (by norm_num) (by omega))
    · intro h
      exact le_trans (Nat.pow_le_pow_right (by norm_num) (by omega)) g2
  rcases split_zeros (vals l.int) with hi | ⟨z, b, h1, h2, h3⟩
  · cases hf : l.frac with
    | none =>
      apply hzero
      · rw [hdig, hf]; simpa [vals] using hi
      · rw [leadingZeros_zeros _ hi, hlen, hf]
        exact (leadingZeros_le _ _).trans (by simp [vals])
    | some f =>
      have ht : leadingZeros (chars (vals l.int) ++ tail l rest) n =
          leadingZeros (chars (vals f) ++ ((l.exp.map Exponent.text).getD [] ++ rest)) (n - (vals l.int).length) := by
        rw [leadingZeros_zeros _ hi]
        simp [tail, hf, leadingZeros]
      rcases split_zeros (vals f) with hff | ⟨z, b, h1, h2, h3⟩
      · apply hzero
        · rw [hdig, hf]
          intro d hd
          rcases List.mem_append.1 hd with hd | hd
          · exact hi d hd
          · exact hff d hd
        · rw [ht, leadingZeros_zeros _ hff, hlen, hf]
          refine (leadingZeros_le _ _).trans ?_
          simp only [Option.getD_some]; push_cast; omega
      · refine hnz ((vals l.int).length + z) b ?_ h2 h3 ?_
        · rw [hdig, hf, Option.getD_some, h1, ← List.append_assoc, List.replicate_add]
          congr 2
          exact List.eq_replicate_iff.2 ⟨rfl, hi⟩
        · rw [ht, h1, leadingZeros_stop h2 (fun d hd => vals_lt f d (by rw [h1]; simp [hd])) h3]
          push_cast; ring
  · refine hnz z (b ++ vals (l.frac.getD [])) ?_ (by simp [h2]) ?_ ?_
    · rw [hdig, h1, List.append_assoc]
    · cases b with
      | nil => exact absurd rfl h2
      | cons d b => simpa using h3
    · rw [h1, leadingZeros_stop h2 (fun d hd => vals_lt l.int d (by rw [h1]; simp [hd])) h3]

/-- Cutting off digits. -/
theorem cut_digits (a b : List Nat) (hb : ∀ d ∈ b, d < 10) :
    num10 a * 10 ^ b.length ≤ num10 (a ++ b) ∧ num10 (a ++ b) < (num10 a + 1) * 10 ^ b.length := by
  have := num10_lt hb
  rw [num10_append, Nat.add_mul]
  omega

theorem cut_value {a b : List Nat} {N : Nat} (hb : ∀ d ∈ b, d < 10) (hN : N = num10 (a ++ b)) (e f : Int)
    (hef : e = b.length + f) :
    (num10 a : ℚ) * 10 ^ e ≤ N * 10 ^ f ∧ (N : ℚ) * 10 ^ f < ((num10 a + 1 : Nat) : ℚ) * 10 ^ e := by
  have hp : (10 : ℚ) ^ e = 10 ^ b.length * 10 ^ f := by
    rw [hef, zpow_add₀ (by norm_num), zpow_natCast]
  obtain ⟨h1, h2⟩ := cut_digits a b hb
  rw [← hN] at h1 h2
  have h1' : (num10 a : ℚ) * 10 ^ b.length ≤ N := by exact_mod_cast h1
  have h2' : (N : ℚ) < ((num10 a + 1 : Nat) : ℚ) * 10 ^ b.length := by exact_mod_cast h2
  rw [hp, ← mul_assoc, ← mul_assoc]
  exact ⟨mul_le_mul_of_nonneg_right h1' (by positivity), mul_lt_mul_of_pos_right h2' (by positivity)⟩

/-- What the number that has been read says about the value of the literal. -/
def Approximates (n : Number) (x : ℚ) : Prop :=
  n.negative = false ∧ n.mantissa < 10 ^ 19 ∧
  (n.manyDigits = false → x = n.mantissa * 10 ^ n.exponent) ∧
  (n.manyDigits = true → n.mantissa * 10 ^ n.exponent ≤ x ∧ x < ((n.mantissa + 1 : Nat) : ℚ) * 10 ^ n.exponent)

theorem many_spec (l : Literal) {rest : Bytes} (h : l.Ends rest) (hbig : 10 ^ 19 ≤ num10 (vals l.digits)) :
    ∃ m e, many (chars (vals l.int) ++ tail l rest) (tail l rest) (satExp l) = some (m, e) ∧ m < 10 ^ 19 ∧
      (m : ℚ) * 10 ^ e ≤ readValue l ∧ readValue l < ((m + 1 : Nat) : ℚ) * 10 ^ e := by
  obtain ⟨a, b, h1, h2, h3, h4⟩ := tryParse19digits_spec (vals_lt l.int) (noDigit_tail l h) (x := 0) (by norm_num)
  simp only [Nat.zero_mul, Nat.zero_add] at h2 h3 h4
  have hdig : vals l.digits = vals l.int ++ vals (l.frac.getD []) := vals_append _ _
  unfold many
  rw [h4]
  simp only [Option.bind_eq_bind, Option.bind_some]
  by_cases hm : num10 a ≥ min19DigitInt
  · rw [if_pos hm]
    refine ⟨num10 a, _, rfl, h3, ?_⟩
    unfold readValue
    refine cut_value (b := b ++ vals (l.frac.getD [])) ?_ (by rw [hdig, h1, List.append_assoc]) _ _ ?_
    · intro d hd
      refine vals_lt l.digits d ?_
      rw [hdig, h1]; simp only [List.mem_append] at hd ⊢; tauto
    · simp only [List.length_append, chars_length, vals_length]; push_cast; ring
  · rw [if_neg hm]
    have hb : b = [] := h2.resolve_right (by unfold min19DigitInt at hm; omega)
    subst hb
    rw [List.append_nil] at h1
    cases hf : l.frac with
    | none =>
      exfalso
      rw [hdig, hf, h1] at hbig
      simp [vals] at hbig
      omega
    | some f =>
      obtain ⟨a', b', g1, g2, g3, g4⟩ := tryParse19digits_spec (vals_lt f) (noDigit_exp l h) (x := num10 a) h3
      have ht : chars [] ++ tail l rest = 0x2E#8 :: (chars (vals f) ++ ((l.exp.map Exponent.text).getD [] ++ rest)) := by
        simp [tail, hf, chars]
      rw [ht]
      simp only [g4, Option.bind_some]
      rw [← num10_append] at g3 ⊢
      refine ⟨_, _, rfl, g3, ?_⟩
      unfold readValue
      refine cut_value (b := b') ?_ (by rw [hdig, hf, Option.getD_some, h1, g1, List.append_assoc]) _ _ ?_
      · intro d hd
        exact vals_lt f d (by rw [g1]; simp [hd])
      · have hl : f.length = a'.length + b'.length := by rw [← vals_length, g1, List.length_append]
        rw [hf]
        simp only [Option.getD_some, List.length_append, chars_length, vals_length, hl]; push_cast; ring

/-- `parse_partial_number` reads a literal. -/
theorem parsePartialNumber_spec (l : Literal) {rest : Bytes} (h : l.Ends rest) :
    ∃ n, parsePartialNumber (l.text ++ rest) = some (some (n, l.text.length)) ∧ Approximates n (readValue l) := by
  have hlen : l.text.length = (l.text ++ rest).length - rest.length := by simp
  rw [hlen, text_eq]
  have hdig : vals l.digits = vals l.int ++ vals (l.frac.getD []) := vals_append _ _
  unfold parsePartialNumber
  rw [tryParseDigits_spec (vals_lt l.int) (noDigit_tail l h) (by norm_num)]
  simp only [Option.bind_eq_bind, Option.bind_some]
  rw [afterDot_spec l h (Nat.mod_lt _ (by norm_num))]
  simp only [Option.bind_some, Nat.zero_mul, Nat.zero_add]
  have hnd : (chars (vals l.int) ++ tail l rest).length - (tail l rest).length + (l.frac.getD []).length = l.digits.length := by
    simp [chars_length, vals_length, Literal.digits]
  rw [hnd, if_neg (by simpa [Literal.digits] using l.nonempty), scientific_spec l h]
  simp only
  have hm : (num10 (vals l.int) % 2 ^ 64 * 10 ^ (l.frac.getD []).length + num10 (vals (l.frac.getD []))) % 2 ^ 64 =
      num10 (vals l.digits) % 2 ^ 64 := by
    rw [wrap_one, hdig, num10_append, vals_length]
  rw [hm]
  have exact : num10 (vals l.digits) < 10 ^ 19 →
      Approximates ⟨-((l.frac.getD []).length : Int) + satExp l, num10 (vals l.digits) % 2 ^ 64, false, false⟩ (readValue l) := by
    intro hlt
    have hmod : num10 (vals l.digits) % 2 ^ 64 = num10 (vals l.digits) := Nat.mod_eq_of_lt (by omega)
    rw [hmod]
    refine ⟨rfl, hlt, fun _ => ?_, fun h => by simp at h⟩
    simp only [readValue]
    congr 2; ring
  split
  · rename_i h19
    refine ⟨_, rfl, exact ?_⟩
    have := num10_lt (vals_lt l.digits)
    rw [vals_length] at this
    exact lt_of_lt_of_le this (Nat.pow_le_pow_right (by norm_num) h19)
  · rename_i h19
    have hlz := leadingZeros_spec l rest ((l.digits.length - 19 : Nat) : Int) (by omega)
    split
    · rename_i hpos
      obtain ⟨m, e, h1, h2, h3⟩ := many_spec l h (hlz.2 hpos)
      rw [h1]
      exact ⟨_, rfl, rfl, h2, fun h => by simp at h, fun _ => h3⟩
    · rename_i hneg
      exact ⟨_, rfl, exact (hlz.1 (by omega))⟩

end Musli.Dec2Flt
