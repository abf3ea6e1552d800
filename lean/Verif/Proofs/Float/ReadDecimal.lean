import Verif.Proofs.Float.Number
import Verif.Proofs.Float.SlowPath
/-!
# Reading the digits for the slow path
-/
set_option linter.unusedSectionVars false
namespace Musli.Dec2Flt
open Musli.Spec.Float

/-- Digits without leading zeros. -/
theorem skipZeros_spec (z : Nat) {b : List Nat} {r : Bytes} (hb : b ≠ []) (hd : ∀ d ∈ b, d < 10) (h1 : 1 ≤ b.headD 0) :
    skipZeros (chars (List.replicate z 0 ++ b) ++ r) = chars b ++ r := by
  induction z with
  | zero =>
    cases b with
    | nil => exact absurd rfl hb
    | cons d b =>
      have key : ∀ d < 10, 1 ≤ d → BitVec.ofNat 8 (0x30 + d) ≠ 0x30#8 := by decide
      simp only [List.replicate_zero, List.nil_append, chars, List.map_cons, List.cons_append, skipZeros]
      rw [if_neg (key d (hd d (by simp)) h1)]
  | succ z ih =>
    simp only [List.replicate_succ, List.cons_append, chars, List.map_cons] at ih ⊢
    rw [skipZeros, if_pos (by rfl)]
    exact ih

theorem skipZeros_all {ds : List Nat} (h : ∀ d ∈ ds, d = 0) {r : Bytes} (hr : NoDigit r) :
    skipZeros (chars ds ++ r) = r := by
  induction ds with
  | nil =>
    cases r with
    | nil => rfl
    | cons c r =>
      have : c ≠ 0x30#8 := fun hc => hr c rfl (by rw [hc]; decide)
      simp [chars, skipZeros, this]
  | cons d ds ih =>
    have hd := h d (by simp)
    subst hd
    simp only [chars, List.map_cons, List.cons_append, skipZeros]
    rw [if_pos trivial]
    exact ih fun x hx => h x (by simp [hx])

/-- The state while digits are read. -/
def Holds (d : Decimal) (ds : List Nat) : Prop :=
  d.num = ds.length ∧ d.digits = ds.take 768 ∧ d.truncated = false

theorem holds_add {d : Decimal} {ds : List Nat} (h : Holds d ds) (x : Nat) :
    Holds (d.tryAddDigit x) (ds ++ [x]) ∧ (d.tryAddDigit x).dp = d.dp := by
  obtain ⟨h1, h2, h3⟩ := h
  refine ⟨⟨by simp [Decimal.tryAddDigit, h1], ?_, h3⟩, rfl⟩
  simp only [Decimal.tryAddDigit, h1, h2, maxDigits]
  split
  · rename_i hlt
    rw [List.take_of_length_le (by omega), List.take_of_length_le (by simp; omega)]
  · rename_i hge
    rw [List.take_append_of_le_length (by omega)]

theorem holds_foldl {d : Decimal} {ds : List Nat} (h : Holds d ds) (es : List Nat) :
    Holds (es.foldl Decimal.tryAddDigit d) (ds ++ es) ∧ (es.foldl Decimal.tryAddDigit d).dp = d.dp := by
  induction es generalizing d ds with
  | nil => exact ⟨by simpa using h, rfl⟩
  | cons e es ih =>
    obtain ⟨g1, g2⟩ := holds_add h e
    obtain ⟨i1, i2⟩ := ih g1
    rw [List.foldl_cons]
    exact ⟨by simpa using i1, by rw [i2, g2]⟩

theorem decimalBlocks_cases (s : Bytes) (d : Decimal) :
    (∃ c0 c1 c2 c3 c4 c5 c6 c7 t, s = c0 :: c1 :: c2 :: c3 :: c4 :: c5 :: c6 :: c7 :: t ∧ d.num + 8 < maxDigits ∧
      (∀ c ∈ [c0, c1, c2, c3, c4, c5, c6, c7], digitOf c < 10) ∧
      decimalBlocks s d = decimalBlocks t { d with
          num := d.num + 8
          digits := d.digits ++ [digitOf c0, digitOf c1, digitOf c2, digitOf c3, digitOf c4, digitOf c5, digitOf c6,
            digitOf c7] }) ∨ decimalBlocks s d = some (s, d) := by
  match s with
  | c0 :: c1 :: c2 :: c3 :: c4 :: c5 :: c6 :: c7 :: t =>
    rw [decimalBlocks]
    by_cases hn : d.num + 8 < maxDigits
    · by_cases h : is8digits (le [c0, c1, c2, c3, c4, c5, c6, c7]) = true
      · left
        have hc := (is8digits_iff ..).1 h
        refine ⟨c0, c1, c2, c3, c4, c5, c6, c7, t, rfl, hn, hc, ?_⟩
        simp only [List.mem_cons, List.not_mem_nil, or_false, forall_eq_or_imp, forall_eq] at hc
        obtain ⟨h0, h1, h2, h3, h4, h5, h6, h7⟩ := hc
        simp only [hn, if_true, h]
        have hch : [c0, c1, c2, c3, c4, c5, c6, c7] = chars [digitOf c0, digitOf c1, digitOf c2, digitOf c3, digitOf c4,
            digitOf c5, digitOf c6, digitOf c7] := by
          simp only [chars, List.map_cons, List.map_nil, char_digitOf, h0, h1, h2, h3, h4, h5, h6, h7]
        have hmod : ∀ x, x < 10 → x % 2 ^ 8 = x := fun x hx => Nat.mod_eq_of_lt (by omega)
        have hle : le [c0, c1, c2, c3, c4, c5, c6, c7] = 0x3030303030303030 + (digitOf c0 + 256 * (digitOf c1 + 256 *
            (digitOf c2 + 256 * (digitOf c3 + 256 * (digitOf c4 + 256 * (digitOf c5 + 256 * (digitOf c6 + 256 * digitOf c7))))))) := by
          rw [hch, le_chars _ (by
            simp only [List.mem_cons, List.not_mem_nil, or_false, forall_eq_or_imp, forall_eq]
            exact ⟨h0, h1, h2, h3, h4, h5, h6, h7⟩)]
          simp only [List.map_cons, List.map_nil, le, BitVec.toNat_ofNat, List.length_cons, List.length_nil, rep,
            hmod _ h0, hmod _ h1, hmod _ h2, hmod _ h3, hmod _ h4, hmod _ h5, hmod _ h6, hmod _ h7]
          exact sub_rep ..
        rw [hle, if_neg (by omega), Nat.add_sub_cancel_left]
        generalize digitOf c0 = d0 at *
        generalize digitOf c1 = d1 at *
        generalize digitOf c2 = d2 at *
        generalize digitOf c3 = d3 at *
        generalize digitOf c4 = d4 at *
        generalize digitOf c5 = d5 at *
        generalize digitOf c6 = d6 at *
        generalize digitOf c7 = d7 at *
        have e : ∀ x y : Nat, x < 10 → (x + 256 * y) % 256 = x ∧ (x + 256 * y) / 256 = y := by intro x y hx; omega
        have p16 : ∀ n : Nat, n >>> 16 = n / 256 / 256 := fun n => by rw [Nat.shiftRight_eq_div_pow, Nat.div_div_eq_div_mul]
        have p24 : ∀ n : Nat, n >>> 24 = n / 256 / 256 / 256 := fun n => by
          rw [Nat.shiftRight_eq_div_pow, Nat.div_div_eq_div_mul, Nat.div_div_eq_div_mul]
        have p32 : ∀ n : Nat, n >>> 32 = n / 256 / 256 / 256 / 256 := fun n => by
          rw [Nat.shiftRight_eq_div_pow]; iterate 3 rw [Nat.div_div_eq_div_mul]
        have p40 : ∀ n : Nat, n >>> 40 = n / 256 / 256 / 256 / 256 / 256 := fun n => by
          rw [Nat.shiftRight_eq_div_pow]; iterate 4 rw [Nat.div_div_eq_div_mul]
        have p48 : ∀ n : Nat, n >>> 48 = n / 256 / 256 / 256 / 256 / 256 / 256 := fun n => by
          rw [Nat.shiftRight_eq_div_pow]; iterate 5 rw [Nat.div_div_eq_div_mul]
        have p56 : ∀ n : Nat, n >>> 56 = n / 256 / 256 / 256 / 256 / 256 / 256 / 256 := fun n => by
          rw [Nat.shiftRight_eq_div_pow]; iterate 6 rw [Nat.div_div_eq_div_mul]
        have p8 : ∀ n : Nat, n >>> 8 = n / 256 := fun n => Nat.shiftRight_eq_div_pow n 8
        simp only [p8, p16, p24, p32, p40, p48, p56, e _ _ h0, e _ _ h1, e _ _ h2, e _ _ h3, e _ _ h4, e _ _ h5, e _ _ h6,
          Nat.mod_eq_of_lt (show d7 < 256 by omega)]
      · right; simp only [hn, if_true, h]; rfl
    · right; simp only [hn, if_false]
  | [] => right; rfl
  | [_] => right; rfl
  | [_, _] => right; rfl
  | [_, _, _] => right; rfl
  | [_, _, _, _] => right; rfl
  | [_, _, _, _, _] => right; rfl
  | [_, _, _, _, _, _] => right; rfl
  | [_, _, _, _, _, _, _] => right; rfl

theorem decimalBlocks_spec (s : Bytes) {d : Decimal} {ds : List Nat} (h : Holds d ds) :
    ∃ a t d', s = chars a ++ t ∧ (∀ x ∈ a, x < 10) ∧ decimalBlocks s d = some (t, d') ∧ Holds d' (ds ++ a) ∧ d'.dp = d.dp := by
  induction hn : s.length using Nat.strong_induction_on generalizing s d ds with
  | _ n ih =>
    rcases decimalBlocks_cases s d with ⟨c0, c1, c2, c3, c4, c5, c6, c7, t, rfl, hlt, hc, hb⟩ | hb
    · simp only [List.mem_cons, List.not_mem_nil, or_false, forall_eq_or_imp, forall_eq] at hc
      obtain ⟨h0, h1, h2, h3, h4, h5, h6, h7⟩ := hc
      have hch : [c0, c1, c2, c3, c4, c5, c6, c7] = chars [digitOf c0, digitOf c1, digitOf c2, digitOf c3, digitOf c4,
          digitOf c5, digitOf c6, digitOf c7] := by
        simp only [chars, List.map_cons, List.map_nil, char_digitOf, h0, h1, h2, h3, h4, h5, h6, h7]
      have hds : ∀ d ∈ [digitOf c0, digitOf c1, digitOf c2, digitOf c3, digitOf c4,
          digitOf c5, digitOf c6, digitOf c7], d < 10 := by
        simp only [List.mem_cons, List.not_mem_nil, or_false, forall_eq_or_imp, forall_eq]
        exact ⟨h0, h1, h2, h3, h4, h5, h6, h7⟩
      have hl : [digitOf c0, digitOf c1, digitOf c2, digitOf c3, digitOf c4,
          digitOf c5, digitOf c6, digitOf c7].length = 8 := rfl
      generalize [digitOf c0, digitOf c1, digitOf c2, digitOf c3, digitOf c4,
          digitOf c5, digitOf c6, digitOf c7] = a0 at hch hds hb hl
      obtain ⟨g1, g2, g3⟩ := h
      unfold maxDigits at hlt
      have hH : Holds { d with num := d.num + 8, digits := d.digits ++ a0 } (ds ++ a0) := by
        refine ⟨by simp [g1, hl], ?_, g3⟩
        simp only [g2]
        rw [List.take_of_length_le (by omega), List.take_of_length_le (by simp; omega)]
      obtain ⟨a, r, d', e1, e2, e3, e4, e5⟩ := ih t.length (by simp at hn; omega) t hH rfl
      refine ⟨a0 ++ a, r, d', ?_, ?_, by rw [hb, e3], by simpa using e4, e5⟩
      · rw [chars_append, ← hch, List.append_assoc, ← e1]; rfl
      · intro d hd
        rcases List.mem_append.1 hd with hd | hd
        · exact hds d hd
        · exact e2 d hd
    · exact ⟨[], s, d, by simp [chars], by simp, hb, by simpa using h, rfl⟩

/-- Reading the digits after the dot. -/
theorem fraction_digits {fs : List Nat} {v : Bytes} (hf : ∀ d ∈ fs, d < 10) (hv : NoDigit v) {d : Decimal} {ds : List Nat}
    (h : Holds d ds) : ∃ s1 d1, decimalBlocks (chars fs ++ v) d = some (s1, d1) ∧
      ∃ d2, parseDigits Decimal.tryAddDigit s1 d1 = (v, d2) ∧ Holds d2 (ds ++ fs) ∧ d2.dp = d.dp := by
  obtain ⟨a, t, d', h1, h2, h3, h4, h5⟩ := decimalBlocks_spec (chars fs ++ v) h
  obtain ⟨b, q, rfl, g2, g3⟩ := exists_digits t
  rw [← List.append_assoc, ← chars_append] at h1
  obtain ⟨rfl, rfl⟩ := digits_unique hf (fun d hd => (List.mem_append.1 hd).elim (h2 d) (g2 d)) hv g3 h1
  refine ⟨_, _, h3, _, parseDigits_spec _ g2 hv d', ?_⟩
  obtain ⟨i1, i2⟩ := holds_foldl h4 b
  exact ⟨by simpa using i1, by rw [i2, h5]⟩

/-- The digits of a list without the zeros in front. -/
def sig (ds : List Nat) : List Nat := Decimal.dropZeros ds

theorem sig_zeros {ds : List Nat} (h : ∀ d ∈ ds, d = 0) : sig ds = [] := by
  induction ds with
  | nil => rfl
  | cons d ds ih =>
    have := h d (by simp); subst this
    exact ih fun x hx => h x (by simp [hx])

theorem sig_append_zeros {a : List Nat} (h : ∀ d ∈ a, d = 0) (b : List Nat) : sig (a ++ b) = sig b := by
  induction a with
  | nil => rfl
  | cons d a ih =>
    have := h d (by simp); subst this
    exact ih fun x hx => h x (by simp [hx])

theorem sig_nonzero {b : List Nat} (hb : b ≠ []) (h1 : 1 ≤ b.headD 0) : sig b = b := by
  cases b with
  | nil => exact absurd rfl hb
  | cons d b =>
    cases d with
    | zero => simp at h1
    | succ d => rfl

/-- Skipping zeros and reading digits. -/
theorem read_sig {ds : List Nat} (hd : ∀ d ∈ ds, d < 10) {r : Bytes} (hr : NoDigit r) :
    ∃ b, skipZeros (chars ds ++ r) = chars b ++ r ∧ b = sig ds ∧ ∀ d ∈ b, d < 10 := by
  rcases split_zeros ds with h | ⟨z, b, rfl, h2, h3⟩
  · exact ⟨[], by rw [skipZeros_all h hr]; rfl, (sig_zeros h).symm, by simp⟩
  · have hb : ∀ d ∈ b, d < 10 := fun d h => hd d (by simp [h])
    refine ⟨b, skipZeros_spec z h2 hb h3, ?_, hb⟩
    rw [sig_append_zeros (fun d hd => List.eq_of_mem_replicate hd), sig_nonzero h2 h3]

theorem holds_default : Holds Decimal.default [] := ⟨rfl, rfl, rfl⟩

/-- The digits of the literal have been read. -/
theorem decimalFraction_spec (l : Literal) {rest : Bytes} (h : l.Ends rest) {d : Decimal}
    (hd : Holds d (sig (vals l.int))) (hdp : d.dp = 0) :
    ∃ d', decimalFraction (tail l rest) d = some ((l.exp.map Exponent.text).getD [] ++ rest, d') ∧
      Holds d' (sig (vals l.digits)) ∧ d'.dp = -((l.frac.getD []).length : Int) := by
  have hdig : vals l.digits = vals l.int ++ vals (l.frac.getD []) := vals_append _ _
  have hv := noDigit_exp l h
  cases hf : l.frac with
  | none =>
    have ht : tail l rest = (l.exp.map Exponent.text).getD [] ++ rest := by simp [tail, hf]
    refine ⟨d, ?_, ?_, by simpa using hdp⟩
    · rw [ht]
      cases hx : (l.exp.map Exponent.text).getD [] ++ rest with
      | nil => rfl
      | cons c t =>
        have hc : c ≠ 0x2E#8 := by
          cases he : l.exp with
          | none =>
            rw [he] at hx
            simp at hx
            exact (h c (by rw [hx]; rfl)).2.2 he hf
          | some e =>
            rw [he] at hx
            simp only [Option.map_some, Option.getD_some, Exponent.text, List.cons_append, List.cons.injEq] at hx
            rw [← hx.1]
            cases e.upper <;> decide
        simp [decimalFraction, hc]
    · rw [hdig, hf]; simpa [vals] using hd
  | some f =>
    have ht : tail l rest = 0x2E#8 :: (chars (vals f) ++ ((l.exp.map Exponent.text).getD [] ++ rest)) := by
      simp [tail, hf]
    have hs : ∃ b, (if d.num = 0 then skipZeros (chars (vals f) ++ ((l.exp.map Exponent.text).getD [] ++ rest))
        else chars (vals f) ++ ((l.exp.map Exponent.text).getD [] ++ rest)) =
          chars b ++ ((l.exp.map Exponent.text).getD [] ++ rest) ∧ (∀ d ∈ b, d < 10) ∧
        sig (vals l.int) ++ b = sig (vals l.digits) := by
      rw [hdig, hf, Option.getD_some]
      rcases split_zeros (vals l.int) with hi | ⟨z, b, h1, h2, h3⟩
      · rw [sig_append_zeros hi, sig_zeros hi]
        have : d.num = 0 := by rw [hd.1, sig_zeros hi]; rfl
        obtain ⟨b, g1, g2, g3⟩ := read_sig (vals_lt f) hv
        rw [if_pos this]
        exact ⟨b, g1, g3, g2⟩
      · have hz : ∀ d ∈ List.replicate z 0, d = 0 := fun d hd => List.eq_of_mem_replicate hd
        have hsig : sig (vals l.int) = b := by rw [h1, sig_append_zeros hz, sig_nonzero h2 h3]
        have hnum : d.num ≠ 0 := by
          rw [hd.1, hsig]; exact fun hh => h2 (List.length_eq_zero_iff.1 hh)
        rw [if_neg hnum]
        refine ⟨vals f, rfl, vals_lt f, ?_⟩
        rw [hsig, h1, List.append_assoc, sig_append_zeros hz, sig_nonzero (by simp [h2])]
        cases b with
        | nil => exact absurd rfl h2
        | cons x b => simpa using h3
    obtain ⟨b, hb1, hb2, hb3⟩ := hs
    obtain ⟨s1, d1, e1, d2, e2, e3, e4⟩ := fraction_digits hb2 hv hd
    refine ⟨{ d2 with dp := -((f.length : Nat) : Int) }, ?_, ?_, rfl⟩
    · rw [ht]
      simp only [decimalFraction, if_true]
      rw [hb1, e1]
      simp only [Option.bind_eq_bind, Option.bind_some, e2]
      have hlen : (((l.exp.map Exponent.text).getD [] ++ rest).length : Int) -
          (chars (vals f) ++ ((l.exp.map Exponent.text).getD [] ++ rest)).length = -((f.length : Nat) : Int) := by
        simp only [List.length_append, chars_length, vals_length]; push_cast; ring
      rw [hlen]
    · rw [hb3] at e3; exact e3

/-- The zeros at the end of the text are those at the end of the digits. -/
theorem trailingZeros_zeros (z : Nat) (s : Bytes) : trailingZeros (List.replicate z 0x30#8 ++ s) = z + trailingZeros s := by
  induction z with
  | zero => simp
  | succ z ih => simp only [List.replicate_succ, List.cons_append, trailingZeros, if_true, ih]; omega

theorem trailingZeros_stop {d : Nat} (hd : d < 10) (h1 : 1 ≤ d) (s : Bytes) :
    trailingZeros (BitVec.ofNat 8 (0x30 + d) :: s) = 0 := by
  have key : ∀ d < 10, 1 ≤ d → BitVec.ofNat 8 (0x30 + d) ≠ 0x30#8 ∧ BitVec.ofNat 8 (0x30 + d) ≠ 0x2E#8 := by decide
  simp [trailingZeros, key d hd h1]

theorem trailingZeros_digits {ds : List Nat} (hd : ∀ d ∈ ds, d < 10) (s : Bytes) :
    (∃ z a d, ds = a ++ [d] ++ List.replicate z 0 ∧ 1 ≤ d ∧ trailingZeros ((chars ds).reverse ++ s) = z) ∨
    ((∀ d ∈ ds, d = 0) ∧ trailingZeros ((chars ds).reverse ++ s) = ds.length + trailingZeros s) := by
  obtain ⟨z, h1, h2⟩ := trim_digits ds
  have hrep : ∀ z, chars (List.replicate z 0) = List.replicate z 0x30#8 := by intro z; simp [chars]
  rcases List.eq_nil_or_concat ((Decimal.dropZeros ds.reverse).reverse) with he | ⟨a, d, he⟩
  · right
    rw [he, List.nil_append] at h1
    have hl : ds.length = z := by rw [h1]; simp
    refine ⟨by rw [h1]; exact fun d hd => List.eq_of_mem_replicate hd, ?_⟩
    rw [h1, hrep, List.reverse_replicate, trailingZeros_zeros, List.length_replicate]
  · left
    rw [List.concat_eq_append] at he
    rw [he] at h1 h2
    have hd' : d < 10 := hd d (by rw [h1]; simp)
    have h1d : 1 ≤ d := by simp at h2; omega
    refine ⟨z, a, d, h1, h1d, ?_⟩
    rw [h1, chars_append, chars_append, List.reverse_append, List.reverse_append, hrep, List.reverse_replicate,
      List.append_assoc, trailingZeros_zeros]
    have : (chars [d]).reverse = [BitVec.ofNat 8 (0x30 + d)] := by simp [chars]
    rw [this, List.append_assoc, List.singleton_append, trailingZeros_stop hd' h1d]
    rfl

theorem trailingZeros_spec (l : Literal) (hnz : sig (vals l.digits) ≠ []) :
    ∃ z a d, vals l.digits = a ++ [d] ++ List.replicate z 0 ∧ 1 ≤ d ∧
      trailingZeros (chars (vals l.int) ++ (match l.frac with
        | none => []
        | some f => 0x2E#8 :: chars (vals f))).reverse = z := by
  have hdig : vals l.digits = vals l.int ++ vals (l.frac.getD []) := vals_append _ _
  cases hf : l.frac with
  | none =>
    rw [hf] at hdig
    simp only [Option.getD_none, vals, List.map_nil, List.append_nil] at hdig
    change vals l.digits = vals l.int at hdig
    rcases trailingZeros_digits (vals_lt l.int) [] with h | ⟨h, -⟩
    · simp only [List.append_nil] at h ⊢
      rw [hdig]; exact h
    · exact absurd (by rw [hdig, sig_zeros h]) hnz
  | some f =>
    rw [hf, Option.getD_some] at hdig
    simp only [List.reverse_append, List.reverse_cons]
    rcases trailingZeros_digits (vals_lt f) ([0x2E#8] ++ (chars (vals l.int)).reverse) with ⟨z, a, d, h1, h2, h3⟩ | ⟨h, h3⟩
    · refine ⟨z, vals l.int ++ a, d, ?_, h2, by simpa using h3⟩
      rw [hdig, h1]; simp
    · have hdot : trailingZeros ([0x2E#8] ++ (chars (vals l.int)).reverse) = trailingZeros (chars (vals l.int)).reverse := by
        simp [trailingZeros]
      rcases trailingZeros_digits (vals_lt l.int) [] with ⟨z, a, d, g1, g2, g3⟩ | ⟨g, -⟩
      · simp only [List.append_nil] at g3
        refine ⟨z + (vals f).length, a, d, ?_, g2, ?_⟩
        · rw [hdig, g1, List.append_assoc, List.append_assoc, List.append_assoc, List.replicate_add]
          congr 3
          exact List.eq_replicate_iff.2 ⟨rfl, h⟩
        · rw [List.append_assoc, h3, hdot, g3]; omega
      · refine absurd ?_ hnz
        rw [hdig, sig_append_zeros g, sig_zeros h]

theorem sig_spec (ds : List Nat) : ∃ z, ds = List.replicate z 0 ++ sig ds ∧ (sig ds ≠ [] → 1 ≤ (sig ds).headD 0) := by
  obtain ⟨z, h1, h2⟩ := dropZeros_spec ds
  refine ⟨z, h1, fun h => ?_⟩
  unfold sig at h ⊢
  cases hb : Decimal.dropZeros ds with
  | nil => exact absurd hb h
  | cons d b => rw [hb] at h2; simp at h2 ⊢; omega

theorem num10_sig (ds : List Nat) : num10 (sig ds) = num10 ds := by
  obtain ⟨z, h1, -⟩ := sig_spec ds
  conv_rhs => rw [h1, num10_append, num10_replicate_zero]
  omega

theorem num10_pos {ds : List Nat} (h : ∃ d ∈ ds, 1 ≤ d) : 0 < num10 ds := by
  induction ds with
  | nil => simp at h
  | cons d ds ih =>
    rw [num10]
    rcases h with ⟨x, hx, h1⟩
    rcases List.mem_cons.1 hx with rfl | hx
    · have : 0 < x * 10 ^ ds.length := Nat.mul_pos h1 (Nat.pos_of_ne_zero (by positivity))
      omega
    · have := ih ⟨x, hx, h1⟩; omega

theorem decimalExponent_spec (l : Literal) {rest : Bytes} (h : l.Ends rest) :
    decimalExponent ((l.exp.map Exponent.text).getD [] ++ rest) = satExp l := by
  have hr : NoDigit rest := fun c hc => fun hd => (h c hc).1 ((digit_iff c).1 hd)
  cases he : l.exp with
  | none =>
    simp only [Option.map_none, Option.getD_none, List.nil_append, satExp, he]
    cases rest with
    | nil => rfl
    | cons c rest =>
      have := (h c rfl).2.1 he
      simp [decimalExponent, this]
  | some e =>
    simp only [Option.map_some, Option.getD_some, satExp, he, Exponent.text]
    have hne : vals e.digits ≠ [] := by simpa [vals] using e.nonempty
    have hp := parseDigits_spec (fun (e : Int) (d : Nat) => if e < 0x10000 then 10 * e + (d : Int) else e)
      (vals_lt e.digits) hr 0
    have hn : ∀ d < 10, (BitVec.ofNat 8 (0x30 + d) == 0x2D#8) = false ∧ (BitVec.ofNat 8 (0x30 + d) == 0x2B#8) = false := by
      decide
    simp only [digitsText_eq, List.cons_append]
    have hE : ∀ t, decimalExponent ((if e.upper then 0x45#8 else 0x65#8) :: t) = decimalExponent (0x65#8 :: t) := by
      intro t; cases e.upper <;> simp [decimalExponent]
    rw [hE]
    cases hs : e.sign with
    | none =>
      cases hv : vals e.digits with
      | nil => exact absurd hv hne
      | cons d ds =>
        have hd : d < 10 := vals_lt e.digits d (by rw [hv]; simp)
        rw [hv] at hp
        simp only [chars, List.map_cons, List.cons_append] at hp ⊢
        simp [decimalExponent, (hn d hd).1, (hn d hd).2, hp, satNat]
    | some b =>
      cases b <;> simp [decimalExponent, hp, satNat]

theorem cut_aux (A B Q P : ℚ) (hP : 0 < P) (hB : 0 < B) (hBQ : B < Q) :
    A * (Q * P) < (A * Q + B) * P ∧ (A * Q + B) * P < A * (Q * P) + Q * P := by
  have h1 : 0 < B * P := mul_pos hB hP
  have h2 : B * P < Q * P := mul_lt_mul_of_pos_right hBQ hP
  constructor <;> nlinarith

/-- `parse_decimal` reads the number. -/
theorem parseDecimal_spec (l : Literal) {rest : Bytes} (h : l.Ends rest) :
    ∃ d, parseDecimal (l.text ++ rest) = some d ∧ Reads d (readValue l) := by
  rw [text_eq]
  obtain ⟨b, hb1, hb2, hb3⟩ := read_sig (vals_lt l.int) (noDigit_tail l h)
  unfold parseDecimal
  simp only [hb1, parseDigits_spec _ hb3 (noDigit_tail l h)]
  obtain ⟨g1, g2⟩ := holds_foldl holds_default b
  rw [List.nil_append, hb2] at g1
  rw [hb2] at g2 ⊢
  obtain ⟨d, e1, e2, e3⟩ := decimalFraction_spec l h g1 g2
  rw [e1]
  simp only [Option.bind_eq_bind, Option.bind_some, decimalExponent_spec l h]
  obtain ⟨f1, f2, f3⟩ := e2
  have hval : num10 (vals l.digits) = num10 (sig (vals l.digits)) := (num10_sig _).symm
  by_cases h0 : d.num = 0
  · rw [decimalTrim, if_neg (by simpa using h0)]
    refine ⟨_, rfl, .inl ⟨h0, ?_⟩⟩
    have : sig (vals l.digits) = [] := List.length_eq_zero_iff.1 (by rw [← f1]; exact h0)
    unfold readValue
    rw [hval, this]; simp [num10]
  have hne : sig (vals l.digits) ≠ [] := by
    intro hh; rw [hh] at f1; exact h0 f1
  obtain ⟨z, a, x, t1, t2, t3⟩ := trailingZeros_spec l hne
  obtain ⟨y, s1, s2⟩ := sig_spec (vals l.digits)
  have s2 := s2 hne
  have htake : (chars (vals l.int) ++ tail l rest).take ((chars (vals l.int) ++ tail l rest).length -
      ((l.exp.map Exponent.text).getD [] ++ rest).length) = chars (vals l.int) ++ (match l.frac with
        | none => []
        | some f => 0x2E#8 :: chars (vals f)) := by
    unfold tail
    rw [← List.append_assoc]
    apply List.take_left'
    simp only [List.length_append]; omega
  rw [decimalTrim, if_pos h0, htake, t3]
  -- the digits without the zeros at both ends
  obtain ⟨c, hc1, hc2⟩ : ∃ c, sig (vals l.digits) = c ++ [x] ++ List.replicate z 0 ∧ c.length + 1 + z = d.num := by
    have hx : sig (a ++ [x] ++ List.replicate z 0) = sig (a ++ [x]) ++ List.replicate z 0 ∧ ∃ c, sig (a ++ [x]) = c ++ [x] := by
      rcases split_zeros a with ha | ⟨w, b, w1, w2, w3⟩
      · rw [List.append_assoc, sig_append_zeros ha, sig_append_zeros ha,
          sig_nonzero (b := [x] ++ List.replicate z 0) (by simp) (by simpa using t2),
          sig_nonzero (b := [x]) (by simp) (by simpa using t2)]
        exact ⟨rfl, [], rfl⟩
      · have hw : ∀ d ∈ List.replicate w 0, d = 0 := fun d hd => List.eq_of_mem_replicate hd
        have hh : ∀ q : List Nat, 1 ≤ (b ++ q).headD 0 := by
          intro q; cases b with
          | nil => exact absurd rfl w2
          | cons d b => simpa using w3
        rw [w1]
        simp only [List.append_assoc]
        rw [sig_append_zeros hw, sig_append_zeros hw, sig_nonzero (by simp) (hh _), sig_nonzero (by simp) (hh _)]
        exact ⟨by simp, b, rfl⟩
    obtain ⟨hx1, c, hx2⟩ := hx
    refine ⟨c, by rw [t1, hx1, hx2], ?_⟩
    rw [f1, t1, hx1, hx2]; simp; omega
  rw [if_neg (by omega)]
  have hnum : d.num - z = c.length + 1 := by omega
  have hhead : 1 ≤ (c ++ [x]).headD 0 := by
    rw [hc1] at s2
    cases c with
    | nil => simpa using s2
    | cons q c => simpa using s2
  have hdg : ∀ d ∈ sig (vals l.digits), d < 10 := fun d hd => vals_lt l.digits d (by rw [s1]; simp [hd])
  have hdg' : ∀ d ∈ c ++ [x], d < 10 := fun d hd => hdg d (by rw [hc1]; exact List.mem_append_left _ hd)
  rw [hnum]
  have hN : num10 (vals l.digits) = num10 (c ++ [x]) * 10 ^ z := by
    rw [hval, hc1, num10_append, num10_replicate_zero, List.length_replicate]; omega
  have hx0 : readValue l = num10 (c ++ [x]) * 10 ^ (satExp l + z - ((l.frac.getD []).length : Int)) := by
    unfold readValue
    rw [hN]; push_cast
    rw [mul_assoc, ← zpow_natCast (10 : ℚ) z, ← zpow_add₀ (by norm_num)]
    congr 2; ring
  dsimp only
  split
  · -- too many digits
    rename_i hmax
    unfold maxDigits at hmax
    refine ⟨_, rfl, .inr ⟨?_, by simp, ?_⟩⟩
    · have hl : (sig (vals l.digits)).length = d.num := f1.symm
      refine ⟨?_, ?_, ?_, ?_, ?_⟩
      · simp only [f2, maxDigits, List.length_take]; omega
      · simp [maxDigits]
      · intro q hq
        simp only [f2] at hq
        exact hdg q (List.mem_of_mem_take hq)
      · simp only [f2]
        intro hh
        have := congrArg List.length hh
        simp only [List.length_take, List.length_nil] at this; omega
      · simp only [f2, hc1]
        cases c with
        | nil => simp at hmax
        | cons q c => simpa using hhead
    · intro _
      have hl : 768 ≤ c.length := by omega
      have htk : (sig (vals l.digits)).take 768 = c.take 768 := by
        rw [hc1, List.append_assoc, List.take_append_of_le_length hl]
      simp only [Decimal.val, f2, htk, maxDigits]
      have hsplit : c ++ [x] = c.take 768 ++ (c.drop 768 ++ [x]) := by
        rw [← List.append_assoc, List.take_append_drop]
      have hlen : (c.drop 768 ++ [x]).length = c.length + 1 - 768 := by simp; omega
      have hlt : num10 (c.drop 768 ++ [x]) < 10 ^ (c.length + 1 - 768) := by
        rw [← hlen]; exact num10_lt fun q hq => hdg' q (by rw [hsplit]; exact List.mem_append_right _ hq)
      have hpos : 0 < num10 (c.drop 768 ++ [x]) := num10_pos ⟨x, by simp, t2⟩
      have hnn : num10 (c ++ [x]) = num10 (c.take 768) * 10 ^ (c.length + 1 - 768) + num10 (c.drop 768 ++ [x]) := by
        rw [hsplit, num10_append, hlen]
      have hexp : (d.dp + (z : Int) + ((c.length + 1 : Nat) : Int) + satExp l - ((768 : Nat) : Int)) =
          ((c.length + 1 - 768 : Nat) : Int) + (satExp l + z - ((l.frac.getD []).length : Int)) := by
        rw [e3]; omega
      have hexp' : (d.dp + (z : Int) + ((c.length + 1 : Nat) : Int) + satExp l - 768) =
          ((c.length + 1 - 768 : Nat) : Int) + (satExp l + z - ((l.frac.getD []).length : Int)) := by
        rw [e3]; omega
      rw [hx0, hexp, hexp', zpow_add₀ (by norm_num), zpow_natCast, hnn]
      have hP : (0 : ℚ) < 10 ^ (satExp l + z - ((l.frac.getD []).length : Int)) := by positivity
      generalize (10 : ℚ) ^ (satExp l + z - ((l.frac.getD []).length : Int)) = P at hP ⊢
      have hlt' : (num10 (c.drop 768 ++ [x]) : ℚ) < 10 ^ (c.length + 1 - 768) := by exact_mod_cast hlt
      have hpos' : (0 : ℚ) < num10 (c.drop 768 ++ [x]) := by exact_mod_cast hpos
      rw [Nat.cast_add, Nat.cast_mul, Nat.cast_pow, Nat.cast_ofNat]
      exact cut_aux _ _ _ _ hP hpos' hlt'
  · rename_i hmax
    unfold maxDigits at hmax
    have htk : ((sig (vals l.digits)).take 768).take (c.length + 1) = c ++ [x] := by
      rw [List.take_take, Nat.min_eq_left (by omega), hc1, List.take_left' (by simp)]
    refine ⟨_, rfl, .inr ⟨⟨?_, ?_, ?_, ?_, ?_⟩, fun _ => ?_, fun ht => ?_⟩⟩
    · simp only [f2, htk]; simp
    · simp only; omega
    · simp only [f2, htk]; exact hdg'
    · simp only [f2, htk]; simp
    · simp only [f2, htk]; exact hhead
    · simp only [Decimal.val, f2, htk]
      rw [hx0]
      congr 2
      rw [e3]; push_cast; ring
    · simp [f3] at ht

end Musli.Dec2Flt
