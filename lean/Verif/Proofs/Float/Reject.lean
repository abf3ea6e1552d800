import Verif.Proofs.Float.Number
/-!
# What is not a number
-/
set_option linter.unusedSectionVars false
namespace Musli.Dec2Flt
open Musli.Spec.Float

theorem parseScientific_cases (t : Bytes) : parseScientific t = none ∨
    ∃ (sign : Option Bool) (ds : List (Fin 10)) (rest : Bytes), ds ≠ [] ∧ NoDigit rest ∧
      t = (match sign with
        | none => digitsText ds
        | some true => 0x2D#8 :: digitsText ds
        | some false => 0x2B#8 :: digitsText ds) ++ rest := by
  -- digits
  have key : ∀ u : Bytes, (∃ c v, u = c :: v ∧ digitOf c < 10) → ∃ (ds : List (Fin 10)) (rest : Bytes), ds ≠ [] ∧
      NoDigit rest ∧ u = digitsText ds ++ rest := by
    rintro u ⟨c, v, rfl, hc⟩
    obtain ⟨ds, r, h1, h2, h3⟩ := exists_digits (c :: v)
    obtain ⟨a, rfl⟩ := exists_vals h2
    refine ⟨a, r, ?_, h3, by rw [digitsText_eq, ← h1]⟩
    rintro rfl
    simp [vals, chars] at h1
    exact h3 c (by rw [← h1]; rfl) hc
  by_cases hn : parseScientific t = none
  · exact .inl hn
  right
  cases t with
  | nil => exact absurd rfl hn
  | cons c u =>
    by_cases h1 : c = 0x2D#8
    · subst h1
      cases u with
      | nil => exact absurd rfl hn
      | cons d v =>
        by_cases hd : digitOf d < 10
        · obtain ⟨ds, rest, g1, g2, g3⟩ := key (d :: v) ⟨d, v, rfl, hd⟩
          exact ⟨some true, ds, rest, g1, g2, by rw [g3]; rfl⟩
        · exact absurd (by simp [parseScientific, hd]) hn
    · by_cases h2 : c = 0x2B#8
      · subst h2
        cases u with
        | nil => exact absurd rfl hn
        | cons d v =>
          by_cases hd : digitOf d < 10
          · obtain ⟨ds, rest, g1, g2, g3⟩ := key (d :: v) ⟨d, v, rfl, hd⟩
            exact ⟨some false, ds, rest, g1, g2, by rw [g3]; rfl⟩
          · exact absurd (by simp [parseScientific, hd]) hn
      · by_cases hd : digitOf c < 10
        · obtain ⟨ds, rest, g1, g2, g3⟩ := key (c :: u) ⟨c, u, rfl, hd⟩
          exact ⟨none, ds, rest, g1, g2, g3⟩
        · exact absurd (by simp [parseScientific, hd, h1, h2]) hn

theorem scientific_cases {v : Bytes} (hv : NoDigit v) : scientific v = none ∨
    ∃ (e : Option Exponent) (rest : Bytes), v = (e.map Exponent.text).getD [] ++ rest ∧ NoDigit rest ∧
      (e = none → ∀ c, rest.head? = some c → c ≠ 0x65#8 ∧ c ≠ 0x45#8) := by
  cases v with
  | nil => exact .inr ⟨none, [], rfl, by simp [NoDigit], by simp⟩
  | cons c t =>
    by_cases hc : c = 0x65#8 ∨ c = 0x45#8
    · rcases parseScientific_cases t with h | ⟨sign, ds, rest, h1, h2, h3⟩
      · left; rcases hc with rfl | rfl <;> simp [scientific, h]
      · right
        refine ⟨some ⟨c == 0x45#8, sign, ds, h1⟩, rest, ?_, h2, by simp⟩
        simp only [Option.map_some, Option.getD_some, Exponent.text, List.cons_append, h3]
        congr 1
        rcases hc with rfl | rfl <;> rfl
    · right
      refine ⟨none, c :: t, rfl, hv, ?_⟩
      intro _ c' hc'
      simp at hc'; subst hc'
      exact not_or.1 hc

/-- The text of the dot and the digits after it. -/
def fracText (f : Option (List (Fin 10))) : Bytes :=
  match f with
  | none => []
  | some f => 0x2E#8 :: chars (vals f)

/-- A text begins with a literal or is rejected. -/
theorem parsePartialNumber_cases (s : Bytes) : parsePartialNumber s = some none ∨
    ∃ (l : Literal) (rest : Bytes), s = l.text ++ rest ∧ l.Ends rest := by
  obtain ⟨ds, t, rfl, h2, h3⟩ := exists_digits s
  obtain ⟨i, rfl⟩ := exists_vals h2
  -- the fraction
  have hfrac : ∃ (f : Option (List (Fin 10))) (v : Bytes), NoDigit v ∧
      t = fracText f ++ v ∧
      (f = none → ∀ c, v.head? = some c → c ≠ 0x2E#8) ∧
      ∀ m, ∃ m', afterDot t m = some (v, m', (f.getD []).length) ∨ 2 ^ 64 ≤ m := by
    cases t with
    | nil => exact ⟨none, [], h3, rfl, by simp, fun m => ⟨m, .inl rfl⟩⟩
    | cons c u =>
      by_cases hc : c = 0x2E#8
      · subst hc
        obtain ⟨fs, v, rfl, g2, g3⟩ := exists_digits u
        obtain ⟨f, rfl⟩ := exists_vals g2
        refine ⟨some f, v, g3, rfl, by simp, fun m => ?_⟩
        by_cases hm : m < 2 ^ 64
        · refine ⟨(m * 10 ^ (vals f).length + num10 (vals f)) % 2 ^ 64, .inl ?_⟩
          rw [afterDot, tryParseDigits_spec g2 g3 hm]
          simp only [beq_self_eq_true, if_true, Option.bind_eq_bind, Option.bind_some, Option.getD_some]
          simp [chars_length, vals_length]
        · exact ⟨0, .inr (by omega)⟩
      · exact ⟨none, c :: u, h3, rfl, fun _ c' h => by simp at h; exact h ▸ hc, fun m => ⟨m, .inl (by simp [afterDot, hc])⟩⟩
  obtain ⟨f, v, hv, rfl, hdot, had⟩ := hfrac
  obtain ⟨m', had⟩ := had ((0 * 10 ^ (vals i).length + num10 (vals i)) % 2 ^ 64)
  replace had := had.resolve_right (by have := Nat.mod_lt (0 * 10 ^ (vals i).length + num10 (vals i)) (show 0 < 2 ^ 64 by norm_num); omega)
  have hp : parsePartialNumber (chars (vals i) ++ (fracText f ++ v)) =
      some none ∨ ((i ++ f.getD []) ≠ [] ∧ scientific v ≠ none) := by
    by_cases hz : i ++ f.getD [] ≠ [] ∧ scientific v ≠ none
    · exact .inr hz
    · left
      unfold parsePartialNumber
      rw [tryParseDigits_spec (vals_lt i) h3 (by norm_num)]
      simp only [Option.bind_eq_bind, Option.bind_some]
      rw [had]
      simp only [Option.bind_some]
      split
      · rfl
      · rename_i hnz
        have hne : i ++ f.getD [] ≠ [] := by
          intro h0
          apply hnz
          have := congrArg List.length h0
          simp only [List.length_append, List.length_nil] at this
          simp only [List.length_append, chars_length, vals_length]
          omega
        have : scientific v = none := by by_contra hc; exact hz ⟨hne, hc⟩
        rw [this]
  rcases hp with hp | ⟨hne, hsci⟩
  · exact .inl hp
  right
  rcases scientific_cases hv with hn | ⟨e, rest, rfl, g2, g3⟩
  · exact absurd hn hsci
  refine ⟨⟨i, f, e, hne⟩, rest, ?_, ?_⟩
  · rw [text_eq]; rfl
  · intro c hc
    refine ⟨fun hd => g2 c hc ((digit_iff c).2 hd), fun he => g3 he c hc, fun he hf => ?_⟩
    simp only at he hf
    subst he
    exact hdot hf c hc

theorem clear_low : ∀ c : Byte, ∀ u : Nat, (u = 0x49 ∨ u = 0x4E ∨ u = 0x46 ∨ u = 0x54 ∨ u = 0x59 ∨ u = 0x41) →
    (c.toNat &&& 0xDF = u ↔ (if 0x61 ≤ c.toNat ∧ c.toNat ≤ 0x7A then c.toNat - 0x20 else c.toNat) = u) := by
  have : ∀ u ∈ [0x49, 0x4E, 0x46, 0x54, 0x59, 0x41], ∀ c : Byte,
    (c.toNat &&& 0xDF = u ↔ (if 0x61 ≤ c.toNat ∧ c.toNat ≤ 0x7A then c.toNat - 0x20 else c.toNat) = u) := by
    decide +kernel
  intro c u hu
  exact this u (by simpa using hu) c

/-- The bytes of a text, each without the bit that makes a letter small. -/
def upper : Bytes → Nat
  | [] => 0
  | c :: s => (c.toNat &&& 0xDF) + 256 * upper s

theorem le_and (s : Bytes) : le s &&& rep 0xDF s.length = upper s := by
  induction s with
  | nil => simp [le, rep, upper]
  | cons c s ih =>
    simp only [le, List.length_cons, rep, upper]
    rw [byte_and (by have := c.isLt; omega) (by norm_num), ih]

theorem upper_eq {s : Bytes} {w : List Nat} (hl : s.length = w.length)
    (hw : ∀ u ∈ w, (u = 0x49 ∨ u = 0x4E ∨ u = 0x46 ∨ u = 0x54 ∨ u = 0x59 ∨ u = 0x41)) :
    upper s = w.foldr (fun u n => u + 256 * n) 0 ↔ sameLetters s w := by
  induction s generalizing w with
  | nil =>
    cases w with
    | nil => simp [upper, sameLetters]
    | cons u w => simp at hl
  | cons c s ih =>
    cases w with
    | nil => simp at hl
    | cons u w =>
      have hu := hw u (by simp)
      have ih := ih (w := w) (by simpa using hl) (fun x hx => hw x (by simp [hx]))
      have hc : c.toNat &&& 0xDF < 2 ^ 8 := Nat.and_lt_two_pow _ (n := 8) (by norm_num)
      have hcl := clear_low c u hu
      simp only [sameLetters, List.map_cons, List.cons.injEq, upper, List.foldr_cons] at ih ⊢
      rw [← hcl, ← ih]
      have : u < 256 := by omega
      omega

theorem le_pad (s : Bytes) : ∀ k, le s &&& rep 0xDF (s.length + k) = upper s := by
  intro k
  induction s with
  | nil => simp [le, upper]
  | cons c s ih =>
    simp only [le, List.length_cons, upper, Nat.add_right_comm _ 1 k, rep]
    rw [byte_and (by have := c.isLt; omega) (by norm_num), ih]

/-- `parse_inf_nan` accepts exactly the words. -/
theorem parseInfNan_spec (s : Bytes) :
    (isInf s → parseInfNan s = some (.inf, s.length)) ∧ (isNan s → parseInfNan s = some (.nan, s.length)) ∧
    (¬ isInf s → ¬ isNan s → parseInfNan s = none) := by
  have hlen : ∀ w, sameLetters s w → s.length = w.length := by
    intro w h
    have := congrArg List.length h
    simpa using this
  have e8 : ((0xDFDFDFDFDFDFDFDF : Nat)) = rep 0xDF 8 := by rfl
  by_cases h8 : s.length = 8
  · have hreg : le s &&& 0xDFDFDFDFDFDFDFDF = upper s := by rw [e8, ← h8]; exact le_and s
    have hw := upper_eq (s := s) (w := [0x49, 0x4E, 0x46, 0x49, 0x4E, 0x49, 0x54, 0x59]) h8 (by simp)
    simp only [List.foldr_cons, List.foldr_nil] at hw
    norm_num at hw
    have h3 : ∀ a b c, ¬ sameLetters s [a, b, c] := fun a b c h => by have := hlen _ h; simp at this; omega
    simp only [parseInfNan, h8, if_true, hreg, isInf, isNan, h3, false_or, not_false_eq_true]
    norm_num
    by_cases hi : sameLetters s [0x49, 0x4E, 0x46, 0x49, 0x4E, 0x49, 0x54, 0x59]
    · simp [hi, hw.2 hi]
    · have : ¬ upper s = 6436850368004902473 := fun h => hi (hw.1 h)
      simp [hi, this]
  · by_cases h3 : s.length = 3
    · obtain ⟨a, b, c, rfl⟩ : ∃ a b c, s = [a, b, c] := by
        match s, h3 with
        | [a, b, c], _ => exact ⟨a, b, c, rfl⟩
      have hreg : (c.toNat <<< 16 ||| b.toNat <<< 8 ||| a.toNat) = le [a, b, c] := by
        have ha := a.isLt
        have hb := b.isLt
        have hc := c.isLt
        rw [Nat.or_assoc, ← Nat.shiftLeft_add_eq_or_of_lt (b := a.toNat) (i := 8) ha,
          ← Nat.shiftLeft_add_eq_or_of_lt (i := 16) (by rw [Nat.shiftLeft_eq]; omega)]
        simp only [le, Nat.shiftLeft_eq]
        ring
      have hreg' : le [a, b, c] &&& 0xDFDFDFDFDFDFDFDF = upper [a, b, c] := by rw [e8]; exact le_pad [a, b, c] 5
      have hw1 := upper_eq (s := [a, b, c]) (w := [0x49, 0x4E, 0x46]) rfl (by simp)
      have hw2 := upper_eq (s := [a, b, c]) (w := [0x4E, 0x41, 0x4E]) rfl (by simp)
      simp only [List.foldr_cons, List.foldr_nil] at hw1 hw2
      norm_num at hw1 hw2
      have h8' : ¬ sameLetters [a, b, c] [0x49, 0x4E, 0x46, 0x49, 0x4E, 0x49, 0x54, 0x59] := fun h => by
        have := hlen _ h; simp at this
      simp only [parseInfNan, isInf, isNan, h8', or_false]
      rw [if_neg (by simp), hreg, hreg']
      refine ⟨fun hi => ?_, fun hn => ?_, fun hi hn => ?_⟩
      · rw [← hw1] at hi; simp [hi]
      · rw [← hw2] at hn; simp [hn]
      · rw [← hw1] at hi; rw [← hw2] at hn; simp [hi, hn]
    · have hno : parseInfNan s = none := by
        unfold parseInfNan
        rw [if_neg h8]
        match s, h3 with
        | [], _ => rfl
        | [_], _ => rfl
        | [_, _], _ => rfl
        | _ :: _ :: _ :: _ :: _, _ => rfl
      refine ⟨fun hi => ?_, fun hn => ?_, fun _ _ => hno⟩
      · rcases hi with h | h
        · exact absurd (hlen _ h) h3
        · exact absurd (hlen _ h) h8
      · exact absurd (hlen _ hn) h3

end Musli.Dec2Flt
