import Verif.Props.Float
import Verif.Model.Json.FloatFixed
/-!
# Floats in JSON with a correction

The code does not skip whitespace before a float (`C86_violated`). If it did, then C86 would hold.
-/
set_option linter.unusedSectionVars false
namespace Musli.Dec2Flt
open Musli.Spec.Float Musli.Json

theorem dropWs_append (ws s : Bytes) (h : ∀ c ∈ ws, isWs c = true) : dropWs (ws ++ s) = dropWs s := by
  induction ws with
  | nil => rfl
  | cons c ws ih =>
    rw [List.cons_append, dropWs, if_pos (h c (.head _)), ih fun d hd => h d (.tail _ hd)]

theorem dropWs_accepted {s : Bytes} (h : Accepted s) : dropWs s = s := by
  cases s with
  | nil => rfl
  | cons c s =>
    cases hc : isWs c with
    | true => exact absurd h (not_accepted_ws hc s)
    | false => rw [dropWs, hc]; rfl

theorem parseFloatC_eq (R : RawFloat) (s : Bytes) : parseFloatC R s = parseFloat R (dropWs s) := rfl

/-- **C86**, the full statement, with the correction: a number in the position of a float is decoded as the nearest float, exactly
the number is consumed, and whitespace in front of it is insignificant. (For absurd literals see `C83_violated`.) -/
theorem C86_corrected (ws : Bytes) (hws : ∀ c ∈ ws, isWs c = true) (l : Signed) (rest : Bytes) (h : l.lit.Ends rest)
    (he : l.lit.exponent.natAbs < 655360 ∨ l.lit.digits.length ≤ 65000) :
    (∃ b, f64.Nearest l.lit.value b ∧ parseFloatC rawF64 (ws ++ (l.text ++ rest)) = .ok (signed f64 l.sign b, rest)) ∧
    (∃ b, f32.Nearest l.lit.value b ∧ parseFloatC rawF32 (ws ++ (l.text ++ rest)) = .ok (signed f32 l.sign b, rest)) := by
  have ha : Accepted (l.text ++ rest) := .inl ⟨l, rest, rfl, h⟩
  rw [parseFloatC_eq, parseFloatC_eq, dropWs_append ws _ hws, dropWs_accepted ha]
  exact C86_json_float_partial l rest h he

/-- **C86**, with the correction: so is a field of an object, with whitespace on both sides of the colon, such as `{"a": 1.5}`. -/
theorem C86_corrected_field (ws ws' : Bytes) (hws : ∀ c ∈ ws, isWs c = true) (hws' : ∀ c ∈ ws', isWs c = true) (l : Signed)
    (rest : Bytes) (h : l.lit.Ends rest) (he : l.lit.exponent.natAbs < 655360 ∨ l.lit.digits.length ≤ 65000) :
    ∃ b, f64.Nearest l.lit.value b ∧
      entryValue (parseFloatC rawF64) (ws ++ 0x3A#8 :: (ws' ++ (l.text ++ rest))) = .ok (signed f64 l.sign b, rest) := by
  obtain ⟨b, h1, h2⟩ := (C86_corrected ws' hws' l rest h he).1
  refine ⟨b, h1, ?_⟩
  have hcolon : ∀ s : Bytes, dropWs (0x3A#8 :: s) = 0x3A#8 :: s := fun s => rfl
  have hx : ∀ s : Bytes, expect .colon (ws ++ 0x3A#8 :: s) = .ok ((), s) := by
    intro s
    simp only [expect, lex, dropWs_append ws _ hws, hcolon, bind, P.bind]
    rfl
  rw [entryValue, P.bind_ok (hx _)]
  exact h2

/-- With the correction, whatever the code reads is read as before. -/
theorem C86_corrected_extends (s s' : Bytes) (v : Nat) :
    (parseFloat rawF64 s = .ok (v, s') → parseFloatC rawF64 s = .ok (v, s')) ∧
    (parseFloat rawF32 s = .ok (v, s') → parseFloatC rawF32 s = .ok (v, s')) := by
  have key : ∀ {R : RawFloat}, LawfulAll R → parseFloat R s = .ok (v, s') → parseFloatC R s = .ok (v, s') := by
    intro R L h
    have ha : Accepted s := by
      rcases accepted_cases L s with ⟨ha, -⟩ | ⟨-, h2⟩
      · exact ha
      · simp [parseFloat, h2] at h
    rw [parseFloatC_eq, dropWs_accepted ha, h]
  exact ⟨key lawfulAll64, key lawfulAll32⟩

/-- With the correction, exactly the texts are accepted that are whitespace followed by a float (C84). -/
theorem C86_corrected_accepted (s : Bytes) :
    (∃ r, parseFloatC rawF64 s = .ok r) ↔ ∃ ws t, s = ws ++ t ∧ (∀ c ∈ ws, isWs c = true) ∧ Accepted t := by
  have split : ∀ s : Bytes, ∃ ws, s = ws ++ dropWs s ∧ ∀ c ∈ ws, isWs c = true := by
    intro s
    induction s with
    | nil => exact ⟨[], rfl, by simp⟩
    | cons c s ih =>
      cases hc : isWs c with
      | true =>
        obtain ⟨ws, h1, h2⟩ := ih
        refine ⟨c :: ws, ?_, ?_⟩
        · rw [dropWs, if_pos hc, List.cons_append, ← h1]
        · intro d hd
          rcases List.mem_cons.1 hd with rfl | hd
          · exact hc
          · exact h2 d hd
      | false => exact ⟨[], by rw [dropWs, hc]; rfl, by simp⟩
  constructor
  · rintro ⟨r, hr⟩
    obtain ⟨ws, h1, h2⟩ := split s
    refine ⟨ws, dropWs s, h1, h2, ?_⟩
    rcases accepted_cases lawfulAll64 (dropWs s) with ⟨ha, -⟩ | ⟨-, h3⟩
    · exact ha
    · rw [parseFloatC_eq] at hr
      simp [parseFloat, h3] at hr
  · rintro ⟨ws, t, rfl, hws, ha⟩
    rw [parseFloatC_eq, dropWs_append ws t hws, dropWs_accepted ha]
    rcases accepted_cases lawfulAll64 t with ⟨-, ⟨v, n⟩, h⟩ | ⟨hn, -⟩
    · exact ⟨(v, t.drop n), by simp [parseFloat, h]⟩
    · exact absurd ha hn

/-! ## Examples -/

/-- `: 1.5}`. -/
example : entryValue (parseFloatC rawF64) [0x3A#8, 0x20#8, 0x31#8, 0x2E#8, 0x35#8, 0x7D#8] = .ok (0x3FF8000000000000, [0x7D#8]) := by
  decide +kernel
example : entryValue (parseFloat rawF64) [0x3A#8, 0x20#8, 0x31#8, 0x2E#8, 0x35#8, 0x7D#8] =
    .error (.invalid, [0x20#8, 0x31#8, 0x2E#8, 0x35#8, 0x7D#8]) := by
  decide +kernel

end Musli.Dec2Flt
