import Verif.Props.Float
import Verif.Model.Json.Codec
import Verif.Spec.Json.Loose
/-!
# Floats in JSON: what is read
-/
set_option linter.unusedSectionVars false
namespace Musli.Json
open Musli Musli.Dec2Flt Musli.Spec.Float

theorem digitsText_ascii (ds : List (Fin 10)) : ∀ b ∈ digitsText ds, b.toNat < 128 := by
  intro b hb
  obtain ⟨d, -, rfl⟩ := List.mem_map.1 hb
  have := d.isLt
  simp only [BitVec.toNat_ofNat]
  omega

theorem exponentText_ascii (e : Musli.Spec.Float.Exponent) : ∀ b ∈ e.text, b.toNat < 128 := by
  intro b hb
  rw [Musli.Spec.Float.Exponent.text] at hb
  rcases List.mem_cons.1 hb with rfl | hb
  · split <;> decide
  · split at hb
    · exact digitsText_ascii _ b hb
    · rcases List.mem_cons.1 hb with rfl | hb
      · decide
      · exact digitsText_ascii _ b hb
    · rcases List.mem_cons.1 hb with rfl | hb
      · decide
      · exact digitsText_ascii _ b hb

theorem signText_ascii (sign : Option Bool) : ∀ b ∈ Signed.signText sign, b.toNat < 128 := by
  cases sign with
  | none => intro b hb; cases hb
  | some b => cases b <;> (intro b hb; simp [Signed.signText] at hb; subst hb; decide)

theorem literalText_ascii (l : Literal) : ∀ b ∈ l.text, b.toNat < 128 := by
  intro b hb
  rw [Literal.text] at hb
  rcases List.mem_append.1 hb with hb | hb
  · rcases List.mem_append.1 hb with hb | hb
    · exact digitsText_ascii _ b hb
    · split at hb
      · cases hb
      · rcases List.mem_cons.1 hb with rfl | hb
        · decide
        · exact digitsText_ascii _ b hb
  · cases he : l.exp with
    | none => rw [he] at hb; cases hb
    | some e => rw [he] at hb; exact exponentText_ascii e b hb

theorem word_ascii {w : Bytes} (h : isInf w ∨ isNan w) : ∀ b ∈ w, b.toNat < 128 := by
  intro b hb
  have key : ∀ word : List Nat, (∀ n ∈ word, n < 128 - 0x20) → sameLetters w word → b.toNat < 128 := by
    intro word hw he
    have hm : (if 0x61 ≤ b.toNat ∧ b.toNat ≤ 0x7A then b.toNat - 0x20 else b.toNat) ∈ word := by
      rw [← he]
      exact List.mem_map.2 ⟨b, hb, rfl⟩
    have := hw _ hm
    split at this <;> omega
  rcases h with (h | h) | h
  · exact key _ (by decide) h
  · exact key _ (by decide) h
  · exact key _ (by decide) h

/-- What is read, in front of the rest: a literal or a word. -/
theorem parseFloat_inv {R : RawFloat} (L : LawfulAll R) (hF : R.fmt.inf < R.fmt.sign) (hN : R.fmt.nan < R.fmt.sign)
    (hn : R.neg R.fmt.nan = R.fmt.sign + R.fmt.nan) {s r : Bytes} {v : Nat} (h : parseFloat R s = .ok (v, r)) :
    ∃ x, Spec.LFloat R.fmt v x ∧ s = x ++ r ∧ (∀ b ∈ x, b.toNat < 128) ∧ x ≠ [] ∧ v < 2 * R.fmt.sign := by
  unfold parseFloat at h
  rcases accepted_cases L s with ⟨ha, -⟩ | ⟨-, h2⟩
  · rcases ha with ⟨l, rest, rfl, hl⟩ | ⟨sign, w, rfl, hw⟩
    · obtain ⟨b, h1, h2⟩ := dec2flt_read L l hl
      rw [h2] at h
      simp only [List.drop_left, Except.ok.injEq, Prod.mk.injEq] at h
      obtain ⟨rfl, rfl⟩ := h
      have hb := h1.1
      have e : R.neg b = R.fmt.sign + b := neg_eq _ hF hb
      refine ⟨l.text, .inl ⟨l, rfl, fun he => ?_⟩, rfl, ?_, ?_, ?_⟩
      · rw [e]
        exact ⟨b, nearest_value L.slow l.lit he h1, rfl⟩
      · intro c hc
        rcases List.mem_append.1 hc with hc | hc
        · exact signText_ascii _ c hc
        · exact literalText_ascii _ c hc
      · obtain ⟨c, t, h3, -⟩ := literal_head l.lit []
        rw [List.append_nil] at h3
        rw [Signed.text, h3]; simp
      · rw [e]; split <;> omega
    · obtain ⟨c, t, hc, -⟩ := word_head hw
      have hasc : ∀ b ∈ Signed.signText sign ++ w, b.toNat < 128 := by
        intro c hc
        rcases List.mem_append.1 hc with hc | hc
        · exact signText_ascii _ c hc
        · exact word_ascii hw c hc
      have hne : Signed.signText sign ++ w ≠ [] := by rw [hc]; simp
      rcases hw with hw | hw
      · rw [(C84_words R sign w).1 hw] at h
        simp only [List.drop_length, Except.ok.injEq, Prod.mk.injEq] at h
        obtain ⟨rfl, rfl⟩ := h
        have e : R.neg R.fmt.inf = R.fmt.sign + R.fmt.inf := neg_eq _ hF (le_refl _)
        rw [e]
        exact ⟨_, .inr ⟨sign, w, rfl, .inl ⟨hw, rfl⟩⟩, by simp, hasc, hne, by split <;> omega⟩
      · rw [(C84_words R sign w).2 hw] at h
        simp only [List.drop_length, Except.ok.injEq, Prod.mk.injEq] at h
        obtain ⟨rfl, rfl⟩ := h
        rw [hn]
        exact ⟨_, .inr ⟨sign, w, rfl, .inr ⟨hw, rfl⟩⟩, by simp, hasc, hne, by split <;> omega⟩
  · rw [h2] at h; cases h

/-- Reading a float fails with `invalid`, where it started. -/
theorem parseFloat_err {R : RawFloat} (L : LawfulAll R) {s r : Bytes} {e : Err} (h : parseFloat R s = .error (e, r)) :
    e = .invalid ∧ r = s := by
  unfold parseFloat at h
  rcases accepted_cases L s with ⟨-, ⟨v, n⟩, h2⟩ | ⟨-, h2⟩
  · rw [h2] at h; cases h
  · rw [h2] at h; cases h; exact ⟨rfl, rfl⟩

theorem decF32_inv {s r : Bytes} {v : BitVec 32} (h : decF32 s = .ok (v, r)) :
    ∃ x, Spec.LFloat f32 v.toNat x ∧ s = x ++ r ∧ (∀ b ∈ x, b.toNat < 128) ∧ x ≠ [] := by
  obtain ⟨n, t, h1, h2⟩ := P.bind_eq_ok.1 h
  cases h2
  obtain ⟨x, h3, h4, h5, h6, h7⟩ := parseFloat_inv lawfulAll32 (by decide) (by decide) (by decide) h1
  refine ⟨x, ?_, h4, h5, h6⟩
  have h7 : n < 2 ^ 32 := h7
  rw [BitVec.toNat_ofNat, Nat.mod_eq_of_lt h7]
  exact h3

theorem decF64_inv {s r : Bytes} {v : BitVec 64} (h : decF64 s = .ok (v, r)) :
    ∃ x, Spec.LFloat f64 v.toNat x ∧ s = x ++ r ∧ (∀ b ∈ x, b.toNat < 128) ∧ x ≠ [] := by
  obtain ⟨n, t, h1, h2⟩ := P.bind_eq_ok.1 h
  cases h2
  obtain ⟨x, h3, h4, h5, h6, h7⟩ := parseFloat_inv lawfulAll64 (by decide) (by decide) (by decide) h1
  refine ⟨x, ?_, h4, h5, h6⟩
  have h7 : n < 2 ^ 64 := h7
  rw [BitVec.toNat_ofNat, Nat.mod_eq_of_lt h7]
  exact h3

theorem decF32_err {s r : Bytes} {e : Err} (h : decF32 s = .error (e, r)) : e = .invalid ∧ r = s := by
  rcases P.bind_eq_error.1 h with h | ⟨x, t, -, h⟩
  · exact parseFloat_err lawfulAll32 h
  · cases h

theorem decF64_err {s r : Bytes} {e : Err} (h : decF64 s = .error (e, r)) : e = .invalid ∧ r = s := by
  rcases P.bind_eq_error.1 h with h | ⟨x, t, -, h⟩
  · exact parseFloat_err lawfulAll64 h
  · cases h

end Musli.Json
