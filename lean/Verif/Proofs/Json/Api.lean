import Verif.Proofs.Json.WellFormed
import Verif.Proofs.Json.Range
import Verif.Proofs.Json.SaneTy
/-!
# Consequences for the entry points
-/
namespace Musli.Json
open Musli Spec

theorem encodeChar_ge {c : Char} (h : 0x20 ≤ c.toNat) : ∀ b ∈ Utf8.encodeChar c, 0x20 ≤ b.toNat := by
  intro b hb
  have hr := Utf8.char_range c
  unfold Utf8.encodeChar at hb
  simp only at hb
  split at hb
  · simp only [List.mem_cons, List.not_mem_nil, or_false] at hb
    subst hb
    rw [BitVec.toNat_ofNat, Nat.mod_eq_of_lt (by omega)]; exact h
  split at hb
  · simp only [List.mem_cons, List.not_mem_nil, or_false] at hb
    rcases hb with rfl | rfl <;> rw [BitVec.toNat_ofNat] <;> omega
  split at hb
  · simp only [List.mem_cons, List.not_mem_nil, or_false] at hb
    rcases hb with rfl | rfl | rfl <;> rw [BitVec.toNat_ofNat] <;> omega
  · simp only [List.mem_cons, List.not_mem_nil, or_false] at hb
    rcases hb with rfl | rfl | rfl | rfl <;> rw [BitVec.toNat_ofNat] <;> omega

theorem hex4_ge {l : Bytes} {n : Nat} (h : Hex4 l n) : ∀ b ∈ l, 0x20 ≤ b.toNat := by
  obtain ⟨a, b, c, d, i, j, k, m, rfl, ha, hb, hc, hd, _⟩ := h
  unfold HexDigit at ha hb hc hd
  intro x hx
  simp only [List.mem_cons, List.not_mem_nil, or_false] at hx
  rcases hx with rfl | rfl | rfl | rfl <;> omega

theorem escape_ge {e : Bytes} {c : Char} (h : Escape e c) : ∀ b ∈ e, 0x20 ≤ b.toNat := by
  cases h with
  | unicode h =>
    intro b hb
    simp only [List.mem_cons] at hb
    rcases hb with rfl | hb
    · decide
    · exact hex4_ge h b hb
  | pair h h' =>
    intro b hb
    simp only [List.cons_append, List.mem_cons, List.mem_append] at hb
    rcases hb with rfl | hb | rfl | rfl | hb
    · decide
    · exact hex4_ge h b hb
    · decide
    · decide
    · exact hex4_ge h' b hb
  | _ => intro b hb; simp only [List.mem_cons, List.not_mem_nil, or_false] at hb; subst hb; decide

/-- A string literal has no raw control characters. -/
theorem lit_ge {l : Bytes} {cs : List Char} (h : Lit l cs) : ∀ b ∈ l, 0x20 ≤ b.toNat := by
  induction h with
  | nil => intro b hb; cases hb
  | plain h _ _ _ ih =>
    intro b hb
    rcases List.mem_append.1 hb with hb | hb
    · exact encodeChar_ge h b hb
    · exact ih b hb
  | escape he _ ih =>
    intro b hb
    simp only [List.cons_append, List.mem_cons, List.mem_append] at hb
    rcases hb with rfl | hb | hb
    · decide
    · exact escape_ge he b hb
    · exact ih b hb

theorem decStr_iff (s s' : Bytes) (v : Str) :
    decStr s = .ok (v, s') ↔ ∃ ws l cs, Ws ws ∧ Lit l cs ∧ s = ws ++ 0x22#8 :: l ++ 0x22#8 :: s' ∧
      v.bytes = Utf8.encode cs := by
  unfold decStr
  rw [P.bind_eq_ok]
  constructor
  · rintro ⟨b, s1, h1, h2⟩
    obtain ⟨ws, l, cs, hw, hl, hs, rfl⟩ := (parseString_iff _ _ _).1 h1
    unfold toStr P.ofExcept at h2
    split at h2
    · rename_i h
      split at h
      · cases h; cases h2; exact ⟨ws, l, cs, hw, hl, hs, rfl⟩
      · cases h
    · cases h2
  · rintro ⟨ws, l, cs, hw, hl, hs, hv⟩
    refine ⟨_, s', (parseString_iff _ _ _).2 ⟨ws, l, cs, hw, hl, hs, rfl⟩, ?_⟩
    have : Utf8.valid (Utf8.encode cs) = true := (Utf8.valid_iff _).2 ⟨cs, rfl⟩
    unfold toStr P.ofExcept
    rw [dif_pos this]
    cases v
    simp only at hv ⊢
    subst hv
    rfl

theorem skipWs_inv {s : Bytes} : ∃ ws, Ws ws ∧ s = ws ++ dropWs s := by
  induction s with
  | nil => exact ⟨[], (fun _ h => nomatch h), rfl⟩
  | cons b s ih =>
    obtain ⟨ws, h, e⟩ := ih
    unfold dropWs
    cases hb : isWs b with
    | false => exact ⟨[], fun _ h => (nomatch h), rfl⟩
    | true =>
      refine ⟨b :: ws, ?_, by simp only [if_true, List.cons_append]; rw [← e]⟩
      intro x hx
      rcases List.mem_cons.1 hx with rfl | hx
      · clear hx; revert hb; revert x; decide
      · exact h x hx

/-- What an unsigned integer without fraction and exponent parses to. -/
theorem parseUnsigned_inv {w : Nat} (hw : 4 ≤ w) {s s' : Bytes} {v : BitVec w}
    (h : parseUnsigned false w s = .ok (v, s')) :
    ∃ ws num, Ws ws ∧ Numeral num ∧ s = ws ++ (num ++ s') ∧ v.toNat = value num % 2 ^ w := by
  unfold parseUnsigned at h
  rw [if_neg (by decide)] at h
  unfold parseUnsignedBase at h
  obtain ⟨_, s1, h1, h2⟩ := P.bind_eq_ok.1 h
  cases h1
  obtain ⟨ws, hws, e⟩ := skipWs_inv (s := s)
  obtain ⟨num, hn, e2, _, hv⟩ := unsignedBase_inv hw h2
  exact ⟨ws, num, hws, hn, by rw [← e2]; exact e, hv⟩

end Musli.Json
