import Verif.Proofs.Numbers
import Verif.Props.Samples
/-!
# C19: reading a number as a different type (descriptive)
-/
namespace Musli
open Desc

/-- **C19**: the full statement. A number written as one integer type and read as
another gives the same integer if it fits, an error otherwise. -/
def C19Full : Prop := ∀ (s t : IntTy) (v : s.prim.Val) (bs rest : Bytes),
  Desc.encPrim s.prim v = .ok bs →
  (t.fits (s.toInt v) → ∃ u, Desc.decPrim t.prim (bs ++ rest) = .ok (u, rest) ∧ t.toInt u = s.toInt v) ∧
  (¬t.fits (s.toInt v) → ∃ e, Desc.decPrim t.prim (bs ++ rest) = .error e)

/-- **C19 (partial).** It holds if the integer is in the range of the target's
width, taken with the signedness of the source. -/
theorem C19_same_width_partial (s t : IntTy) (v : s.prim.Val) (bs rest : Bytes)
    (he : Desc.encPrim s.prim v = .ok bs)
    (hv : IntTy.inRange s.signed t.bits (s.toInt v)) :
    (t.fits (s.toInt v) →
      ∃ u, Desc.decPrim t.prim (bs ++ rest) = .ok (u, rest) ∧ t.toInt u = s.toInt v) ∧
    (¬t.fits (s.toInt v) → Desc.decPrim t.prim (bs ++ rest) = .error .overflow) := by
  obtain ⟨iw, n, rfl, hn⟩ := encPrim_int s v bs he
  generalize s.toInt v = x at *
  generalize s.signed = sg at *
  have hlt : n < 2 ^ t.bits := by
    have hb : 1 ≤ t.bits := by
      cases t with
      | uint w => have := iw_bits w; show 1 ≤ w.bits; omega
      | sint w => have := iw_bits w; show 1 ≤ w.bits; omega
      | usize => decide
      | isize => decide
    have hp : (2 : Int) ^ t.bits = 2 * 2 ^ (t.bits - 1) := by exact_mod_cast ZigZag.pow_pred hb
    have : (n : Int) < 2 ^ t.bits := by
      cases sg with
      | false => simp only [IntTy.inRange, raw, Bool.false_eq_true, if_false] at hv hn; omega
      | true =>
        simp only [IntTy.inRange, raw, if_true] at hv hn
        split at hn <;> omega
    exact_mod_cast this
  rw [List.cons_append]
  cases t with
  | uint w =>
    obtain ⟨h1, h2⟩ := decTypedUnsigned_num (iw_bits w) iw sg n hlt x hn rest
    exact ⟨fun h => let ⟨u, hu, hd⟩ := h1 h; ⟨u, hd, hu⟩, h2⟩
  | sint w =>
    obtain ⟨h1, h2⟩ := decTypedSigned_num (iw_bits w) iw sg n hlt x hn rest
    exact ⟨fun h => let ⟨u, hu, hd⟩ := h1 h; ⟨u, hd, hu⟩, h2⟩
  | usize =>
    obtain ⟨h1, h2⟩ := decTypedUnsigned_num (w := 64) (by omega) iw sg n hlt x hn rest
    exact ⟨fun h => let ⟨u, hu, hd⟩ := h1 h; ⟨u, hd, hu⟩, h2⟩
  | isize =>
    obtain ⟨h1, h2⟩ := decTypedSigned_num (w := 64) (by omega) iw sg n hlt x hn rest
    exact ⟨fun h => let ⟨u, hu, hd⟩ := h1 h; ⟨u, hd, hu⟩, h2⟩

/-- Every value of a type is in its range. -/
theorem IntTy.fits_toInt (t : IntTy) (v : t.prim.Val) : t.fits (t.toInt v) := by
  cases t with
  | uint w => exact ⟨Int.natCast_nonneg _, (by exact_mod_cast BitVec.isLt (w := w.bits) v :
      ((BitVec.toNat v : Nat) : Int) < 2 ^ w.bits)⟩
  | sint w => exact ⟨BitVec.le_toInt (w := w.bits) v, BitVec.toInt_lt (w := w.bits)⟩
  | usize => exact ⟨Int.natCast_nonneg _, (by exact_mod_cast BitVec.isLt (w := 64) v :
      ((BitVec.toNat v : Nat) : Int) < 2 ^ 64)⟩
  | isize => exact ⟨BitVec.le_toInt (w := 64) v, BitVec.toInt_lt (w := 64)⟩

/-- **C19 (partial).** So the full statement holds for every target type that is not narrower
than the source type. -/
theorem C19_widening_partial (s t : IntTy) (hb : s.bits ≤ t.bits) (v : s.prim.Val)
    (bs rest : Bytes) (he : Desc.encPrim s.prim v = .ok bs) :
    (t.fits (s.toInt v) →
      ∃ u, Desc.decPrim t.prim (bs ++ rest) = .ok (u, rest) ∧ t.toInt u = s.toInt v) ∧
    (¬t.fits (s.toInt v) → Desc.decPrim t.prim (bs ++ rest) = .error .overflow) := by
  refine C19_same_width_partial s t v bs rest he ?_
  have hf := s.fits_toInt v
  have h1 : (2 : Int) ^ s.bits ≤ 2 ^ t.bits := by
    exact_mod_cast Nat.pow_le_pow_right (n := 2) (by omega) hb
  have h2 : (2 : Int) ^ (s.bits - 1) ≤ 2 ^ (t.bits - 1) := by
    exact_mod_cast Nat.pow_le_pow_right (n := 2) (by omega) (Nat.sub_le_sub_right hb 1)
  unfold IntTy.fits at hf
  generalize s.toInt v = x at *
  generalize s.signed = sg at *
  cases sg <;> simp only [IntTy.inRange] at hf ⊢ <;> omega

/-- **C19 (partial).** A number written as unsigned which needs more than `⌈bits/7⌉` groups
of seven bits is never accepted. (Between `2^bits` and that bound it is truncated.) -/
theorem C19_far_out_of_range_partial (s t : IntTy) (hs : s.signed = false) (v : s.prim.Val)
    (bs rest : Bytes) (he : Desc.encPrim s.prim v = .ok bs)
    (hv : (2 : Int) ^ (7 * ((t.bits + 6) / 7)) ≤ s.toInt v) :
    Desc.decPrim t.prim (bs ++ rest) = .error .overflow := by
  obtain ⟨iw, n, rfl, hn⟩ := encPrim_int s v bs he
  rw [hs] at hn
  simp only [raw, Bool.false_eq_true, if_false] at hn
  rw [← hn] at hv
  have hv' : 2 ^ (7 * ((t.bits + 6) / 7)) ≤ n := by exact_mod_cast hv
  rw [List.cons_append]
  cases t with
  | uint w => exact Dec.bind_error (decTyped_long (iw_bits w) iw _ n hv' rest)
  | sint w => exact Dec.bind_error (decTyped_long (iw_bits w) iw _ n hv' rest)
  | usize => exact Dec.bind_error (decTyped_long (w := 64) (by omega) iw _ n hv' rest)
  | isize => exact Dec.bind_error (decTyped_long (w := 64) (by omega) iw _ n hv' rest)

/-- **C19** is false: 256 as `u16` is read as the `u8` 0. -/
theorem C19_violated_narrowing :
    Desc.encPrim (.uint .w16) 256#16 = .ok [0x51, 0x80, 0x02] ∧
    Desc.decPrim (.uint .w8) [0x51, 0x80, 0x02] = .ok (0#8, []) := by decide

@[inherit_doc C19Full]
theorem C19_full_statement_false : ¬C19Full := by
  intro h
  obtain ⟨e, he⟩ := (h (.uint .w16) (.uint .w8) 256#16 _ [] C19_violated_narrowing.1).2
    (by simp [IntTy.fits, IntTy.inRange, IntTy.toInt, IntTy.bits, IntTy.signed, IW.bits])
  rw [List.append_nil] at he
  have h2 := C19_violated_narrowing.2
  rw [show Desc.decPrim (IntTy.uint .w8).prim = Desc.decPrim (.uint .w8) from rfl, h2] at he
  cases he

/-! Examples. -/
example : Desc.decPrim (.sint .w64) [0x51, 0x80, 0x02, 7] = .ok (256#64, [7]) := by decide
example : IntTy.inRange false 32 ((IntTy.uint .w64).toInt 5#64) := by
  show (0:Int) ≤ 5 ∧ (5:Int) < 2 ^ 32; omega
example : (2 : Int) ^ (7 * (((IntTy.uint .w8).bits + 6) / 7)) ≤ (IntTy.uint .w16).toInt 20000#16 := by decide

end Musli
