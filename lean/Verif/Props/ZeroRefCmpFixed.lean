import Verif.Props.ZeroRefCmp
import Verif.Model.Zero.RefCmpFixed
/-!
# C128 with a correction

References are compared as they are stored (`C128_violated_by_byte_order`). If they were read first, then C128 would hold.
-/
set_option linter.unusedSectionVars false
namespace Musli.Zero.RefProps
open Musli Musli.Zero

section
variable {P : Platform} {O : SizeTy} {E : ByteOrder}

theorem cmpC_eq (r s : ZRef) : r.cmpC P O E s =
    ZRef.cmp ⟨r.offsetOf P O E, r.lenOf P O E⟩ ⟨s.offsetOf P O E, s.lenOf P O E⟩ := by
  unfold ZRef.cmpC ZRef.cmp
  rfl

theorem lenOf_isSome (r : ZRef) : (r.lenOf P O E).isSome = r.len.isSome := by
  unfold ZRef.lenOf
  cases r.len <;> rfl

/-- **C128**, the full statement, with the correction: in all byte orders, on all platforms and for all types of offsets, references are in the
order of what they refer to. -/
theorem C128_corrected (r s : ZRef) :
    r.cmpC P O E s = .lt ↔ Before (r.offsetOf P O E, r.lenOf P O E) (s.offsetOf P O E, s.lenOf P O E) := by
  rw [cmpC_eq, cmp_lt]
  exact Iff.rfl

/-- **C128**, with the correction: `cmp` still says that references are equal if and only if `==` does. -/
theorem C128_corrected_equal (hok : O.ok P) {r s : ZRef} (hr : Stored P O r) (hs : Stored P O s) (hk : r.len.isSome = s.len.isSome) :
    r.cmpC P O E s = .eq ↔ r.eqv s = true := by
  rw [cmpC_eq, cmp_eq (by rw [lenOf_isSome, lenOf_isSome]; exact hk), (C128_equal (E := E) hok hr hs hk).1]
  simp

/-- **C128**, with the correction: `cmp` is still a total order. -/
theorem C128_corrected_total {r s t : ZRef} (h1 : r.len.isSome = s.len.isSome) (h2 : s.len.isSome = t.len.isSome) :
    s.cmpC P O E r = (r.cmpC P O E s).swap ∧ (r.cmpC P O E s ≠ .gt → s.cmpC P O E t ≠ .gt → r.cmpC P O E t ≠ .gt) := by
  simp only [cmpC_eq]
  obtain ⟨a, -, b⟩ := C128_total (r := ⟨r.offsetOf P O E, r.lenOf P O E⟩) (s := ⟨s.offsetOf P O E, s.lenOf P O E⟩)
    (t := ⟨t.offsetOf P O E, t.lenOf P O E⟩) (by rw [lenOf_isSome, lenOf_isSome]; exact h1)
    (by rw [lenOf_isSome, lenOf_isSome]; exact h2)
  exact ⟨a, b⟩

/-- **C128**, with the correction: the order does not depend on the byte order in which a reference is stored. -/
theorem C128_corrected_to_endian {U : ByteOrder} (hok : O.ok P) (ho : O ≠ .usize ∨ P.order = E) (hu : O ≠ .usize ∨ P.order = U) {r s : ZRef}
    (hr : Stored P O r) (hs : Stored P O s) :
    (r.toEndian P O E U).cmpC P O U (s.toEndian P O E U) = r.cmpC P O E s := by
  obtain ⟨a1, a2, -⟩ := C55_to_endian_partial (U := U) hok ho hu hr
  obtain ⟨b1, b2, -⟩ := C55_to_endian_partial (U := U) hok ho hu hs
  rw [cmpC_eq, cmpC_eq, a1, a2, b1, b2]

end

/-! ### The case in which the code is wrong -/

example : ZRef.cmpC ⟨.little, 8⟩ .u32 .big ⟨0x01000000, none⟩ ⟨0x00010000, none⟩ = .lt ∧
    ZRef.cmp ⟨0x01000000, none⟩ ⟨0x00010000, none⟩ = .gt ∧
    ZRef.cmpC ⟨.little, 8⟩ .u32 .big ⟨0x01000000, some 0x01000000⟩ ⟨0x01000000, some 0x00010000⟩ = .lt := by
  decide +kernel

end Musli.Zero.RefProps
