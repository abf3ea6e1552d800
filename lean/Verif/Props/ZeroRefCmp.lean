import Verif.Model.Zero.RefCmp
import Verif.Props.ZeroRef
/-!
# C128: comparing references

References to the same type, so both have a length or neither.
-/
set_option linter.unusedSectionVars false
namespace Musli.Zero.RefProps
open Musli Musli.Zero

section
variable {P : Platform} {O : SizeTy} {E : ByteOrder}

theorem asUsize_inj (hok : O.ok P) {m n : Nat} (hm : m < 256 ^ O.bytes P) (hn : n < 256 ^ O.bytes P)
    (h : O.asUsize P E m = O.asUsize P E n) : m = n := by
  by_cases ho : O ≠ .usize ∨ P.order = E
  · have := congrArg (O.swapBytes P E) h
    rwa [swapBytes_asUsize hok hm ho, swapBytes_asUsize hok hn ho] at this
  · have hu : O = .usize := Classical.byContradiction fun h => ho (.inl h)
    subst hu
    have hs := sizeMax hok
    unfold SizeTy.asUsize at h
    rw [hs, if_neg (by omega), if_neg (by omega)] at h
    exact h

theorem numBytes_inj {w m n : Nat} (hm : m < 256 ^ w) (hn : n < 256 ^ w) (h : numBytes E w m = numBytes E w n) : m = n := by
  rw [← fixed_numBytes E hm, h, fixed_numBytes E hn]

theorem compare_lt {m n : Nat} : compare m n = .lt ↔ m < n := Nat.compare_eq_lt
theorem compare_eq {m n : Nat} : compare m n = .eq ↔ m = n := Nat.compare_eq_eq

theorem cmp_lt {r s : ZRef} : r.cmp s = .lt ↔
    r.offset < s.offset ∨ r.offset = s.offset ∧ ∃ m n, r.len = some m ∧ s.len = some n ∧ m < n := by
  unfold ZRef.cmp
  cases h : compare r.offset s.offset with
  | lt => simp [compare_lt.1 h]
  | gt =>
    have := Nat.compare_eq_gt.1 h
    dsimp only
    constructor
    · intro h; cases h
    · rintro (h | ⟨h, -⟩) <;> omega
  | eq =>
    have he := compare_eq.1 h
    dsimp only
    constructor
    · intro hm
      refine .inr ⟨he, ?_⟩
      cases h1 : r.len with
      | none => rw [h1] at hm; cases hm
      | some m =>
        cases h2 : s.len with
        | none => rw [h1, h2] at hm; cases hm
        | some n =>
          rw [h1, h2] at hm
          exact ⟨m, n, rfl, rfl, compare_lt.1 hm⟩
    · rintro (h | ⟨-, m, n, h1, h2, h3⟩)
      · omega
      · rw [h1, h2]; exact compare_lt.2 h3

theorem cmp_eq {r s : ZRef} (hk : r.len.isSome = s.len.isSome) : r.cmp s = .eq ↔ r = s := by
  obtain ⟨ro, rl⟩ := r
  obtain ⟨so, sl⟩ := s
  unfold ZRef.cmp
  dsimp only at hk ⊢
  cases h : compare ro so with
  | lt => have := compare_lt.1 h; simp; omega
  | gt => have := Nat.compare_eq_gt.1 h; simp; omega
  | eq =>
    have he := compare_eq.1 h
    cases rl <;> cases sl <;> simp [metaCmp, he, compare_eq] at hk ⊢

theorem cmp_swap {r s : ZRef} : s.cmp r = (r.cmp s).swap := by
  have hs : ∀ m n : Nat, compare n m = (compare m n).swap := fun m n => (Nat.compare_swap m n).symm
  unfold ZRef.cmp
  rw [hs r.offset s.offset]
  cases compare r.offset s.offset <;> try rfl
  cases r.len <;> cases s.len <;> first | rfl | exact hs _ _

/-- **C128**: two references are equal if and only if they have the same offset and length, and if and only if `cmp` says so, and
if and only if what is hashed is the same. This holds in all byte orders and for all types of offsets. -/
theorem C128_equal (hok : O.ok P) {r s : ZRef} (hr : Stored P O r) (hs : Stored P O s) (hk : r.len.isSome = s.len.isSome) :
    (r.eqv s = true ↔ r.offsetOf P O E = s.offsetOf P O E ∧ r.lenOf P O E = s.lenOf P O E) ∧
    (r.eqv s = true ↔ r.cmp s = .eq) ∧ (r.eqv s = true ↔ r.hashed P O = s.hashed P O) := by
  have he : r.eqv s = true ↔ r = s := by
    obtain ⟨ro, rl⟩ := r
    obtain ⟨so, sl⟩ := s
    simp [ZRef.eqv]
  rw [he]
  refine ⟨⟨fun h => by rw [h]; exact ⟨rfl, rfl⟩, ?_⟩, (cmp_eq hk).symm, ⟨fun h => by rw [h], ?_⟩⟩
  · rintro ⟨h1, h2⟩
    obtain ⟨ro, rl⟩ := r
    obtain ⟨so, sl⟩ := s
    simp only [Stored, pow_bytes] at hr hs
    have e1 : ro = so := asUsize_inj hok hr.1 hs.1 h1
    cases rl with
    | none => cases sl with
      | none => rw [e1]
      | some n => simp at hk
    | some m => cases sl with
      | none => simp at hk
      | some n =>
        simp only [ZRef.lenOf, Option.map_some, Option.some.injEq] at h2
        rw [e1, asUsize_inj hok (hr.2 m rfl) (hs.2 n rfl) h2]
  · intro h
    obtain ⟨ro, rl⟩ := r
    obtain ⟨so, sl⟩ := s
    simp only [Stored, pow_bytes] at hr hs
    unfold ZRef.hashed nativeBytes at h
    obtain ⟨h1, h2⟩ := List.append_inj h (by rw [numBytes_length, numBytes_length])
    have e1 : ro = so := numBytes_inj hr.1 hs.1 h1
    cases rl with
    | none => cases sl with
      | none => rw [e1]
      | some n => simp at hk
    | some m => cases sl with
      | none => simp at hk
      | some n => rw [e1, numBytes_inj (hr.2 m rfl) (hs.2 n rfl) h2]

/-- **C128**: `cmp` is a total order, so that references can be sorted and be keys of ordered maps. -/
theorem C128_total {r s t : ZRef} (h1 : r.len.isSome = s.len.isSome) (h2 : s.len.isSome = t.len.isSome) :
    s.cmp r = (r.cmp s).swap ∧ (r.cmp s = .eq ↔ r = s) ∧ (r.cmp s ≠ .gt → s.cmp t ≠ .gt → r.cmp t ≠ .gt) := by
  refine ⟨cmp_swap, cmp_eq h1, ?_⟩
  have key : ∀ {a b : ZRef}, a.len.isSome = b.len.isSome → (a.cmp b ≠ .gt ↔ a.cmp b = .lt ∨ a = b) := by
    intro a b h
    rw [← cmp_eq h]
    cases a.cmp b <;> simp
  rw [key h1, key h2, key (h1.trans h2)]
  rintro (a | rfl) (b | rfl)
  · left
    rw [cmp_lt] at a b ⊢
    rcases a with a | ⟨a, m, n, a1, a2, a3⟩ <;> rcases b with b | ⟨b, m', n', b1, b2, b3⟩
    · left; omega
    · left; omega
    · left; omega
    · refine .inr ⟨a.trans b, m, n', a1, b2, ?_⟩
      rw [a2] at b1
      cases b1
      omega
  · exact .inl a
  · exact .inl b
  · exact .inr rfl

/-- What is meant by references being in the order of what they refer to: by the offset, and for the same offset by the length. -/
def Before (a b : Nat × Option Nat) : Prop :=
  a.1 < b.1 ∨ a.1 = b.1 ∧ ∃ m n, a.2 = some m ∧ b.2 = some n ∧ m < n

/-- **C128**, the full statement: references are in the order of what they refer to. -/
def C128Statement : Prop := ∀ (P : Platform) (O : SizeTy) (E : ByteOrder) (r s : ZRef), O.ok P → Stored P O r → Stored P O s →
  (r.cmp s = .lt ↔ Before (r.offsetOf P O E, r.lenOf P O E) (s.offsetOf P O E, s.lenOf P O E))

theorem asUsize_native (hok : O.ok P) (ho : P.order = E ∨ O = .u8) {n : Nat} (hn : n < 256 ^ O.bytes P) :
    O.asUsize P E n = n := by
  have hs := sizeMax hok
  unfold SizeTy.asUsize
  rw [hs, if_neg (by omega)]
  rcases ho with ho | rfl
  · cases O <;> simp [orderSwap, ho]
  · rfl

/-- **C128** in the byte order of the platform, and where offsets are a byte: references are in the order of what they refer to. -/
theorem C128_order_partial (hok : O.ok P) (ho : P.order = E ∨ O = .u8) {r s : ZRef} (hr : Stored P O r) (hs : Stored P O s) :
    r.cmp s = .lt ↔ Before (r.offsetOf P O E, r.lenOf P O E) (s.offsetOf P O E, s.lenOf P O E) := by
  simp only [Stored, pow_bytes] at hr hs
  have e1 : r.offsetOf P O E = r.offset := asUsize_native hok ho hr.1
  have e2 : s.offsetOf P O E = s.offset := asUsize_native hok ho hs.1
  have e3 : r.lenOf P O E = r.len := by
    cases h : r.len with
    | none => simp [ZRef.lenOf, h]
    | some m => simp [ZRef.lenOf, h, asUsize_native hok ho (hr.2 m h)]
  have e4 : s.lenOf P O E = s.len := by
    cases h : s.len with
    | none => simp [ZRef.lenOf, h]
    | some m => simp [ZRef.lenOf, h, asUsize_native hok ho (hs.2 m h)]
  rw [cmp_lt, e1, e2, e3, e4]
  exact Iff.rfl

/-- **C128**: in other byte orders `to_ne` puts references in the order of what the original ones refer to. -/
theorem C128_to_ne (hok : O.ok P) (ho : O ≠ .usize ∨ P.order = E) {r s : ZRef} (hr : Stored P O r) (hs : Stored P O s) :
    (r.toEndian P O E P.order).cmp (s.toEndian P O E P.order) = .lt ↔
      Before (r.offsetOf P O E, r.lenOf P O E) (s.offsetOf P O E, s.lenOf P O E) := by
  obtain ⟨a1, a2, -, a3⟩ := C55_to_endian_partial (U := P.order) hok ho (.inr rfl) hr
  obtain ⟨b1, b2, -, b3⟩ := C55_to_endian_partial (U := P.order) hok ho (.inr rfl) hs
  rw [C128_order_partial hok (.inl rfl) a3 b3, a1, a2, b1, b2]

end

/-- **C128** is false for references in a byte order which is not that of the platform: the offsets are compared as they are
stored. `Ref::<u8, endian::Big, u32>::new(1) > Ref::new(256)` on a little-endian platform, and on a big-endian one not, so that
references which were sorted on one are not on the other. -/
theorem C128_violated_by_byte_order :
    (ZRef.new ⟨.little, 8⟩ .u32 .big 1).toOption = some ⟨0x01000000, none⟩ ∧
    (ZRef.new ⟨.little, 8⟩ .u32 .big 256).toOption = some ⟨0x00010000, none⟩ ∧
    ZRef.cmp ⟨0x01000000, none⟩ ⟨0x00010000, none⟩ = .gt ∧
    (ZRef.new ⟨.big, 8⟩ .u32 .big 1).toOption = some ⟨1, none⟩ ∧
    (ZRef.new ⟨.big, 8⟩ .u32 .big 256).toOption = some ⟨256, none⟩ ∧ ZRef.cmp ⟨1, none⟩ ⟨256, none⟩ = .lt := by
  decide +kernel

theorem C128_full_statement_false : ¬ C128Statement := by
  intro h
  have := (h ⟨.little, 8⟩ .u32 .big ⟨0x01000000, none⟩ ⟨0x00010000, none⟩ ⟨.inr rfl, fun h => nomatch h⟩
    ⟨by decide, fun _ h => nomatch h⟩ ⟨by decide, fun _ h => nomatch h⟩).2 (.inl (by decide +kernel))
  revert this
  decide +kernel

/-! ### The hypotheses are met -/

/-- Slices at the same offset with different lengths, in the byte order of the platform. -/
example : ZRef.cmp ⟨256, some 1⟩ ⟨256, some 2⟩ = .lt :=
  (C128_order_partial (P := ⟨.little, 8⟩) (O := .u32) (E := .little) ⟨.inr rfl, fun h => nomatch h⟩ (.inl rfl)
    ⟨by decide, fun n h => by cases h; decide⟩ ⟨by decide, fun n h => by cases h; decide⟩).2
    (.inr ⟨by decide +kernel, 1, 2, by decide +kernel, by decide +kernel, by decide⟩)

/-- The violation is not one of `==`. -/
example : ZRef.eqv ⟨0x01000000, none⟩ ⟨0x00010000, none⟩ = false := by
  have h := (C128_equal (P := ⟨.little, 8⟩) (O := .u32) (E := .big) (r := ⟨0x01000000, none⟩) (s := ⟨0x00010000, none⟩)
    ⟨.inr rfl, fun h => nomatch h⟩ ⟨by decide, fun _ h => nomatch h⟩ ⟨by decide, fun _ h => nomatch h⟩ rfl).1
  rw [Bool.eq_false_iff]
  intro he
  exact absurd (h.1 he).1 (by decide +kernel)

end Musli.Zero.RefProps
