import Verif.Proofs.SkipCount
import Verif.Props.Samples
/-!
# C87: skipping arbitrary bytes

Skipping, which decoders do for the values of unknown fields, counts the values that
are left in a `usize`, and adds numbers from the input to it. `Grammar.Wire.Item` and
`Grammar.Desc.Item` (`Spec/Grammar.lean`) say what a complete value is.
-/
namespace Musli
open Grammar

section
variable [Host] (o : Options) (b : Build)

/-- **C87.** A complete value is skipped, in builds with and without overflow checks:
neither is there a panic, nor is anything else consumed. -/
theorem C87_wire_complete {item : Bytes} (h : Grammar.Wire.Item o item) (rest : Bytes)
    (hl : (item ++ rest).length < 2 ^ 64) :
    Wire.skipUsize b o (item ++ rest) = .ok ((), rest) := by
  have h1 := (Grammar.Wire.reads_skip o (item ++ rest) () rest).mpr ⟨item, rfl, h⟩
  exact wire_count_of_rel (Wire.consumes_step o)
    ((skipMany_iff (Wire.consumes_step o) 1 _ _).mp h1) hl _ (by omega)

/-- **C87.** The same for the descriptive format. -/
theorem C87_descriptive_complete {item : Bytes} (h : Grammar.Desc.Item o item) (rest : Bytes)
    (hl : (item ++ rest).length < 2 ^ 64) :
    Desc.skipUsize b o (item ++ rest) = .ok ((), rest) := by
  have h1 := (Grammar.Desc.reads_skip o (item ++ rest) () rest).mpr ⟨item, rfl, h⟩
  exact desc_count_of_rel (Desc.consumes_step o)
    ((skipMany_iff (Desc.consumes_step o) 1 _ _).mp h1) hl _ (by omega)

/-- **C87**, in builds with overflow checks: if skipping succeeds, what has been
consumed is exactly one complete value. What is missing: on other inputs it may panic
(`C87_violated_panic`), and builds without overflow checks may succeed
(`C87_violated_release`). -/
theorem C87_wire_checked_partial (s rest : Bytes)
    (h : Wire.skipUsize .checked o s = .ok ((), rest)) :
    ∃ item, s = item ++ rest ∧ Grammar.Wire.Item o item :=
  (Grammar.Wire.reads_skip o s () rest).mp
    ((skipMany_iff (Wire.consumes_step o) 1 s rest).mpr (rel_of_wire_count _ _ _ _ _ h))

/-- **C87**, the same for the descriptive format. -/
theorem C87_descriptive_checked_partial (s rest : Bytes)
    (h : Desc.skipUsize .checked o s = .ok ((), rest)) :
    ∃ item, s = item ++ rest ∧ Grammar.Desc.Item o item :=
  (Grammar.Desc.reads_skip o s () rest).mp
    ((skipMany_iff (Desc.consumes_step o) 1 s rest).mpr (rel_of_desc_count _ _ _ _ _ h))

/-- **C87**, if lengths are written with at most 32 bits and the input has at most
`2 ^ 30` bytes: skipping succeeds exactly on complete values, in every build. -/
theorem C87_narrow_partial (hw : narrow (Opt.length o) = true) (s rest : Bytes)
    (hl : s.length ≤ 2 ^ 30) :
    (Wire.skipUsize b o s = .ok ((), rest) ↔ ∃ item, s = item ++ rest ∧ Grammar.Wire.Item o item) ∧
    (Desc.skipUsize b o s = .ok ((), rest) ↔ ∃ item, s = item ++ rest ∧ Grammar.Desc.Item o item) := by
  constructor
  · rw [show Wire.skipUsize b o s = Wire.skip o s from
      wire_count_eq (Wire.consumes_step o) (Wire.step_narrow o hw) _ _ _ (by omega)]
    exact Grammar.Wire.reads_skip o s () rest
  · rw [show Desc.skipUsize b o s = Desc.skip o s from
      desc_count_eq (Desc.consumes_step o) (Desc.step_narrow o hw) _ _ _ (by omega)]
    exact Grammar.Desc.reads_skip o s () rest

/-- **C87**, under the same conditions: no input makes it panic. -/
theorem C87_narrow_no_panic_partial (hw : narrow (Opt.length o) = true) (s : Bytes)
    (hl : s.length ≤ 2 ^ 30) :
    Wire.skipUsize b o s ≠ .error .panic ∧ Desc.skipUsize b o s ≠ .error .panic := by
  constructor
  · rw [show Wire.skipUsize b o s = Wire.skip o s from
      wire_count_eq (Wire.consumes_step o) (Wire.step_narrow o hw) _ _ _ (by omega)]
    exact quiet_skipLoop (quiet_wire_step o) _ _ s
  · rw [show Desc.skipUsize b o s = Desc.skip o s from
      desc_count_eq (Desc.consumes_step o) (Desc.step_narrow o hw) _ _ _ (by omega)]
    exact quiet_skipLoop (quiet_desc_step o) _ _ s

end

/-! ## What goes wrong -/
section
open Sample
attribute [local instance] Sample.host

/-- A sequence of two elements, the first of which is said to be a sequence of
`2 ^ 64 - 1` elements. -/
def hugeSequence : Bytes :=
  [0x82#8, 0xBF#8, 0xFF#8, 0xFF#8, 0xFF#8, 0xFF#8, 0xFF#8, 0xFF#8, 0xFF#8, 0xFF#8, 0xFF#8, 0x01#8]

/-- A map which is said to have `2 ^ 63` entries. -/
def hugeMap : Bytes :=
  [0x9F#8, 0x80#8, 0x80#8, 0x80#8, 0x80#8, 0x80#8, 0x80#8, 0x80#8, 0x80#8, 0x80#8, 0x01#8]

theorem front_append {α : Type} {d : Dec α} (h : Front true d) {s : Bytes} {v : α}
    (h1 : d s = .ok (v, [])) (rest : Bytes) : d (s ++ rest) = .ok (v, rest) := by
  obtain ⟨c, h2, h3⟩ := h _ _ _ h1
  rw [List.append_nil] at h2
  subst h2
  exact h3 rfl rest

theorem hugeMap_step (rest : Bytes) : Desc.step varOpts (hugeMap ++ rest) = .ok (2 ^ 64, rest) :=
  front_append (Desc.front_step varOpts) (by decide +kernel) rest

theorem hugeSequence_step (rest : Bytes) :
    Wire.step varOpts (hugeSequence ++ rest) = .ok (2, hugeSequence.tail ++ rest) :=
  front_append (Wire.front_step varOpts) (s := [0x82#8]) (by decide +kernel) (hugeSequence.tail ++ rest)

theorem hugeSequence_step' (rest : Bytes) :
    Wire.step varOpts (hugeSequence.tail ++ rest) = .ok (2 ^ 64 - 1, rest) :=
  front_append (Wire.front_step varOpts) (by decide +kernel) rest

/-- **C87**, violated: skipping some inputs panics in builds with overflow checks. -/
theorem C87_violated_panic (rest : Bytes) :
    Wire.skipUsize .checked varOpts (hugeSequence ++ rest) = .error .panic ∧
    Desc.skipUsize .checked varOpts (hugeMap ++ rest) = .error .panic := by
  refine ⟨?_, ?_⟩
  · show Wire.countLoop .checked (Wire.step varOpts) (rest.length + 11 + 1 + 1) (0 + 1) _ = _
    unfold Wire.countLoop
    rw [Dec.bind_ok (hugeSequence_step rest)]
    show (Wire.countLoop .checked (Wire.step varOpts) (rest.length + 11 + 1) (1 + 1)) _ = _
    unfold Wire.countLoop
    rw [Dec.bind_ok (hugeSequence_step' rest)]
    rfl
  show Desc.countLoop .checked (Desc.step varOpts) (rest.length + 11 + 1) (0 + 1) _ = _
  unfold Desc.countLoop
  rw [Dec.bind_ok (hugeMap_step rest)]
  rfl

/-- **C87**, violated: in builds without overflow checks the counter wraps around to zero,
and skipping succeeds after a fraction of a value, of which most is missing. -/
theorem C87_violated_release (rest : Bytes) :
    Wire.skipUsize .wrapping varOpts (hugeSequence ++ rest) = .ok ((), rest) ∧
    Desc.skipUsize .wrapping varOpts (hugeMap ++ rest) = .ok ((), rest) := by
  refine ⟨?_, ?_⟩
  · show Wire.countLoop .wrapping (Wire.step varOpts) (rest.length + 11 + 1 + 1) (0 + 1) _ = _
    unfold Wire.countLoop
    rw [Dec.bind_ok (hugeSequence_step rest)]
    show (Wire.countLoop .wrapping (Wire.step varOpts) (rest.length + 11 + 1) (1 + 1)) _ = _
    unfold Wire.countLoop
    rw [Dec.bind_ok (hugeSequence_step' rest)]
    rfl
  show Desc.countLoop .wrapping (Desc.step varOpts) (rest.length + 11 + 1) (0 + 1) _ = _
  unfold Desc.countLoop
  rw [Dec.bind_ok (hugeMap_step rest)]
  unfold Desc.countLoop
  rfl

/-- These are not complete values: `2 ^ 64 - 1` elements do not fit into memory. -/
theorem C87_violated_not_items (rest : Bytes) (hl : rest.length < 2 ^ 63) :
    (¬ ∃ item r, hugeSequence ++ rest = item ++ r ∧ Grammar.Wire.Item varOpts item) ∧
    (¬ ∃ item r, hugeMap ++ rest = item ++ r ∧ Grammar.Desc.Item varOpts item) := by
  constructor
  · rintro ⟨item, r, h1, h2⟩
    have h3 := C87_wire_complete varOpts .checked h2 r (by
      rw [← h1, List.length_append, show hugeSequence.length = 12 from rfl]; omega)
    rw [← h1, (C87_violated_panic rest).1] at h3
    cases h3
  · rintro ⟨item, r, h1, h2⟩
    have h3 := C87_descriptive_complete varOpts .checked h2 r (by
      rw [← h1, List.length_append, show hugeMap.length = 11 from rfl]; omega)
    rw [← h1, (C87_violated_panic rest).2] at h3
    cases h3

/- a complete value: a map with an option and a string -/
example : Desc.skipUsize .wrapping varOpts [0x81#8, 0xE1#8, 0xE2#8, 0xC1#8, 0x61#8, 0x07#8] =
    .ok ((), [0x07#8]) := by decide +kernel
example : narrow (Opt.length (Opt.setPointer varOpts .u32)) = true := by decide +kernel

end
end Musli
