import Verif.Proofs.Zero.Load
import Verif.Proofs.Zero.Store
import Verif.Proofs.Utf8
/-!
# Loading from untrusted bytes and storing values
-/
set_option linter.unusedSectionVars false
namespace Musli.Zero.LayoutProps
open Musli Musli.Zero

/-- The bytes of a buffer in a range. -/
def range (buf : Bytes) (start n : Nat) : Bytes := (buf.drop start).take n

/-- What loading a value of a type at an offset of a buffer at some address should do: it succeeds exactly
if the value is in the buffer, is aligned and has the bytes of a value, and returns these; and otherwise is an
error, without undefined behaviour or panic. -/
def LoadsRight [Host] (base : Nat) (buf : Bytes) (t : ZTy) (offset lg : Nat) (r : Except ZErr Bytes) : Prop :=
  (∀ s, r = .ok s ↔ offset + t.size ≤ buf.length ∧ (base + offset) % 2 ^ lg = 0 ∧
    s = range buf offset t.size ∧ IsValue t s) ∧
  r ≠ .error .ub ∧ r ≠ .error .panic

/-! ## C51: loading -/

section
variable [Host]

theorem loadSized_right {base : Nat} {buf : Bytes} {t : ZTy} {offset : Nat} (hw : t.WF) (hok : t.LoadOk)
    (ho : offset + t.size < 2 ^ 64) : LoadsRight base buf t offset t.lg (loadSized base buf t offset) := by
  unfold LoadsRight loadSized range
  rw [if_neg (by omega)]
  by_cases hb : offset + t.size ≤ buf.length
  · rw [if_pos hb]
    have hl : ((buf.drop offset).take t.size).length = t.size := slice_length hb
    dsimp only
    by_cases ha : isAligned (base + offset) t.lg = true
    · rw [if_pos ha]
      rw [isAligned_iff] at ha
      by_cases hab : t.anyBits = true
      · rw [if_pos hab]
        refine ⟨fun s => ⟨fun h => ?_, fun h => by rw [h.2.2.1]⟩, by simp, by simp⟩
        have : s = _ := (Except.ok.inj h).symm
        subst this
        exact ⟨hb, ha, rfl, anyBits_isValue t _ hw hab hl⟩
      · rw [if_neg hab]
        have hd := validate_decides (base + offset) ((buf.drop offset).take t.size) t 0 hw hok
          (by rw [Nat.add_zero]; exact mod_of_le ha (need_le_lg t)) (by omega)
        have hs : slice ((buf.drop offset).take t.size) 0 t.size = (buf.drop offset).take t.size := by
          rw [slice, List.drop_zero, List.take_take, Nat.min_self]
        rw [hs] at hd
        rcases hd with ⟨hd, hv⟩ | ⟨hd, hv⟩
        · rw [hd]
          refine ⟨fun s => ⟨fun h => ?_, fun h => by rw [h.2.2.1]⟩, by simp, by simp⟩
          have : s = _ := (Except.ok.inj h).symm
          subst this
          exact ⟨hb, ha, rfl, hv⟩
        · rw [hd]
          refine ⟨fun s => ⟨fun h => by simp at h, fun h => ?_⟩, by simp, by simp⟩
          exact absurd (h.2.2.1 ▸ h.2.2.2) hv
    · rw [if_neg ha]
      rw [isAligned_iff] at ha
      exact ⟨fun s => ⟨fun h => by simp at h, fun h => absurd h.2.1 ha⟩, by simp, by simp⟩
  · rw [if_neg hb]
    exact ⟨fun s => ⟨fun h => by simp at h, fun h => absurd h.1 hb⟩, by simp, by simp⟩

/-- **C51** (partial). `Buf::load_at` and `Buf::load` of a reference to a value, and their mutable variants:
for any address and contents of the buffer and any offset, they return a reference exactly if the range is in
the buffer and aligned and has the bytes of a value of the type, which are those of the reference; they do not
read outside of the range.

Missing are the types without `LoadOk`, of which it is false (`C51_violated_*`), and offsets so large that
the sum with the size overflows, which panics in debug builds (`C51_violated_by_offset`). -/
theorem C51_load_partial {base : Nat} {buf : Bytes} {t : ZTy} {offset : Nat} (hw : t.WF) (hok : t.LoadOk)
    (ho : offset + t.size < 2 ^ 64) : LoadsRight base buf t offset t.lg (loadSized base buf t offset) :=
  loadSized_right hw hok ho

/-- **C51** (partial), `Buf::load_at_unaligned`: the same without the alignment, if no field needs any. -/
theorem C51_load_unaligned_partial {base : Nat} {buf : Bytes} {t : ZTy} {offset : Nat} (hw : t.WF) (hok : t.LoadOk)
    (hn : t.need = 0) (ho : offset + t.size < 2 ^ 64) :
    LoadsRight base buf t offset 0 (loadUnaligned base buf t offset) := by
  unfold LoadsRight loadUnaligned range
  rw [if_neg (by omega)]
  have h0 : (base + offset) % 2 ^ 0 = 0 := by simp [Nat.mod_one]
  by_cases hb : offset + t.size ≤ buf.length
  · rw [if_pos hb]
    have hl : ((buf.drop offset).take t.size).length = t.size := slice_length hb
    dsimp only
    by_cases hab : t.anyBits = true
    · rw [if_pos hab]
      refine ⟨fun s => ⟨fun h => ?_, fun h => by rw [h.2.2.1]⟩, by simp, by simp⟩
      have : s = _ := (Except.ok.inj h).symm
      subst this
      exact ⟨hb, h0, rfl, anyBits_isValue t _ hw hab hl⟩
    · rw [if_neg hab]
      have hd := validate_decides (base + offset) ((buf.drop offset).take t.size) t 0 hw hok
        (by rw [hn]; exact Nat.mod_one _) (by omega)
      have hs : slice ((buf.drop offset).take t.size) 0 t.size = (buf.drop offset).take t.size := by
        rw [slice, List.drop_zero, List.take_take, Nat.min_self]
      rw [hs] at hd
      rcases hd with ⟨hd, hv⟩ | ⟨hd, hv⟩
      · rw [hd]
        refine ⟨fun s => ⟨fun h => ?_, fun h => by rw [h.2.2.1]⟩, by simp, by simp⟩
        have : s = _ := (Except.ok.inj h).symm
        subst this
        exact ⟨hb, h0, rfl, hv⟩
      · rw [hd]
        refine ⟨fun s => ⟨fun h => by simp at h, fun h => ?_⟩, by simp, by simp⟩
        exact absurd (h.2.2.1 ▸ h.2.2.2) hv
  · rw [if_neg hb]
    exact ⟨fun s => ⟨fun h => by simp at h, fun h => absurd h.1 hb⟩, by simp, by simp⟩

/-- **C51** (partial), `Buf::load` of a reference to a slice, `start` and `len` being any numbers: it
succeeds exactly if the range is in the buffer and aligned and all of the elements are values. -/
theorem C51_load_slice_partial {base : Nat} {buf : Bytes} {t : ZTy} {start len : Nat} (hw : t.WF) (hok : t.LoadOk)
    (hbuf : buf.length < 2 ^ 63) :
    LoadsRight base buf (.array t len) start t.lg (loadSlice base buf t start len) := by
  unfold LoadsRight loadSlice range
  rw [ZTy.size]
  by_cases hs : buf.length < start
  · rw [if_pos hs]
    exact ⟨fun s => ⟨fun h => by simp at h, fun h => by omega⟩, by simp, by simp⟩
  rw [if_neg hs]
  by_cases ha : isAligned (base + start) t.lg = true
  · rw [if_pos ha]
    rw [isAligned_iff] at ha
    by_cases hov : len * t.size ≥ 2 ^ 64
    · rw [if_pos hov]
      exact ⟨fun s => ⟨fun h => by simp at h, fun h => by omega⟩, by simp, by simp⟩
    rw [if_neg hov]
    by_cases hb : len * t.size > buf.length - start
    · rw [if_pos hb]
      exact ⟨fun s => ⟨fun h => by simp at h, fun h => by omega⟩, by simp, by simp⟩
    rw [if_neg hb]
    have hl : ((buf.drop start).take (len * t.size)).length = len * t.size := slice_length (by omega)
    by_cases hab : t.anyBits = true
    · rw [if_pos hab]
      refine ⟨fun s => ⟨fun h => ?_, fun h => by rw [h.2.2.1]⟩, by simp, by simp⟩
      have : s = _ := (Except.ok.inj h).symm
      subst this
      exact ⟨by omega, ha, rfl, anyBits_isValue (.array t len) _ (by simpa [ZTy.WF] using hw)
        (by simpa [ZTy.anyBits] using hab) (by simpa [ZTy.size] using hl)⟩
    · rw [if_neg hab]
      have hd := validate_decides base buf (.array t len) start (by simpa [ZTy.WF] using hw)
        (by simpa [ZTy.LoadOk] using hok) (by rw [ZTy.need]; exact mod_of_le ha (need_le_lg t))
        (by rw [ZTy.size]; omega)
      rw [validate, ZTy.size] at hd
      simp only [slice] at hd
      rcases hd with ⟨hd, hv⟩ | ⟨hd, hv⟩
      · rw [hd]
        refine ⟨fun s => ⟨fun h => ?_, fun h => by rw [h.2.2.1]⟩, by simp, by simp⟩
        have : s = _ := (Except.ok.inj h).symm
        subst this
        exact ⟨by omega, ha, rfl, hv⟩
      · rw [hd]
        refine ⟨fun s => ⟨fun h => by simp at h, fun h => ?_⟩, by simp, by simp⟩
        exact absurd (h.2.2.1 ▸ h.2.2.2) hv
  · rw [if_neg ha]
    rw [isAligned_iff] at ha
    exact ⟨fun s => ⟨fun h => by simp at h, fun h => absurd h.2.1 ha⟩, by simp, by simp⟩

omit [Host] in
/-- **C51**, `Buf::load` of a reference to a string: it succeeds exactly if the range is in the buffer and is
UTF-8, the encoding of some characters. -/
theorem C51_load_str {buf : Bytes} {start len : Nat} :
    (∀ s, loadStr buf start len = .ok s ↔ start + len ≤ buf.length ∧ s = range buf start len ∧
      ∃ cs : List Char, s = Utf8.encode cs) ∧
    loadStr buf start len ≠ .error .ub ∧ loadStr buf start len ≠ .error .panic := by
  unfold loadStr range
  by_cases hs : buf.length < start
  · rw [if_pos hs]
    exact ⟨fun s => ⟨fun h => by simp at h, fun h => by omega⟩, by simp, by simp⟩
  rw [if_neg hs]
  by_cases hl : len > buf.length - start
  · rw [if_pos hl]
    exact ⟨fun s => ⟨fun h => by simp at h, fun h => by omega⟩, by simp, by simp⟩
  rw [if_neg hl]
  by_cases hv : Utf8.valid ((buf.drop start).take len) = true
  · rw [if_pos hv]
    refine ⟨fun s => ⟨fun h => ?_, fun h => by rw [h.2.1]⟩, by simp, by simp⟩
    have : s = _ := (Except.ok.inj h).symm
    subst this
    exact ⟨by omega, rfl, (Utf8.valid_iff _).1 hv⟩
  · rw [if_neg hv]
    refine ⟨fun s => ⟨fun h => by simp at h, fun h => ?_⟩, by simp, by simp⟩
    exact absurd ((Utf8.valid_iff _).2 (h.2.1 ▸ h.2.2)) hv

end

/-! ### Examples of types -/

/-- The fields of a struct, none of which is ignored. -/
def fields : List ZTy → ZFields
  | [] => .nil
  | t :: ts => .cons false t (fields ts)

abbrev u8 : ZTy := .num 1 0
abbrev u16 : ZTy := .num 2 1
abbrev u32 : ZTy := .num 4 2
abbrev u64 : ZTy := .num 8 3
abbrev nz16 : ZTy := .nonzero 2 1
abbrev nz32 : ZTy := .nonzero 4 2

/-- `#[repr(C)] struct { a: u8, b: NonZeroU32, c: bool, #[zero_copy(ignore)] d: PhantomData<_> }` -/
def record : ZTy := .struct none 0 (.cons false u8 (.cons false nz32 (.cons false .bool (.cons true .zst .nil))))

/-- `#[repr(u16)] enum { A, B(char, bool) = 7, C([record; 2]) }` on a little-endian host. -/
def choice : ZTy := .enum 2 1 0
  (.cons [0#8, 0#8] .nil (.cons [7#8, 0#8] (fields [.char, .bool]) (.cons [8#8, 0#8] (fields [.array record 2]) .nil)))

instance little : Host := ⟨.little⟩

example : record.WF ∧ record.LoadOk ∧ record.StoreOk ∧ record.size = 12 ∧ record.lg = 2 := by
  refine ⟨by simp [record, ZTy.WF, ZFields.WF, ZTy.zeroSized], ?_, ?_, by decide, by decide⟩
  · right; simp [ZFields.LoadOk, ZTy.LoadOk, ZTy.need, capped, ZTy.lg]
  · right; simp [ZFields.StoreOk, ZTy.StoreOk, capped, ZTy.lg]

example : choice.WF ∧ choice.LoadOk ∧ choice.StoreOk ∧ choice.size = 28 ∧ choice.lg = 2 ∧ choice.padded = true := by
  refine ⟨?_, ?_, ?_, by decide, by decide, by decide⟩
  · simp [choice, record, fields, ZTy.WF, ZFields.WF, ZVariants.WF, ZVariants.tags, ZTy.zeroSized]
  · simp [choice, record, fields, ZFields.LoadOk, ZTy.LoadOk, ZVariants.LoadOk, ZTy.need, capped, ZTy.lg,
      ZFields.lg, ZFields.anyBits, ZTy.anyBits]
  · simp [choice, record, fields, ZFields.StoreOk, ZTy.StoreOk, ZVariants.StoreOk, capped, ZTy.lg]

/-- A record is loaded from aligned memory; a `bool` of 2, a zero, a wrong address are errors. -/
example : loadSized 64 ([0, 0, 0, 0, 5, 9, 9, 9, 1, 0, 0, 0, 1, 8, 8, 8].map (BitVec.ofNat 8)) record 4 =
    .ok ([5, 9, 9, 9, 1, 0, 0, 0, 1, 8, 8, 8].map (BitVec.ofNat 8)) := by decide +kernel
example : loadSized 64 ([5, 9, 9, 9, 1, 0, 0, 0, 2, 8, 8, 8].map (BitVec.ofNat 8)) record 0 = .error .illegal := by
  decide +kernel
example : loadSized 64 ([5, 9, 9, 9, 0, 0, 0, 0, 1, 8, 8, 8].map (BitVec.ofNat 8)) record 0 = .error .illegal := by
  decide +kernel
example : loadSized 66 ([5, 9, 9, 9, 1, 0, 0, 0, 1, 8, 8, 8].map (BitVec.ofNat 8)) record 0 = .error .alignment := by
  decide +kernel
example : loadSized 64 ([5, 9, 9, 9, 1, 0, 0, 0, 1, 8, 8].map (BitVec.ofNat 8)) record 0 = .error .bounds := by
  decide +kernel

/-! ### Where C51 is false -/

/-- `#[repr(C, packed(2))] struct { a: u8, b: bool, c: u16 }`, the offsets of which are 0, 1 and 2. -/
def packed2 : ZTy := .struct (some 1) 0 (fields [u8, .bool, u16])

/-- `#[repr(C)] struct { a: u8, #[zero_copy(ignore)] b: [u32; 0], c: bool }`, the offsets are 0, 4 and 4. -/
def ignoring : ZTy := .struct none 0 (.cons false u8 (.cons true (.array u32 0) (.cons false .bool .nil)))

/-- `#[repr(C)] struct { a: u8, b: NonZeroU16 }` -/
def inner : ZTy := .struct none 0 (fields [u8, nz16])

/-- `#[repr(C, packed)] struct { a: u8, b: inner }`, the offsets are 0 and 1. -/
def outer : ZTy := .struct (some 0) 0 (fields [u8, inner])

/-- `#[repr(C, packed)] struct { a: u8, b: Wrapping<NonZeroU32> }`. -/
def wrapped : ZTy := .struct (some 0) 0 (fields [u8, .wrapping nz32])

theorem samples_wf : packed2.WF ∧ ignoring.WF ∧ inner.WF ∧ outer.WF ∧ wrapped.WF := by
  simp [packed2, ignoring, inner, outer, wrapped, fields, ZTy.WF, ZFields.WF, ZTy.zeroSized]

/-- **C51 is false** for `packed(2)` structs with fields of alignment 1: every field is validated at an
even offset. The second byte is 2, which no `bool` is, and it is loaded; in the other bytes it is 1, and they
are rejected. -/
theorem C51_violated_by_packed :
    (loadSized 64 [0#8, 2#8, 0#8, 0#8] packed2 0 = .ok [0#8, 2#8, 0#8, 0#8] ∧
      ¬ IsValue packed2 [0#8, 2#8, 0#8, 0#8]) ∧
    (loadSized 64 [0#8, 1#8, 5#8, 0#8] packed2 0 = .error .illegal ∧ IsValue packed2 [0#8, 1#8, 5#8, 0#8]) := by
  refine ⟨⟨by decide +kernel, ?_⟩, by decide +kernel, ?_⟩
  · have hw := samples_wf.1
    simp only [packed2, ZTy.WF] at hw
    intro h
    rw [show ([0#8, 2#8, 0#8, 0#8] : Bytes) = [0#8, 2#8, 0#8, 0#8] ++ [] from rfl, packed2,
      isValue_struct hw.1 (by decide) (by decide)] at h
    rw [show ([0#8, 2#8, 0#8, 0#8] : Bytes) = [] ++ ([0#8] ++ ([] ++ ([2#8] ++ [0#8, 0#8]))) from rfl, fields,
      isFields_cons (by simp [ZTy.WF]) (by decide) (by decide), fields,
      isFields_cons (by simp [ZTy.WF]) (by decide) (by decide)] at h
    obtain ⟨m, hm, ha⟩ := h.2.1
    simp only [Mem] at hm
    rcases hm with rfl | rfl <;> cases ha
  · refine ⟨[some 0#8, some 1#8, some 5#8, some 0#8], ?_, agree_map (bs := [0#8, 1#8, 5#8, 0#8]).2 rfl⟩
    simp only [packed2, Mem]
    refine ⟨_, (List.append_nil _).symm, ?_⟩
    simp only [fields, MemFields, Mem]
    exact ⟨[some 0#8], [some 1#8, some 5#8, some 0#8], rfl, ⟨[0#8], rfl, rfl⟩, [some 1#8], [some 5#8, some 0#8],
      rfl, .inr rfl, [some 5#8, some 0#8], [], rfl, ⟨[5#8, 0#8], rfl, rfl⟩, rfl⟩

/-- **C51 is false** for structs with an ignored field of a greater alignment: the fields after it are
validated at other offsets. -/
theorem C51_violated_by_ignored :
    loadSized 64 [0#8, 0#8, 0#8, 0#8, 2#8, 0#8, 0#8, 0#8] ignoring 0 =
      .ok [0#8, 0#8, 0#8, 0#8, 2#8, 0#8, 0#8, 0#8] ∧
    ¬ IsValue ignoring [0#8, 0#8, 0#8, 0#8, 2#8, 0#8, 0#8, 0#8] := by
  refine ⟨by decide +kernel, ?_⟩
  have hw := samples_wf.2.1
  simp only [ignoring, ZTy.WF] at hw
  intro h
  rw [show ([0#8, 0#8, 0#8, 0#8, 2#8, 0#8, 0#8, 0#8] : Bytes) = [0#8, 0#8, 0#8, 0#8, 2#8] ++ [0#8, 0#8, 0#8] from rfl,
    ignoring, isValue_struct hw.1 (by decide) (by decide)] at h
  rw [show ([0#8, 0#8, 0#8, 0#8, 2#8] : Bytes) = [] ++ ([0#8] ++ ([0#8, 0#8, 0#8] ++ ([] ++ ([] ++ ([2#8] ++ []))))) from rfl,
    isFields_cons (by simp [ZTy.WF]) (by decide) (by decide),
    isFields_cons (by simp [ZTy.WF]) (by decide) (by decide),
    isFields_cons (by simp [ZTy.WF]) (by decide) (by decide)] at h
  obtain ⟨m, hm, ha⟩ := h.2.2.1
  simp only [Mem] at hm
  rcases hm with rfl | rfl <;> cases ha

/-- **C51 is false** for packed structs with a struct in them which is aligned: its fields are validated at
aligned addresses, which are not where they are. The `NonZeroU16` is at the offsets 3 and 4 and zero. -/
theorem C51_violated_by_nesting :
    loadSized 64 [0#8, 0#8, 1#8, 0#8, 0#8] outer 0 = .ok [0#8, 0#8, 1#8, 0#8, 0#8] ∧
    ¬ IsValue outer [0#8, 0#8, 1#8, 0#8, 0#8] := by
  refine ⟨by decide +kernel, ?_⟩
  have hw := samples_wf.2.2.2.1
  have hi := samples_wf.2.2.1
  simp only [outer, ZTy.WF] at hw
  intro h
  rw [show ([0#8, 0#8, 1#8, 0#8, 0#8] : Bytes) = [0#8, 0#8, 1#8, 0#8, 0#8] ++ [] from rfl, outer,
    isValue_struct hw.1 (by decide) (by decide)] at h
  rw [show ([0#8, 0#8, 1#8, 0#8, 0#8] : Bytes) = [] ++ ([0#8] ++ ([] ++ ([0#8, 1#8, 0#8, 0#8] ++ []))) from rfl, fields,
    isFields_cons (by simp [ZTy.WF]) (by decide) (by decide), fields,
    isFields_cons hi (by decide) (by decide)] at h
  have h := h.2.1
  simp only [inner, ZTy.WF] at hi
  rw [show ([0#8, 1#8, 0#8, 0#8] : Bytes) = [0#8, 1#8, 0#8, 0#8] ++ [] from rfl, inner,
    isValue_struct hi.1 (by decide) (by decide)] at h
  rw [show ([0#8, 1#8, 0#8, 0#8] : Bytes) = [] ++ ([0#8] ++ ([1#8] ++ ([0#8, 0#8] ++ []))) from rfl, fields,
    isFields_cons (by simp [ZTy.WF]) (by decide) (by decide), fields,
    isFields_cons (by simp [ZTy.WF]) (by decide) (by decide)] at h
  obtain ⟨m, hm, ha⟩ := h.2.1
  simp only [Mem] at hm
  obtain ⟨bs, rfl, _, b, hb, hne⟩ := hm
  rw [agree_map] at ha
  subst ha
  simp at hb
  exact hne hb

/-- **C51 is false**: `Wrapping` aligns the address as well, and validation reads outside of the value. -/
theorem C51_violated_by_wrapping :
    loadSized 64 [0#8, 1#8, 0#8, 0#8, 0#8] wrapped 0 = .error .ub := by decide +kernel

/-- **C51 is false** of `load_at_unaligned` for structs with aligned fields. The `NonZeroU16` is at the
offsets 3 and 4 and zero. -/
theorem C51_violated_by_unaligned :
    loadUnaligned 64 [0#8, 0#8, 1#8, 0#8, 0#8] inner 1 = .ok [0#8, 1#8, 0#8, 0#8] ∧
    ¬ IsValue inner [0#8, 1#8, 0#8, 0#8] := by
  refine ⟨by decide +kernel, ?_⟩
  have hi := samples_wf.2.2.1
  intro h
  simp only [inner, ZTy.WF] at hi
  rw [show ([0#8, 1#8, 0#8, 0#8] : Bytes) = [0#8, 1#8, 0#8, 0#8] ++ [] from rfl, inner,
    isValue_struct hi.1 (by decide) (by decide)] at h
  rw [show ([0#8, 1#8, 0#8, 0#8] : Bytes) = [] ++ ([0#8] ++ ([1#8] ++ ([0#8, 0#8] ++ []))) from rfl, fields,
    isFields_cons (by simp [ZTy.WF]) (by decide) (by decide), fields,
    isFields_cons (by simp [ZTy.WF]) (by decide) (by decide)] at h
  obtain ⟨m, hm, ha⟩ := h.2.1
  simp only [Mem] at hm
  obtain ⟨bs, rfl, _, b, hb, hne⟩ := hm
  rw [agree_map] at ha
  subst ha
  simp at hb
  exact hne hb

/-- **C51 is false** of offsets close to the greatest one: the sum with the size is not checked, and panics
in debug builds. -/
theorem C51_violated_by_offset : loadSized 64 [0#8] u16 (2 ^ 64 - 1) = .error .panic := by decide +kernel

/-! ## C52: storing -/

section
variable [Host]

/-- **C52** (partial). Storing a value, from memory of which the padding may be uninitialised, writes its
bytes, and zeros where the padding is: all bytes of the result are initialised and depend only on the value.

Missing are the types without `StoreOk`, of which it is false (`C52_violated_*`). -/
theorem C52_store_partial {t : ZTy} {m : Memory} (hw : t.WF) (hok : t.StoreOk) (h : Mem t m) :
    storeUnaligned t m = .ok (m.map (fun o => some (o.getD 0#8))) := store_ok hw hok h

/-- **C52**. A type the `PADDED` of which is false has no padding, so that its bytes may be taken as they
are; for all types. -/
theorem C52_not_padded {t : ZTy} {m : Memory} (hw : t.WF) (hp : t.padded = false) (h : Mem t m) :
    ∃ bs : Bytes, m = bs.map some := by
  have := not_padded_full t m hw hp h
  refine ⟨m.map (·.getD 0#8), ?_⟩
  rw [List.map_map]
  exact this.symm

/-- **C52** (partial). What has been stored can be loaded, at any aligned address. -/
theorem C52_store_load_partial {t : ZTy} {m : Memory} (hw : t.WF) (hok : t.StoreOk) (hlo : t.LoadOk) (h : Mem t m)
    (hs : t.size < 2 ^ 64) :
    ∃ bs : Bytes, storeUnaligned t m = .ok (bs.map some) ∧ Agree m bs ∧
      ∀ base, base % 2 ^ t.lg = 0 → loadSized base bs t 0 = .ok bs := by
  have hag : Agree m (m.map (·.getD 0#8)) := by
    clear h
    induction m with
    | nil => exact .nil
    | cons o m ih => cases o with
      | none => exact .pad _ ih
      | some b => exact .byte _ ih
  refine ⟨m.map (·.getD 0#8), ?_, hag, ?_⟩
  · rw [store_ok hw hok h, zeroed, List.map_map]; rfl
  · intro base hb
    have hl : (m.map (·.getD 0#8)).length = t.size := by rw [List.length_map, mem_length t m hw h]
    refine ((loadSized_right hw hlo (by omega)).1 _).2 ⟨by omega, by simpa using hb, ?_, m, h, hag⟩
    rw [range, List.drop_zero, ← hl, List.take_length]

end

/-- The padding of the record, uninitialised, is filled with zeros. -/
example : storeUnaligned record ([some 5#8, none, none, none] ++ [some 1#8, some 0#8, some 0#8, some 0#8] ++
      [some 1#8, none, none, none]) =
    .ok (([5, 0, 0, 0, 1, 0, 0, 0, 1, 0, 0, 0].map (BitVec.ofNat 8)).map some) := by decide +kernel

/-- `#[repr(C, packed(2))] struct { a: u16, b: u8, c: [u8; 2] }`, the offsets are 0, 2 and 3, the size is 6. -/
def packed2' : ZTy := .struct (some 1) 0 (fields [u16, u8, .array u8 2])

/-- `#[repr(C, packed(2))] struct { a: u8, b: u8, c: u16, d: u8 }`, the offsets are 0, 1, 2 and 4. -/
def packed2'' : ZTy := .struct (some 1) 0 (fields [u8, u8, u16, u8])

/-- `#[repr(C)] struct { a: u8, #[zero_copy(ignore)] b: [u32; 0], c: u8 }`, the offsets are 0, 4 and 4. -/
def ignoring' : ZTy := .struct none 0 (.cons false u8 (.cons true (.array u32 0) (.cons false u8 .nil)))

/-- **C52 is false** for `packed(2)` structs: storing `{ a: 1, b: 2, c: [3, 4] }` replaces the 3 by a
zero, and leaves the padding at the end uninitialised. -/
theorem C52_violated_by_packed :
    packed2'.WF ∧ Mem packed2' [some 1#8, some 0#8, some 2#8, some 3#8, some 4#8, none] ∧
    storeUnaligned packed2' [some 1#8, some 0#8, some 2#8, some 3#8, some 4#8, none] =
      .ok [some 1#8, some 0#8, some 2#8, some 0#8, some 4#8, none] := by
  refine ⟨by simp [packed2', fields, ZTy.WF, ZFields.WF], ?_, by decide +kernel⟩
  simp only [packed2', Mem]
  refine ⟨[some 1#8, some 0#8, some 2#8, some 3#8, some 4#8], by decide, ?_⟩
  simp only [fields, MemFields, Mem]
  exact ⟨[some 1#8, some 0#8], [some 2#8, some 3#8, some 4#8], rfl, ⟨[1#8, 0#8], rfl, rfl⟩, [some 2#8],
    [some 3#8, some 4#8], rfl, ⟨[2#8], rfl, rfl⟩, [some 3#8, some 4#8], [], rfl,
    ⟨[[some 3#8], [some 4#8]], rfl, rfl, by
      intro p hp
      rcases List.mem_cons.1 hp with rfl | hp
      · exact ⟨[3#8], rfl, rfl⟩
      · rcases List.mem_cons.1 hp with rfl | hp
        · exact ⟨[4#8], rfl, rfl⟩
        · simp at hp⟩, rfl⟩

/-- **C52 is false** for `packed(2)` structs: in `Padder::remaining` the subtraction overflows, after which
memory is overwritten without end. -/
theorem C52_violated_by_underflow (a b c d e : Byte) :
    storeUnaligned packed2'' [some a, some b, some c, some d, some e, none] = .error .ub := by
  rfl

/-- **C52 is false** for structs with an ignored field of a greater alignment: the field after it is
replaced by zero. -/
theorem C52_violated_by_ignored :
    ignoring'.WF ∧ Mem ignoring' [some 1#8, none, none, none, some 2#8, none, none, none] ∧
    storeUnaligned ignoring' [some 1#8, none, none, none, some 2#8, none, none, none] =
      .ok [some 1#8, none, some 0#8, some 0#8, some 0#8, some 0#8, some 0#8, some 0#8] := by
  refine ⟨by simp [ignoring', ZTy.WF, ZFields.WF, ZTy.zeroSized], ?_, by decide +kernel⟩
  simp only [ignoring', Mem]
  refine ⟨[some 1#8, none, none, none, some 2#8], by decide, ?_⟩
  simp only [MemFields, Mem]
  exact ⟨[some 1#8], [none, none, none, some 2#8], rfl, ⟨[1#8], rfl, rfl⟩, [], [some 2#8], rfl,
    ⟨[], rfl, rfl, by simp⟩, [some 2#8], [], rfl, ⟨[2#8], rfl, rfl⟩, rfl⟩

end Musli.Zero.LayoutProps
