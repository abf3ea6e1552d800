import Verif.Proofs.Writer
/-!
# C23, C24, C35, C36: readers, limits, writers, marks
-/
namespace Musli
open Rd

/-! ## C23: limited readers -/

/-- A limited reader over the slice `s`. -/
def limitOf (s : Bytes) (n : BitVec 64) : St (Limit.Lim Bytes) := ⟨⟨n, s⟩, 0⟩

/-- **C23.** Whatever operations are run on a reader limited to `n` bytes, also after
errors, they return only bytes of `s.take n`, in order, and the underlying reader is advanced
by exactly what was consumed. -/
theorem C23_never_beyond_limit (s : Bytes) (n : BitVec 64) (ops : List Op) :
    ∃ q, q ≤ s.length ∧
      Reads (s.take n.toNat) 0 ops (run (Limit.step Slice.step) ops (limitOf s n)).1 q ∧
      (run (Limit.step Slice.step) ops (limitOf s n)).2.rd.reader = s.drop q :=
  Limit.reads faithful_slice s n.toNat ops 0 (limitOf s n) trivial (Nat.zero_le _) rfl
    (by simp [limitOf])

/-- **C23.** If there are `n` bytes, it returns exactly what a reader over those `n` bytes
returns. -/
theorem C23_limit_exact (s : Bytes) (n : BitVec 64) (hn : n.toNat ≤ s.length) (ops : List Op) :
    (run (Limit.step Slice.step) ops (limitOf s n)).1 = (run Slice.step ops ⟨s.take n.toNat, 0⟩).1 :=
  ((faithful_limit faithful_slice).run ops (limitOf s n) 0 ⟨trivial, hn⟩).1

/-- **C23.** Limits nest: a limit of a limit is the smaller limit. -/
theorem C23_nested (s : Bytes) (n k : BitVec 64) (hn : n.toNat ≤ s.length) (hk : k ≤ n)
    (ops : List Op) :
    (run (Limit.step (Limit.step Slice.step)) ops ⟨⟨k, ⟨n, s⟩⟩, 0⟩).1 =
      (run Slice.step ops ⟨s.take k.toNat, 0⟩).1 := by
  have hk' := BitVec.le_def.mp hk
  have h := ((faithful_limit (faithful_limit faithful_slice)).run ops ⟨⟨k, ⟨n, s⟩⟩, 0⟩ 0
    ⟨⟨trivial, hn⟩, by simp only [id, List.length_take]; omega⟩).1
  simp only [id, List.take_take, Nat.min_eq_left hk'] at h
  exact h

/-- **C23.** The same for the pointer based reader: nothing outside of the first `n` bytes of the
slice is read. -/
theorem C23_never_beyond_limit_ptr (m : Mem) (r : Ptr.Range) (hr : r.start ≤ r.stop) (n : BitVec 64)
    (ops : List Op) :
    ∃ q, q ≤ (r.bytes m).length ∧
      Reads ((r.bytes m).take n.toNat) 0 ops (run (Limit.step (Ptr.step m)) ops ⟨⟨n, r⟩, 0⟩).1 q ∧
      (run (Limit.step (Ptr.step m)) ops ⟨⟨n, r⟩, 0⟩).2.rd.reader.bytes m = (r.bytes m).drop q :=
  Limit.reads (faithful_ptr m) (r.bytes m) n.toNat ops 0 ⟨⟨n, r⟩, 0⟩ hr (Nat.zero_le _) rfl (by simp)

example : (run (Limit.step Slice.step) [.readByte, .read 1, .peek, .readByte, .isEof]
    (limitOf [1, 2, 3, 4] 2)).1 = [.byte 1, .bytes [2], .peeked none, .err, .eof true] := by decide
example : (3 : BitVec 64).toNat ≤ [1#8, 2#8, 3#8].length ∧ (2 : BitVec 64) ≤ 3 := by decide

/-- An observation: if the limit exceeds what is there, a failing read uses up the limit although
nothing was read, so that a later read of bytes that are there fails. This is why
`C23_limit_exact` needs its hypothesis. -/
theorem C23_failed_read_consumes_limit :
    (run (Limit.step Slice.step) [.read 9, .read 2] (limitOf [1, 2, 3] 10)).1 = [.err, .err] ∧
    (run Slice.step [.read 9, .read 2] ⟨[1#8, 2#8, 3#8].take 10, 0⟩).1 = [.err, .bytes [1, 2]] := by
  decide

/-! ## C35: `SliceReader` -/

/-- **C35.** `SliceReader` returns what `&[u8]` returns, for all operations and all sizes, even if
`start + n` overflows; so it never reads outside of its slice. -/
theorem C35_slice_reader (m : Mem) (r : Ptr.Range) (hr : r.start ≤ r.stop) (ops : List Op) :
    (run (Ptr.step m) ops ⟨r, 0⟩).1 = (run Slice.step ops ⟨r.bytes m, 0⟩).1 ∧
    (run (Ptr.step m) ops ⟨r, 0⟩).2.rd.bytes m = (run Slice.step ops ⟨r.bytes m, 0⟩).2.rd :=
  let h := (faithful_ptr m).run ops ⟨r, 0⟩ 0 hr
  ⟨h.1, h.2.1⟩

/-- **C35.** The slice reader itself returns consecutive parts of its input. -/
theorem C35_reads_in_order (s : Bytes) (ops : List Op) :
    ∃ q, q ≤ s.length ∧ Reads s 0 ops (run Slice.step ops ⟨s, 0⟩).1 q ∧
      (run Slice.step ops ⟨s, 0⟩).2.rd = s.drop q := by
  simpa using Slice.reads s ops 0 0 (Nat.zero_le _)

example : (run (Ptr.step fun a => a.setWidth 8) [.readByte, .skip (-1), .readArray 2]
    ⟨⟨0xFFFFFFFFFFFFFFF0, 0xFFFFFFFFFFFFFFF4⟩, 0⟩).1 = [.byte 0xF0, .err, .bytes [0xF1, 0xF2]] := by
  decide

/-! ## C36: marks -/

/-- The bytes consumed by one operation of the slice reader are added to the mark. -/
theorem Rd.Slice.mark (op : Op) (st : St Bytes) :
    (Slice.step op st).2.mark + (Slice.step op st).2.rd.length = st.mark + st.rd.length := by
  cases op <;> simp only [Slice.step, Slice.take] <;> (repeat' split) <;>
    simp_all [List.length_drop] <;> omega

/-- **C36 (partial).** Reading from `&[u8]`: the mark in the context is the number of bytes
consumed. Missing: `SliceReader`, for which it is false. -/
theorem C36_mark_slice_partial (s : Bytes) (ops : List Op) :
    (run Slice.step ops ⟨s, 0⟩).2.mark = s.length - (run Slice.step ops ⟨s, 0⟩).2.rd.length := by
  suffices h : ∀ st : St Bytes, (run Slice.step ops st).2.mark + (run Slice.step ops st).2.rd.length =
      st.mark + st.rd.length by
    have := h ⟨s, 0⟩
    simp only at this
    omega
  induction ops with
  | nil => intro st; rfl
  | cons op ops ih => intro st; rw [run, ih, Rd.Slice.mark]

/-- **C36**: the full statement, for the pointer based reader. -/
def C36Full : Prop := ∀ (m : Mem) (r : Ptr.Range) (ops : List Op), r.start ≤ r.stop →
  (run (Ptr.step m) ops ⟨r, 0⟩).2.mark =
    (r.bytes m).length - ((run (Ptr.step m) ops ⟨r, 0⟩).2.rd.bytes m).length

/-- **C36** is false: reading a byte with `SliceReader` advances the mark by two. -/
theorem C36_violated_slice_reader :
    (run (Ptr.step fun _ => 0) [.readByte] ⟨⟨0, 4⟩, 0⟩).2 = ⟨⟨1, 4⟩, 2⟩ := by decide

@[inherit_doc C36Full]
theorem C36_full_statement_false : ¬C36Full := by
  intro h
  have := h (fun _ => 0) ⟨0, 4⟩ [.readByte] (by decide)
  revert this
  decide

/-! ## C24: writers -/

open Wr in
/-- **C24.** `FixedBytes<N>` is a buffer of `N` bytes: every write is appended entirely or refused
without effect, and refused exactly if it does not fit (`Wr.bounded`). -/
theorem C24_fixed_bytes (data : Bytes) (ops : List Wr.Op) :
    (Wr.run fixedStep ops ⟨⟨data, 0⟩, 0⟩).1 = (bounded data.length ops []).1 ∧
    (Wr.run fixedStep ops ⟨⟨data, 0⟩, 0⟩).2.wr.asSlice = (bounded data.length ops []).2 := by
  obtain ⟨h1, h2, _⟩ := fixed_run ops ⟨⟨data, 0⟩, 0⟩ (Nat.zero_le _)
  exact ⟨h1, h2⟩

open Wr in
/-- **C24.** `SliceMutWriter` is such a buffer, too, and changes nothing outside of the slice. -/
theorem C24_slice_mut_writer (m : Mem) (start stop : BitVec 64) (hs : start ≤ stop)
    (ops : List Wr.Op) (hf : Fit ops) :
    let r := Wr.run sliceStep ops ⟨⟨m, start, stop⟩, 0⟩
    let b := bounded (stop.toNat - start.toNat) ops []
    r.1 = b.1 ∧ r.2.wr.mem.slice start b.2.length = b.2 ∧
      r.2.wr.remaining = stop.toNat - start.toNat - b.2.length ∧
      ∀ a, a < start ∨ stop ≤ a → r.2.wr.mem a = m a := by
  have hw : written start ⟨m, start, stop⟩ = [] := by simp [written, Mem.slice]
  obtain ⟨h1, h2, h3, h4, h5, h6⟩ := slice_run start ops hf ⟨⟨m, start, stop⟩, 0⟩
    (BitVec.le_def.mpr (Nat.le_refl _)) hs
  simp only [hw] at h1 h2 h3 h4 h5 h6
  have hl : (bounded (stop.toNat - start.toNat) ops []).2.length =
      (Wr.run sliceStep ops ⟨⟨m, start, stop⟩, 0⟩).2.wr.start.toNat - start.toNat := by
    rw [← h2]; exact Mem.length_slice _ _ _
  refine ⟨h1, ?_, ?_, h6⟩
  · rw [hl, ← h2]; rfl
  · rw [hl]
    simp only [SliceMut.remaining, h3]
    rw [BitVec.le_def] at h4 h5
    omega

open Wr in
/-- **C24.** In a buffer of bounded size all writes succeed exactly if they fit
together; it then holds what a `Vec` would hold. -/
theorem C24_success_iff_fits (cap : Nat) (ops : List Wr.Op) :
    ((∀ r ∈ (bounded cap ops []).1, r = true) ↔ (Wr.run vecStep ops ⟨[], 0⟩).2.wr.length ≤ cap) ∧
    ((Wr.run vecStep ops ⟨[], 0⟩).2.wr.length ≤ cap →
      (bounded cap ops []).2 = (Wr.run vecStep ops ⟨[], 0⟩).2.wr) := by
  have hv : ∀ (ops : List Wr.Op) (st : Wr.St Bytes),
      (Wr.run vecStep ops st).2.wr = st.wr ++ payload ops := by
    intro ops
    induction ops with
    | nil => intro st; simp [Wr.run, payload]
    | cons op ops ih =>
      intro st
      rw [Wr.run, ih, payload_cons, ← List.append_assoc]
      cases op <;> rfl
  have := bounded_all cap ops [] (Nat.zero_le _)
  rw [hv]
  simpa using this

open Wr in
/-- **C24.** `to_slice`: succeeds exactly if the slice is at least as long as what
`to_vec` returns; the result is the length, and the bytes are at the start of the slice. -/
theorem C24_to_slice (m : Mem) (start : BitVec 64) (len : Nat) (hlen : start.toNat + len < 2 ^ 64)
    (ops : List Wr.Op) (hf : Fit ops) :
    ((payload ops).length ≤ len →
      (toSlice m start len ops).1 = some (payload ops).length ∧
      (toSlice m start len ops).2.slice start (payload ops).length = payload ops) ∧
    (len < (payload ops).length → (toSlice m start len ops).1 = none) := by
  have hstop : (start + BitVec.ofNat 64 len).toNat = start.toNat + len := by
    rw [BitVec.toNat_add, BitVec.toNat_ofNat]; omega
  have hcap : (start + BitVec.ofNat 64 len).toNat - start.toNat = len := by omega
  obtain ⟨h1, h2, h3, _⟩ := C24_slice_mut_writer m start (start + BitVec.ofNat 64 len)
    (by rw [BitVec.le_def]; omega) ops hf
  rw [hcap] at h1 h2 h3
  obtain ⟨b1, b2⟩ := bounded_all len ops [] (Nat.zero_le _)
  simp only [List.length_nil, Nat.zero_add, List.nil_append] at b1 b2
  unfold toSlice
  constructor
  · intro h
    rw [runAll_run _ _ _ (by rw [h1]; exact b1.mpr h)]
    rw [b2 h] at h2 h3
    refine ⟨?_, h2⟩
    simp only
    rw [h3]
    congr 1
    omega
  · intro h
    have := runAll_fail sliceStep ops ⟨⟨m, start, start + BitVec.ofNat 64 len⟩, 0⟩
      (by rw [h1, b1]; omega)
    cases hr : runAll sliceStep ops ⟨⟨m, start, start + BitVec.ofNat 64 len⟩, 0⟩ with
    | mk b st =>
      rw [hr] at this
      subst this
      rfl

section
open Wr

example : (Wr.run fixedStep [.byte 1, .bytes [2, 3, 4], .bytes [5, 6]] ⟨⟨[0, 0, 0, 0], 0⟩, 0⟩).1 =
    [true, true, false] := by decide
example : Fit [.byte 1, .bytes [2, 3]] := by
  intro op h; simp at h; rcases h with h | h <;> subst h <;> decide
example : (toSlice (fun _ => 0) 16 4 [.byte 1, .bytes [2, 3]]).1 = some 3 ∧
    (toSlice (fun _ => 0) 16 2 [.byte 1, .bytes [2, 3]]).1 = none := by decide

/-- **C36 (partial).** Writing to a `Vec` and to `FixedBytes`: the mark is the number of bytes
written. Missing: `SliceMutWriter` and `BufWriter`, which do not advance it. -/
theorem C36_mark_fixed_partial (data : Bytes) (ops : List Wr.Op) :
    (Wr.run fixedStep ops ⟨⟨data, 0⟩, 0⟩).2.mark =
      (Wr.run fixedStep ops ⟨⟨data, 0⟩, 0⟩).2.wr.asSlice.length := by
  obtain ⟨_, _, h⟩ := fixed_run ops ⟨⟨data, 0⟩, 0⟩ (Nat.zero_le _)
  simpa [Fixed.asSlice] using h

@[inherit_doc C36_mark_fixed_partial]
theorem C36_mark_vec_partial (ops : List Wr.Op) :
    (Wr.run vecStep ops ⟨[], 0⟩).2.mark = (Wr.run vecStep ops ⟨[], 0⟩).2.wr.length := by
  suffices h : ∀ (ops : List Wr.Op) (st : Wr.St Bytes), st.mark = st.wr.length →
      (Wr.run vecStep ops st).2.mark = (Wr.run vecStep ops st).2.wr.length from h ops _ rfl
  intro ops
  induction ops with
  | nil => intro st h; exact h
  | cons op ops ih =>
    intro st h
    rw [Wr.run]
    apply ih
    cases op <;> simp [vecStep, h]

end
end Musli
