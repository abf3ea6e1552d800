import Verif.Spec.Writes
import Verif.Proofs.Reader
/-!
# Writers
-/
namespace Musli.Wr

theorem payload_cons (op : Op) (ops : List Op) : payload (op :: ops) = op.payload ++ payload ops := by
  simp [payload]

/-- All writes succeed exactly if they fit together; then the buffer holds all of them. -/
theorem bounded_all (cap : Nat) (ops : List Op) (buf : Bytes) (hb : buf.length ≤ cap) :
    ((∀ r ∈ (bounded cap ops buf).1, r = true) ↔ buf.length + (payload ops).length ≤ cap) ∧
    (buf.length + (payload ops).length ≤ cap → (bounded cap ops buf).2 = buf ++ payload ops) := by
  induction ops generalizing buf with
  | nil => simp [bounded, payload, hb]
  | cons op ops ih =>
    rw [payload_cons, List.length_append, bounded]
    split
    · rename_i h
      obtain ⟨h1, h2⟩ := ih (buf ++ op.payload) (by rw [List.length_append]; exact h)
      rw [List.length_append] at h1 h2
      constructor
      · simp only [List.mem_cons, forall_eq_or_imp, true_and]
        rw [h1]; omega
      · intro h'
        simp only
        rw [h2 (by omega), List.append_assoc]
    · rename_i h
      refine ⟨?_, fun h' => by omega⟩
      simp only [List.mem_cons, forall_eq_or_imp, Bool.false_eq_true, false_and, false_iff]
      omega

theorem overwrite_take (l b : Bytes) (i : Nat) (h : i + b.length ≤ l.length) :
    (overwrite l i b).length = l.length ∧ (overwrite l i b).take (i + b.length) = l.take i ++ b := by
  unfold overwrite
  have h1 : (l.take i ++ b).length = i + b.length := by
    rw [List.length_append, List.length_take]; omega
  constructor
  · rw [List.length_append, h1, List.length_drop]; omega
  · exact List.take_left' h1

theorem fixed_write (b : Bytes) (st : St Fixed) (hi : st.wr.init ≤ st.wr.data.length) :
    (st.wr.asSlice.length + b.length ≤ st.wr.data.length →
      (Fixed.writeBytes b st).1 = true ∧
      (Fixed.writeBytes b st).2.wr.asSlice = st.wr.asSlice ++ b ∧
      (Fixed.writeBytes b st).2.wr.data.length = st.wr.data.length ∧
      (Fixed.writeBytes b st).2.wr.init ≤ st.wr.data.length ∧
      (Fixed.writeBytes b st).2.mark = st.mark + b.length) ∧
    (¬st.wr.asSlice.length + b.length ≤ st.wr.data.length → Fixed.writeBytes b st = (false, st)) := by
  have hl : st.wr.asSlice.length = st.wr.init := by
    unfold Fixed.asSlice; rw [List.length_take]; omega
  rw [hl]
  unfold Fixed.writeBytes Fixed.extend
  constructor
  · intro h
    rw [if_neg (by omega)]
    obtain ⟨h1, h2⟩ := overwrite_take st.wr.data b st.wr.init h
    exact ⟨rfl, h2, h1, h, rfl⟩
  · intro h
    rw [if_pos (by omega)]

theorem fixedStep_eq (op : Op) (st : St Fixed) : fixedStep op st = Fixed.writeBytes op.payload st := by
  cases op <;> rfl

theorem fixed_run (ops : List Op) (st : St Fixed) (hi : st.wr.init ≤ st.wr.data.length) :
    (run fixedStep ops st).1 = (bounded st.wr.data.length ops st.wr.asSlice).1 ∧
    (run fixedStep ops st).2.wr.asSlice = (bounded st.wr.data.length ops st.wr.asSlice).2 ∧
    (run fixedStep ops st).2.mark + st.wr.asSlice.length =
      st.mark + (run fixedStep ops st).2.wr.asSlice.length := by
  induction ops generalizing st with
  | nil => exact ⟨rfl, rfl, rfl⟩
  | cons op ops ih =>
    obtain ⟨h1, h2⟩ := fixed_write op.payload st hi
    simp only [run, bounded, fixedStep_eq]
    split
    · rename_i h
      obtain ⟨g1, g2, g3, g4, g5⟩ := h1 h
      obtain ⟨i1, i2, i3⟩ := ih (Fixed.writeBytes op.payload st).2 (by rw [g3]; exact g4)
      rw [g2, g3] at i1 i2
      rw [g2, g5, List.length_append] at i3
      exact ⟨by rw [g1, i1], i2, by omega⟩
    · rename_i h
      rw [h2 h]
      obtain ⟨i1, i2, i3⟩ := ih st hi
      exact ⟨by rw [i1], i2, i3⟩

/-! ## `SliceMutWriter` -/

theorem copy_other (m : Mem) (p : BitVec 64) (b : Bytes) (a : BitVec 64)
    (h : ∀ i, i < b.length → a ≠ p + BitVec.ofNat 64 i) : copy m p b a = m a := by
  induction b generalizing m p with
  | nil => rfl
  | cons x b ih =>
    rw [copy, ih]
    · have := h 0 (by simp)
      rw [if_neg]; intro he; apply this; simp [he]
    · intro i hi he
      apply h (i + 1) (by simpa using hi)
      rw [he, BitVec.ofNat_add, BitVec.add_assoc, BitVec.add_comm (BitVec.ofNat 64 i)]
      rfl

theorem slice_congr (m m' : Mem) (p : BitVec 64) (n : Nat)
    (h : ∀ i, i < n → m (p + BitVec.ofNat 64 i) = m' (p + BitVec.ofNat 64 i)) :
    m.slice p n = m'.slice p n := by
  induction n generalizing p with
  | zero => rfl
  | succ n ih =>
    rw [Mem.slice, Mem.slice, ih]
    · have := h 0 (by omega); simp at this; rw [this]
    · intro i hi
      have := h (i + 1) (by omega)
      rwa [BitVec.ofNat_add, BitVec.add_comm (BitVec.ofNat 64 i), ← BitVec.add_assoc] at this

theorem add_ofNat_inj {p : BitVec 64} {i j : Nat} (hi : i < 2 ^ 64) (hj : j < 2 ^ 64)
    (h : p + BitVec.ofNat 64 i = p + BitVec.ofNat 64 j) : i = j := by
  have := congrArg BitVec.toNat h
  have := p.isLt
  simp only [BitVec.toNat_add, BitVec.toNat_ofNat] at *
  omega

theorem copy_slice (m : Mem) (p : BitVec 64) (b : Bytes) (hb : b.length < 2 ^ 64) :
    (copy m p b).slice p b.length = b := by
  induction b generalizing m p with
  | nil => rfl
  | cons x b ih =>
    simp only [List.length_cons, Mem.slice, copy] at hb ⊢
    rw [ih _ _ (by omega), copy_other]
    · simp
    · intro i hi he
      have : (0 : Nat) = i + 1 := by
        apply add_ofNat_inj (p := p) (by omega) (by omega)
        rw [BitVec.ofNat_add, BitVec.add_comm (BitVec.ofNat 64 i), ← BitVec.add_assoc]
        simpa using he
      omega

theorem sliceStep_bytes (op : Op) (hf : op.payload.length < 2 ^ 64) (st : St SliceMut)
    (hs : st.wr.start ≤ st.wr.stop) :
    (op.payload.length ≤ st.wr.stop.toNat - st.wr.start.toNat →
      sliceStep op st = (true, ⟨⟨copy st.wr.mem st.wr.start op.payload,
        st.wr.start + BitVec.ofNat 64 op.payload.length, st.wr.stop⟩, st.mark⟩) ∧
      (st.wr.start + BitVec.ofNat 64 op.payload.length).toNat =
        st.wr.start.toNat + op.payload.length) ∧
    (¬op.payload.length ≤ st.wr.stop.toNat - st.wr.start.toNat → sliceStep op st = (false, st)) := by
  obtain ⟨h1, h2⟩ := Rd.Ptr.boundsCheckAdd_spec ⟨st.wr.start, st.wr.stop⟩ hs
    (BitVec.ofNat 64 op.payload.length)
  rw [BitVec.toNat_ofNat, Nat.mod_eq_of_lt hf] at h1 h2
  simp only [Rd.Ptr.boundsCheckAdd] at h1 h2
  cases op with
  | bytes b =>
    simp only [Op.payload] at *
    constructor
    · intro h
      obtain ⟨h3, h4⟩ := h2 h
      refine ⟨?_, h4⟩
      unfold sliceStep
      simp only
      by_cases h5 : st.wr.start + BitVec.ofNat 64 b.length > st.wr.stop ∨
          st.wr.start + BitVec.ofNat 64 b.length < st.wr.start
      · simp only [h5, if_true] at h3; cases h3
      · rw [if_neg h5]
    · intro h
      have h3 := h1 (by omega)
      unfold sliceStep
      simp only
      by_cases h5 : st.wr.start + BitVec.ofNat 64 b.length > st.wr.stop ∨
          st.wr.start + BitVec.ofNat 64 b.length < st.wr.start
      · rw [if_pos h5]
      · simp only [h5, if_false] at h3; cases h3
  | byte b =>
    simp only [Op.payload, List.length_cons, List.length_nil, Nat.zero_add] at *
    rw [BitVec.le_def] at hs
    unfold sliceStep
    constructor
    · intro h
      obtain ⟨_, h4⟩ := h2 h
      refine ⟨?_, h4⟩
      simp only
      rw [if_neg (fun he => by rw [he] at h; omega)]
      rfl
    · intro h
      simp only
      rw [if_pos (BitVec.eq_of_toNat_eq (by omega))]

/-- The bytes between `base` and the write pointer. -/
def written (base : BitVec 64) (s : SliceMut) : Bytes :=
  s.mem.slice base (s.start.toNat - base.toNat)

theorem bv_off (base p : BitVec 64) (h : base ≤ p) :
    base + BitVec.ofNat 64 (p.toNat - base.toNat) = p := by
  apply BitVec.eq_of_toNat_eq
  rw [BitVec.le_def] at h
  have := p.isLt
  rw [BitVec.toNat_add, BitVec.toNat_ofNat]
  omega

theorem slice_run (base : BitVec 64) (ops : List Op) (hf : Fit ops) (st : St SliceMut)
    (hb : base ≤ st.wr.start) (hs : st.wr.start ≤ st.wr.stop) :
    (run sliceStep ops st).1 =
      (bounded (st.wr.stop.toNat - base.toNat) ops (written base st.wr)).1 ∧
    written base (run sliceStep ops st).2.wr =
      (bounded (st.wr.stop.toNat - base.toNat) ops (written base st.wr)).2 ∧
    (run sliceStep ops st).2.wr.stop = st.wr.stop ∧
    (run sliceStep ops st).2.wr.start ≤ st.wr.stop ∧ base ≤ (run sliceStep ops st).2.wr.start ∧
    (∀ a, a < base ∨ st.wr.stop ≤ a → (run sliceStep ops st).2.wr.mem a = st.wr.mem a) := by
  induction ops generalizing st with
  | nil => exact ⟨rfl, rfl, rfl, hs, hb, fun _ _ => rfl⟩
  | cons op ops ih =>
    have hf1 := hf op (by simp)
    have hf2 : Fit ops := fun o ho => hf o (by simp [ho])
    obtain ⟨h1, h2⟩ := sliceStep_bytes op hf1 st hs
    have hlen : (written base st.wr).length = st.wr.start.toNat - base.toNat :=
      Mem.length_slice _ _ _
    have hb' := BitVec.le_def.mp hb
    have hs' := BitVec.le_def.mp hs
    simp only [run, bounded]
    split
    · rename_i h
      obtain ⟨g1, g2⟩ := h1 (by omega)
      have hle := st.wr.stop.isLt
      let st' : St SliceMut := ⟨⟨copy st.wr.mem st.wr.start op.payload,
        st.wr.start + BitVec.ofNat 64 op.payload.length, st.wr.stop⟩, st.mark⟩
      have hw : written base st'.wr = written base st.wr ++ op.payload := by
        show (copy st.wr.mem st.wr.start op.payload).slice base
          ((st.wr.start + BitVec.ofNat 64 op.payload.length).toNat - base.toNat) = _
        rw [g2, show st.wr.start.toNat + op.payload.length - base.toNat =
          (st.wr.start.toNat - base.toNat) + op.payload.length by omega, Mem.slice_add,
          bv_off base _ hb, copy_slice _ _ _ hf1]
        congr 1
        apply slice_congr
        intro i hi
        apply copy_other
        intro j hj he
        have he := congrArg BitVec.toNat he
        rw [BitVec.toNat_add, BitVec.toNat_add, BitVec.toNat_ofNat, BitVec.toNat_ofNat] at he
        omega
      obtain ⟨i1, i2, i3, i4, i5, i6⟩ := ih hf2 st'
        (by rw [BitVec.le_def]; show _ ≤ (st.wr.start + _).toNat; rw [g2]; omega)
        (by rw [BitVec.le_def]; show (st.wr.start + _).toNat ≤ st.wr.stop.toNat; rw [g2]; omega)
      rw [hw] at i1 i2
      rw [g1]
      refine ⟨by rw [i1], i2, i3, i4, i5, fun a ha => ?_⟩
      rw [i6 a ha]
      show copy st.wr.mem st.wr.start op.payload a = _
      apply copy_other
      intro i hi he
      have he := congrArg BitVec.toNat he
      rw [BitVec.toNat_add, BitVec.toNat_ofNat] at he
      rw [BitVec.lt_def, BitVec.le_def] at ha
      omega
    · rename_i h
      rw [h2 (by omega)]
      obtain ⟨i1, i2, i3⟩ := ih hf2 st hb hs
      exact ⟨by rw [i1], i2, i3⟩

theorem runAll_run {σ} (step : Impl σ) (ops : List Op) (st : St σ)
    (h : ∀ r ∈ (run step ops st).1, r = true) : runAll step ops st = (true, (run step ops st).2) := by
  induction ops generalizing st with
  | nil => rfl
  | cons op ops ih =>
    simp only [run, List.mem_cons, forall_eq_or_imp] at h
    simp only [run, runAll]
    have h1 := h.1
    cases hst : step op st with
    | mk b st' =>
      rw [hst] at h1
      simp only at h1
      subst h1
      simp only [hst] at h
      exact ih st' h.2

theorem runAll_fail {σ} (step : Impl σ) (ops : List Op) (st : St σ)
    (h : ¬∀ r ∈ (run step ops st).1, r = true) : (runAll step ops st).1 = false := by
  induction ops generalizing st with
  | nil => simp [run] at h
  | cons op ops ih =>
    simp only [run, List.mem_cons, forall_eq_or_imp] at h
    simp only [runAll]
    cases hst : step op st with
    | mk b st' =>
      rw [hst] at h
      cases b with
      | false => rfl
      | true => exact ih st' (by simpa using h)

end Musli.Wr
