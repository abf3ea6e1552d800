import Verif.Spec.Reads
/-!
# Readers
-/
namespace Musli

theorem Mem.length_slice (m : Mem) (p : BitVec 64) (n : Nat) : (m.slice p n).length = n := by
  induction n generalizing p with
  | zero => rfl
  | succ n ih => simp [Mem.slice, ih]

theorem Mem.slice_add (m : Mem) (p : BitVec 64) (a b : Nat) :
    m.slice p (a + b) = m.slice p a ++ m.slice (p + BitVec.ofNat 64 a) b := by
  induction a generalizing p with
  | zero => simp [Mem.slice]
  | succ a ih =>
    rw [Nat.succ_add, Mem.slice, Mem.slice, ih, List.cons_append]
    congr 3
    apply BitVec.eq_of_toNat_eq
    simp [BitVec.toNat_add, BitVec.toNat_ofNat]
    omega

namespace Rd

/-- `step` returns what the reader `&[u8]` over `abs` returns. -/
def Faithful {σ} (step : Impl σ) (abs : σ → Bytes) (inv : σ → Prop) : Prop :=
  ∀ op (st : St σ) (k : Nat), inv st.rd →
    (step op st).1 = (Slice.step op ⟨abs st.rd, k⟩).1 ∧
    abs (step op st).2.rd = (Slice.step op ⟨abs st.rd, k⟩).2.rd ∧
    inv (step op st).2.rd

theorem faithful_slice : Faithful Slice.step id (fun _ => True) := by
  intro op st k _
  cases op <;> simp only [Slice.step, Slice.take, id] <;> (repeat' split) <;>
    simp_all

theorem Faithful.run {σ} {step : Impl σ} {abs inv} (h : Faithful step abs inv) (ops : List Op)
    (st : St σ) (k : Nat) (hi : inv st.rd) :
    (Rd.run step ops st).1 = (Rd.run Slice.step ops ⟨abs st.rd, k⟩).1 ∧
    abs (Rd.run step ops st).2.rd = (Rd.run Slice.step ops ⟨abs st.rd, k⟩).2.rd ∧
    inv (Rd.run step ops st).2.rd := by
  induction ops generalizing st k with
  | nil => exact ⟨rfl, rfl, hi⟩
  | cons op ops ih =>
    obtain ⟨h1, h2, h3⟩ := h op st k hi
    have := ih (step op st).2 (Slice.step op ⟨abs st.rd, k⟩).2.mark h3
    rw [h2] at this
    simp only [Rd.run]
    rw [h1]
    exact ⟨by rw [this.1], this.2.1, this.2.2⟩

/-! ## `SliceReader` -/

/-- The bytes between the pointers. -/
def Ptr.Range.bytes (m : Mem) (r : Ptr.Range) : Bytes := m.slice r.start (r.stop.toNat - r.start.toNat)

theorem Ptr.boundsCheckAdd_spec (r : Ptr.Range) (hr : r.start ≤ r.stop) (n : BitVec 64) :
    (r.stop.toNat - r.start.toNat < n.toNat → Ptr.boundsCheckAdd r n = none) ∧
    (n.toNat ≤ r.stop.toNat - r.start.toNat → Ptr.boundsCheckAdd r n = some (r.start + n) ∧
      (r.start + n).toNat = r.start.toNat + n.toNat) := by
  have h1 := r.start.isLt
  have h2 := r.stop.isLt
  have h3 := n.isLt
  rw [BitVec.le_def] at hr
  have hadd : (r.start + n).toNat = (r.start.toNat + n.toNat) % 2 ^ 64 := BitVec.toNat_add _ _
  unfold Ptr.boundsCheckAdd
  constructor
  · intro h
    rw [if_pos]
    rw [GT.gt, BitVec.lt_def, BitVec.lt_def, hadd]
    by_cases ho : r.start.toNat + n.toNat < 2 ^ 64
    · rw [Nat.mod_eq_of_lt ho]; omega
    · right
      rw [Nat.mod_eq_sub_mod (by omega), Nat.mod_eq_of_lt (by omega)]; omega
  · intro h
    rw [Nat.mod_eq_of_lt (by omega)] at hadd
    rw [if_neg]
    · exact ⟨rfl, hadd⟩
    · rw [GT.gt, BitVec.lt_def, BitVec.lt_def, hadd]; omega

theorem Ptr.take_spec (m : Mem) (n : BitVec 64) (adv : Nat) (out : Bytes → Out) (st : St Ptr.Range)
    (k : Nat) (hr : st.rd.start ≤ st.rd.stop) :
    (Ptr.take m n adv out st).1 = (Slice.take n out ⟨st.rd.bytes m, k⟩).1 ∧
    (Ptr.take m n adv out st).2.rd.bytes m = (Slice.take n out ⟨st.rd.bytes m, k⟩).2.rd ∧
    (Ptr.take m n adv out st).2.rd.start ≤ (Ptr.take m n adv out st).2.rd.stop := by
  obtain ⟨h1, h2⟩ := Ptr.boundsCheckAdd_spec st.rd hr n
  have hlen : (st.rd.bytes m).length = st.rd.stop.toNat - st.rd.start.toNat := Mem.length_slice _ _ _
  unfold Ptr.take Slice.take
  by_cases hn : n.toNat ≤ st.rd.stop.toNat - st.rd.start.toNat
  · obtain ⟨h3, h4⟩ := h2 hn
    rw [h3, if_neg (by rw [hlen]; omega)]
    have hs : st.rd.bytes m = m.slice st.rd.start n.toNat ++
        m.slice (st.rd.start + n) (st.rd.stop.toNat - (st.rd.start + n).toNat) := by
      unfold Ptr.Range.bytes
      have hadd := Mem.slice_add m st.rd.start n.toNat (st.rd.stop.toNat - (st.rd.start + n).toNat)
      rw [BitVec.ofNat_toNat, BitVec.setWidth_eq] at hadd
      rw [← hadd, h4]
      congr 1
      omega
    have hl := Mem.length_slice m st.rd.start n.toNat
    refine ⟨?_, ?_, ?_⟩
    · show out _ = out _
      rw [hs, List.take_left' hl]
    · show m.slice _ _ = _
      rw [hs, List.drop_left' hl]
    · show st.rd.start + n ≤ st.rd.stop
      rw [BitVec.le_def, h4]
      rw [BitVec.le_def] at hr
      omega
  · rw [h1 (by omega), if_pos (by rw [hlen]; omega)]
    exact ⟨rfl, rfl, hr⟩

theorem Ptr.bytes_eq_nil (m : Mem) (r : Ptr.Range) (hr : r.start ≤ r.stop) :
    r.bytes m = [] ↔ r.start = r.stop := by
  rw [← List.length_eq_zero_iff, Ptr.Range.bytes, Mem.length_slice]
  rw [BitVec.le_def] at hr
  constructor
  · intro h; exact BitVec.eq_of_toNat_eq (by omega)
  · intro h; rw [h]; omega

theorem faithful_ptr (m : Mem) :
    Faithful (Ptr.step m) (Ptr.Range.bytes m) (fun r => r.start ≤ r.stop) := by
  intro op st k hr
  cases op with
  | skip n => exact Ptr.take_spec m n _ _ st k hr
  | read n => exact Ptr.take_spec m n _ _ st k hr
  | readBytes n => exact Ptr.take_spec m n _ _ st k hr
  | readUninit n => exact Ptr.take_spec m n _ _ st k hr
  | readArray n => exact Ptr.take_spec m n _ _ st k hr
  | readByte =>
    obtain ⟨h1, h2, h3⟩ := Ptr.take_spec m 1 2 Ptr.first st k hr
    have he : (Slice.take 1 Ptr.first ⟨st.rd.bytes m, k⟩) = Slice.step .readByte ⟨st.rd.bytes m, k⟩ := by
      simp only [Slice.take, Slice.step]
      generalize st.rd.bytes m = l
      cases l <;> simp [Ptr.first]
    rw [he] at h1 h2
    exact ⟨h1, h2, h3⟩
  | peek =>
    simp only [Ptr.step, Slice.step]
    by_cases h : st.rd.start = st.rd.stop
    · rw [if_pos h, (Ptr.bytes_eq_nil m _ hr).mpr h]
      exact ⟨rfl, by first | exact (Ptr.bytes_eq_nil m _ hr).mpr h | rfl, hr⟩
    · rw [if_neg h]
      refine ⟨?_, rfl, hr⟩
      have : st.rd.bytes m ≠ [] := fun h' => h ((Ptr.bytes_eq_nil m _ hr).mp h')
      show Out.peeked _ = Out.peeked _
      unfold Ptr.Range.bytes at *
      generalize st.rd.stop.toNat - st.rd.start.toNat = j at *
      cases j with
      | zero => exact absurd rfl this
      | succ j => rfl
  | isEof =>
    refine ⟨?_, rfl, hr⟩
    simp only [Ptr.step, Slice.step]
    congr 1
    rw [Bool.eq_iff_iff, beq_iff_eq, List.isEmpty_iff, Ptr.bytes_eq_nil m _ hr]

/-! ## `Limit` -/

/-- The effect of a successful or failing sized operation on the slice reader. -/
theorem Slice.size_lt {op : Op} {st : St Bytes} (h : op.size ≤ st.rd.length) :
    (Slice.step op st).2.rd = st.rd.drop op.size := by
  cases op <;> simp only [Slice.step, Slice.take, Op.size] at * <;>
    first
    | rw [if_neg (by omega)]
    | (cases hs : st.rd <;> simp_all)
    | rfl

theorem Slice.take_take (n : BitVec 64) (out : Bytes → Out) (l : Bytes) (k j : Nat)
    (hn : n.toNat ≤ j) (hj : j ≤ l.length) :
    (Slice.take n out ⟨l, k⟩).1 = (Slice.take n out ⟨l.take j, k⟩).1 ∧
    (Slice.take n out ⟨l, k⟩).2.rd.take (j - n.toNat) = (Slice.take n out ⟨l.take j, k⟩).2.rd ∧
    (Slice.take n out ⟨l, k⟩).2.rd.length = l.length - n.toNat := by
  unfold Slice.take
  have hl : (l.take j).length = j := by rw [List.length_take]; omega
  simp only
  rw [if_neg (by omega), if_neg (by omega)]
  refine ⟨?_, ?_, ?_⟩
  · simp only [List.take_take, Nat.min_eq_left hn]
  · simp only [List.drop_take]
  · simp

/-- One checked operation of a limited reader with enough bytes behind it. -/
theorem Limit.checked_spec {σ} {s : Impl σ} {abs inv} (h : Faithful s abs inv) (n : BitVec 64)
    (op : Op) (_hop : op.size = n.toNat)
    (hs : ∀ l k j, n.toNat ≤ j → j ≤ l.length →
      (Slice.step op ⟨l, k⟩).1 = (Slice.step op ⟨l.take j, k⟩).1 ∧
      (Slice.step op ⟨l, k⟩).2.rd.take (j - n.toNat) = (Slice.step op ⟨l.take j, k⟩).2.rd ∧
      (Slice.step op ⟨l, k⟩).2.rd.length = l.length - n.toNat)
    (hf : ∀ l k, l.length < n.toNat → Slice.step op ⟨l, k⟩ = (.err, ⟨l, k⟩))
    (st : St (Limit.Lim σ)) (k : Nat) (hi : inv st.rd.reader)
    (hr : st.rd.remaining.toNat ≤ (abs st.rd.reader).length) :
    (Limit.checked s n op st).1 =
      (Slice.step op ⟨(abs st.rd.reader).take st.rd.remaining.toNat, k⟩).1 ∧
    (abs (Limit.checked s n op st).2.rd.reader).take (Limit.checked s n op st).2.rd.remaining.toNat =
      (Slice.step op ⟨(abs st.rd.reader).take st.rd.remaining.toNat, k⟩).2.rd ∧
    inv (Limit.checked s n op st).2.rd.reader ∧
    (Limit.checked s n op st).2.rd.remaining.toNat ≤
      (abs (Limit.checked s n op st).2.rd.reader).length := by
  unfold Limit.checked
  by_cases hn : n ≤ st.rd.remaining
  · rw [if_pos hn]
    rw [BitVec.le_def] at hn
    obtain ⟨h1, h2, h3⟩ := h op ⟨st.rd.reader, st.mark⟩ k hi
    obtain ⟨g1, g2, g3⟩ := hs (abs st.rd.reader) k st.rd.remaining.toNat hn hr
    have hsub : (st.rd.remaining - n).toNat = st.rd.remaining.toNat - n.toNat :=
      BitVec.toNat_sub_of_le (BitVec.le_def.mpr hn)
    simp only [Limit.inner, hsub]
    refine ⟨by rw [h1, g1], by rw [h2, g2], h3, by rw [h2, g3]; omega⟩
  · rw [if_neg hn]
    rw [BitVec.le_def] at hn
    rw [hf _ _ (by rw [List.length_take]; omega)]
    exact ⟨rfl, rfl, hi, hr⟩

theorem Slice.take_fail (n : BitVec 64) (out : Bytes → Out) (l : Bytes) (k : Nat)
    (h : l.length < n.toNat) : Slice.take n out ⟨l, k⟩ = (.err, ⟨l, k⟩) := by
  unfold Slice.take; rw [if_pos h]

theorem faithful_limit {σ} {s : Impl σ} {abs inv} (h : Faithful s abs inv) :
    Faithful (Limit.step s) (fun l : Limit.Lim σ => (abs l.reader).take l.remaining.toNat)
      (fun l => inv l.reader ∧ l.remaining.toNat ≤ (abs l.reader).length) := by
  intro op st k ⟨hi, hr⟩
  cases op with
  | skip n =>
    exact Limit.checked_spec h n (.skip n) rfl
      (fun l k j => Slice.take_take n (fun _ => .done) l k j)
      (fun l k => Slice.take_fail n (fun _ => .done) l k) st k hi hr
  | read n =>
    exact Limit.checked_spec h n (.read n) rfl (fun l k j => Slice.take_take n _ l k j)
      (fun l k => Slice.take_fail n _ l k) st k hi hr
  | readBytes n =>
    exact Limit.checked_spec h n (.readBytes n) rfl (fun l k j => Slice.take_take n _ l k j)
      (fun l k => Slice.take_fail n _ l k) st k hi hr
  | readUninit n =>
    exact Limit.checked_spec h n (.readUninit n) rfl (fun l k j => Slice.take_take n _ l k j)
      (fun l k => Slice.take_fail n _ l k) st k hi hr
  | readArray n =>
    exact Limit.checked_spec h n (.readArray n) rfl (fun l k j => Slice.take_take n _ l k j)
      (fun l k => Slice.take_fail n _ l k) st k hi hr
  | readByte =>
    refine Limit.checked_spec h 1 .readByte rfl (fun l k j h1 h2 => ?_) (fun l k h1 => ?_) st k hi hr
    · have h1 : 1 ≤ j := h1
      obtain ⟨j, rfl⟩ : ∃ i, j = i + 1 := ⟨j - 1, by omega⟩
      cases l with
      | nil => simp at h2
      | cons b l => exact ⟨rfl, rfl, rfl⟩
    · cases l with
      | nil => rfl
      | cons b l => simp at h1
  | peek =>
    simp only [Limit.step]
    obtain ⟨h1, h2, h3⟩ := h .peek ⟨st.rd.reader, st.mark⟩ k hi
    by_cases hz : st.rd.remaining > 0
    · rw [if_pos hz]
      have hz' : 0 < st.rd.remaining.toNat := hz
      simp only [Limit.inner, h1, h2]
      refine ⟨?_, rfl, h3, hr⟩
      simp only [Slice.step]
      rw [List.head?_take, if_neg (by omega)]
    · rw [if_neg hz]
      have hz' : st.rd.remaining.toNat = 0 := by
        rw [GT.gt, BitVec.lt_def] at hz
        simpa using hz
      refine ⟨?_, rfl, hi, hr⟩
      simp [Slice.step, hz']
  | isEof =>
    simp only [Limit.step]
    obtain ⟨h1, h2, h3⟩ := h .isEof ⟨st.rd.reader, st.mark⟩ k hi
    by_cases hz : st.rd.remaining = 0
    · rw [if_pos hz]
      refine ⟨?_, rfl, hi, hr⟩
      simp [Slice.step, hz]
    · rw [if_neg hz]
      have hz' : st.rd.remaining.toNat ≠ 0 := fun h' => hz (BitVec.eq_of_toNat_eq h')
      simp only [Limit.inner, h1, h2]
      refine ⟨?_, rfl, h3, hr⟩
      simp only [Slice.step]
      congr 1
      rw [Bool.eq_iff_iff, List.isEmpty_iff, List.isEmpty_iff, List.take_eq_nil_iff]
      constructor
      · intro h; exact .inr h
      · rintro (h | h)
        · exact absurd h hz'
        · exact h

/-! ## Safety of `Limit`, whatever is behind it -/

/-- Every step of the slice reader is allowed. -/
theorem Slice.allowed (s : Bytes) (p k : Nat) (hp : p ≤ s.length) (op : Op) :
    ∃ q, p ≤ q ∧ q ≤ s.length ∧ Allowed s p op (Slice.step op ⟨s.drop p, k⟩).1 q ∧
      (Slice.step op ⟨s.drop p, k⟩).2.rd = s.drop q ∧
      ((Slice.step op ⟨s.drop p, k⟩).1 ≠ .err → q = p + op.size) := by
  have htake : ∀ (n : BitVec 64) (out : Bytes → Out), op.size = n.toNat →
      (∀ b, out b = .done ∨ out b = .bytes b) →
      Slice.step op ⟨s.drop p, k⟩ = Slice.take n out ⟨s.drop p, k⟩ →
      ∃ q, p ≤ q ∧ q ≤ s.length ∧ Allowed s p op (Slice.step op ⟨s.drop p, k⟩).1 q ∧
        (Slice.step op ⟨s.drop p, k⟩).2.rd = s.drop q ∧
        ((Slice.step op ⟨s.drop p, k⟩).1 ≠ .err → q = p + op.size) := by
    intro n out hsz hout hst
    rw [hst]
    unfold Slice.take
    by_cases h : (s.drop p).length < n.toNat
    · simp only [if_pos h]
      exact ⟨p, Nat.le_refl _, hp, rfl, rfl, fun h => absurd rfl h⟩
    · simp only [if_neg h]
      rw [List.length_drop] at h
      refine ⟨p + n.toNat, by omega, by omega, ?_, by rw [List.drop_drop], fun _ => by rw [hsz]⟩
      rcases hout ((s.drop p).take n.toNat) with ho | ho <;> rw [ho]
      · exact ⟨by rw [hsz], by omega⟩
      · exact ⟨by rw [hsz], by omega, by rw [hsz]⟩
  cases op with
  | skip n => exact htake n _ rfl (fun _ => .inl rfl) rfl
  | read n => exact htake n _ rfl (fun _ => .inr rfl) rfl
  | readBytes n => exact htake n _ rfl (fun _ => .inr rfl) rfl
  | readUninit n => exact htake n _ rfl (fun _ => .inr rfl) rfl
  | readArray n => exact htake n _ rfl (fun _ => .inr rfl) rfl
  | readByte =>
    by_cases h : p < s.length
    · rw [List.drop_eq_getElem_cons h]
      exact ⟨p + 1, by omega, by omega, ⟨rfl, rfl, by simp [h]⟩, rfl, fun _ => rfl⟩
    · rw [List.drop_eq_nil_of_le (by omega)]
      exact ⟨p, Nat.le_refl _, hp, rfl, by rw [List.drop_eq_nil_of_le (by omega)]; rfl,
        fun h => absurd rfl h⟩
  | peek =>
    exact ⟨p, Nat.le_refl _, hp, ⟨rfl, .inr (by simp [List.head?_drop])⟩, rfl, fun _ => rfl⟩
  | isEof =>
    refine ⟨p, Nat.le_refl _, hp, ⟨rfl, fun h => ?_⟩, rfl, fun _ => rfl⟩
    have h : (s.drop p).isEmpty = false := h
    rw [List.isEmpty_eq_false_iff, ne_eq, List.drop_eq_nil_iff] at h
    omega

theorem Slice.reads (s : Bytes) (ops : List Op) (p k : Nat) (hp : p ≤ s.length) :
    ∃ q, q ≤ s.length ∧ Reads s p ops (run Slice.step ops ⟨s.drop p, k⟩).1 q ∧
      (run Slice.step ops ⟨s.drop p, k⟩).2.rd = s.drop q := by
  induction ops generalizing p k with
  | nil => exact ⟨p, hp, .nil p, rfl⟩
  | cons op ops ih =>
    obtain ⟨q, _, hq, ha, hd, _⟩ := Slice.allowed s p k hp op
    obtain ⟨r, hr, hR, hr2⟩ := ih q (Slice.step op ⟨s.drop p, k⟩).2.mark hq
    rw [← hd] at hR hr2
    exact ⟨r, hr, .cons ha hR, hr2⟩

/-- What is allowed of the whole is allowed of a part that contains it. -/
theorem Allowed.take {s : Bytes} {p n : Nat} {op : Op} {out : Out} {q : Nat}
    (h : Allowed s p op out q) (hq : out ≠ .err → p + op.size ≤ n)
    (hpeek : op = .peek ∨ op = .isEof → p < n) (hpq : out ≠ .err → q = p + op.size)
    (hkind : (∃ b, out = .peeked b) ∨ (∃ b, out = .eof b) → op = .peek ∨ op = .isEof) :
    Allowed (s.take n) p op out q := by
  cases out with
  | err => exact h
  | peeked b =>
    obtain ⟨h1, h2⟩ := h
    refine ⟨h1, ?_⟩
    rw [List.getElem?_take_of_lt (hpeek (hkind (.inl ⟨b, rfl⟩)))]
    exact h2
  | eof b =>
    obtain ⟨h1, h2⟩ := h
    refine ⟨h1, fun hb => ?_⟩
    have := h2 hb
    have := hpeek (hkind (.inr ⟨b, rfl⟩))
    rw [List.length_take]; omega
  | done =>
    obtain ⟨h1, h2⟩ := h
    have := hq (by simp)
    exact ⟨h1, by rw [List.length_take]; omega⟩
  | byte b =>
    obtain ⟨h1, h2, h3⟩ := h
    have := hq (by simp)
    exact ⟨h1, h2, by rw [List.getElem?_take_of_lt (by omega)]; exact h3⟩
  | bytes b =>
    obtain ⟨h1, h2, h3⟩ := h
    have := hq (by simp)
    refine ⟨h1, by rw [List.length_take]; omega, ?_⟩
    rw [List.drop_take, List.take_take, h3, Nat.min_eq_left (by omega)]

theorem Slice.out_kind (op : Op) (st : St Bytes) :
    (∃ b, (Slice.step op st).1 = .peeked b) ∨ (∃ b, (Slice.step op st).1 = .eof b) →
    op = .peek ∨ op = .isEof := by
  cases op <;> simp only [Slice.step, Slice.take] <;> (repeat' split) <;> simp

theorem Limit.reads {σ} {s : Impl σ} {abs inv} (h : Faithful s abs inv) (l : Bytes) (n : Nat)
    (ops : List Op) (p : Nat) (st : St (Limit.Lim σ)) (hi : inv st.rd.reader) (hp : p ≤ l.length)
    (ha : abs st.rd.reader = l.drop p) (hr : p + st.rd.remaining.toNat ≤ n) :
    ∃ q, q ≤ l.length ∧ Reads (l.take n) p ops (run (Limit.step s) ops st).1 q ∧
      abs (run (Limit.step s) ops st).2.rd.reader = l.drop q := by
  induction ops generalizing p st with
  | nil => exact ⟨p, hp, .nil p, ha⟩
  | cons op ops ih =>
    suffices hstep : ∃ q, q ≤ l.length ∧ Allowed (l.take n) p op (Limit.step s op st).1 q ∧
        inv (Limit.step s op st).2.rd.reader ∧
        abs (Limit.step s op st).2.rd.reader = l.drop q ∧
        q + (Limit.step s op st).2.rd.remaining.toNat ≤ n by
      obtain ⟨q, h1, h2, h3, h4, h5⟩ := hstep
      obtain ⟨r, g1, g2, g3⟩ := ih q _ h3 h1 h4 h5
      exact ⟨r, g1, .cons h2 g2, g3⟩
    obtain ⟨h1, h2, h3⟩ := h op ⟨st.rd.reader, st.mark⟩ 0 hi
    simp only [ha] at h1 h2
    obtain ⟨q, hpq, hql, hal, hd, hne⟩ := Slice.allowed l p 0 hp op
    have hchk : ∀ m : BitVec 64, op.size = m.toNat → ¬(op = .peek ∨ op = .isEof) →
        Limit.step s op st = Limit.checked s m op st →
        ∃ q, q ≤ l.length ∧ Allowed (l.take n) p op (Limit.step s op st).1 q ∧
        inv (Limit.step s op st).2.rd.reader ∧
        abs (Limit.step s op st).2.rd.reader = l.drop q ∧
        q + (Limit.step s op st).2.rd.remaining.toNat ≤ n := by
      intro m hm hk hst
      rw [hst]
      unfold Limit.checked
      by_cases hle : m ≤ st.rd.remaining
      · rw [if_pos hle]
        rw [BitVec.le_def] at hle
        have hsub : (st.rd.remaining - m).toNat = st.rd.remaining.toNat - m.toNat :=
          BitVec.toNat_sub_of_le (BitVec.le_def.mpr hle)
        simp only [Limit.inner, h1, h2, hsub]
        refine ⟨q, hql, ?_, h3, hd, ?_⟩
        · exact hal.take (fun _ => by omega) (fun h => absurd h hk) hne (Slice.out_kind op _)
        · by_cases he : (Slice.step op ⟨l.drop p, 0⟩).1 = .err
          · rw [he] at hal
            have : q = p := hal
            omega
          · have := hne he; omega
      · rw [if_neg hle]
        exact ⟨p, hp, rfl, hi, ha, hr⟩
    cases op with
    | skip m => exact hchk m rfl (by simp) rfl
    | read m => exact hchk m rfl (by simp) rfl
    | readBytes m => exact hchk m rfl (by simp) rfl
    | readUninit m => exact hchk m rfl (by simp) rfl
    | readArray m => exact hchk m rfl (by simp) rfl
    | readByte => exact hchk 1 rfl (by simp) rfl
    | peek =>
      simp only [Limit.step]
      by_cases hz : st.rd.remaining > 0
      · rw [if_pos hz]
        have hz' : 0 < st.rd.remaining.toNat := hz
        simp only [Limit.inner, h1, h2]
        have hqp : q = p := by
          have := hne (by simp [Slice.step])
          simpa [Op.size] using this
        refine ⟨q, hql, hal.take (fun _ => by simp [Op.size]; omega) (fun _ => by omega) hne
          (Slice.out_kind _ _), h3, hd, by omega⟩
      · rw [if_neg hz]
        exact ⟨p, hp, ⟨rfl, .inl rfl⟩, hi, ha, hr⟩
    | isEof =>
      simp only [Limit.step]
      by_cases hz : st.rd.remaining = 0
      · rw [if_pos hz]
        exact ⟨p, hp, ⟨rfl, fun h => by simp at h⟩, hi, ha, hr⟩
      · rw [if_neg hz]
        have hz' : st.rd.remaining.toNat ≠ 0 := fun h' => hz (BitVec.eq_of_toNat_eq h')
        simp only [Limit.inner, h1, h2]
        have hqp : q = p := by
          have := hne (by simp [Slice.step])
          simpa [Op.size] using this
        refine ⟨q, hql, hal.take (fun _ => by simp [Op.size]; omega) (fun _ => by omega) hne
          (Slice.out_kind _ _), h3, hd, by omega⟩

end Rd
end Musli
