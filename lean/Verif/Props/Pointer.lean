import Verif.Proofs.Pointer
import Verif.Props.Samples
/-!
# C113: `usize` and `isize` between machines with pointers of 32 and 64 bits

`P` is the machine which writes, `Q` the one which reads; `h1` and `h2` are their byte orders.
-/
namespace Musli
open Ptr

variable {h1 h2 : Host} {o : Options}

/-- **C113.** With pointers of 64 bits this is the model all the other theorems are about. -/
theorem C113_model_w64 [Host] (o : Options) (m : Mode) :
    encUsize .w64 o m = (m.fmt o).encPrim .usize ∧ decUsize .w64 o m = (m.fmt o).decPrim .usize ∧
    encIsize .w64 o m = (m.fmt o).encPrim .isize ∧ decIsize .w64 o m = (m.fmt o).decPrim .isize := by
  have t : ∀ {w : Nat}, w ≤ 64 → ∀ v : BitVec w, Ptr.w64.tryFrom v = pure (v.setWidth 64) := by
    intro w hw v
    have := Nat.pow_le_pow_right (n := 2) (by omega) hw
    exact if_pos (Nat.lt_of_lt_of_le v.isLt this)
  have d : Ptr.w64.decodeUsize o = Int'.decodeUsize o := by
    unfold Ptr.decodeUsize Int'.decodeUsize
    cases Opt.length o <;> dsimp only
    · rfl
    all_goals rw [show (fun v => Ptr.w64.tryFrom v) = _ from funext (t (by decide))]; rfl
  have w : Ptr.w64.wireDec o = Wire.decUsize o := by
    unfold Ptr.wireDec Wire.decUsize
    cases Opt.length o <;> dsimp only
    · rfl
    all_goals rw [show (fun v => Ptr.w64.tryFrom v) = _ from funext (t (by decide))]; rfl
  cases m
  · exact ⟨rfl, d, rfl, d⟩
  · exact ⟨rfl, d, rfl, d⟩
  · exact ⟨rfl, w, rfl, w⟩
  · exact ⟨rfl, rfl, rfl, rfl⟩

/-- **C113 (partial).** A `usize` which exists on the machine that reads it is read as the same number, in every
format, with all options, whatever the widths of pointers and byte orders, and nothing else is consumed. Missing:
numbers which do not exist there, `C113_violated_usize`. -/
theorem C113_usize_partial (P Q : Ptr) (m : Mode) (v : BitVec P.bits) {bs : Bytes}
    (h : @encUsize h1 P o m v = .ok bs) (hv : v.toNat < 2 ^ Q.bits) (rest : Bytes) :
    ∃ u : BitVec Q.bits, @decUsize h2 Q o m (bs ++ rest) = .ok (u, rest) ∧ u.toNat = v.toNat :=
  ⟨_, (usize_outcome P Q m v h rest).1 (.inl hv), by rw [BitVec.toNat_ofNat, Nat.mod_eq_of_lt hv]⟩

/-- **C113 (partial).** A `usize` which does not exist on the machine that reads it is an error if lengths have
fixed width or the number has more than 35 bits. -/
theorem C113_usize_too_large_partial (P Q : Ptr) (m : Mode) (v : BitVec P.bits) {bs : Bytes}
    (h : @encUsize h1 P o m v = .ok bs) (hv : 2 ^ Q.bits ≤ v.toNat)
    (hb : (m ≠ .descriptive ∧ Opt.length o ≠ .variable) ∨ 2 ^ 35 ≤ v.toNat) (rest : Bytes) :
    ∃ e, @decUsize h2 Q o m (bs ++ rest) = .error e := by
  refine (usize_outcome P Q m v h rest).2 hv ?_
  intro hvar
  rcases hb with ⟨hm, ho⟩ | hb
  · unfold isVar at hvar
    cases m <;> simp_all
  · cases Q
    · exact hb
    · exact absurd (Nat.lt_of_lt_of_le v.isLt (by cases P <;> decide)) (Nat.not_lt.2 hv)

/-- **C113 (violated).** Numbers of 33 to 35 bits are accepted on machines of 32 bits if they have variable
length, and lose their upper bits. -/
theorem C113_violated_usize (P : Ptr) (m : Mode) (hm : m = .descriptive ∨ Opt.length o = .variable)
    (v : BitVec P.bits) {bs : Bytes} (h : @encUsize h1 P o m v = .ok bs) (hv : v.toNat < 2 ^ 35) (rest : Bytes) :
    @decUsize h2 .w32 o m (bs ++ rest) = .ok (BitVec.ofNat 32 v.toNat, rest) := by
  refine (usize_outcome P .w32 m v h rest).1 (.inr ⟨?_, hv⟩)
  unfold isVar
  rcases hm with rfl | hm
  · rfl
  · rw [hm]; cases m <;> rfl

/-- For instance `2^32 + 7` is read as 7, in all formats. -/
example : @encUsize ⟨.little⟩ .w64 Sample.varOpts .storage (BitVec.ofNat 64 (2 ^ 32 + 7)) =
      .ok [0x87, 0x80, 0x80, 0x80, 0x10] ∧
    @decUsize ⟨.little⟩ .w32 Sample.varOpts .storage [0x87, 0x80, 0x80, 0x80, 0x10] = .ok (7#32, []) := by decide

/-- With lengths of eight bytes it is an error. -/
example : @encUsize ⟨.little⟩ .w64 Sample.fixedBig .wire (BitVec.ofNat 64 (2 ^ 32 + 7)) =
      .ok [0x50, 0, 0, 0, 1, 0, 0, 0, 7] ∧
    @decUsize ⟨.big⟩ .w32 Sample.fixedBig .wire [0x50, 0, 0, 0, 1, 0, 0, 0, 7] = .error .overflow := by decide

/-- `v` as a signed number exists on `Q`. -/
def Ptr.HasInt (Q : Ptr) (v : Int) : Prop := -2 ^ (Q.bits - 1) ≤ v ∧ v < 2 ^ (Q.bits - 1)

/-- **C113 (partial).** In descriptive an `isize` which exists on the machine that reads it is read as the same
number. -/
theorem C113_isize_descriptive_partial (P Q : Ptr) (v : BitVec P.bits) {bs : Bytes}
    (h : @encIsize h1 P o .descriptive v = .ok bs) (hv : Q.HasInt v.toInt) (rest : Bytes) :
    ∃ u : BitVec Q.bits, @decIsize h2 Q o .descriptive (bs ++ rest) = .ok (u, rest) ∧ u.toInt = v.toInt := by
  have hP := zigzag_toInt (Nat.le_trans (by decide) P.bits_ge) v
  have hz : (ZigZag.encode (BitVec.ofInt Q.bits v.toInt)).toNat = (ZigZag.encode v).toNat := by
    have hQ := zigzag_toInt (Nat.le_trans (by decide) Q.bits_ge) (BitVec.ofInt Q.bits v.toInt)
    have he : (BitVec.ofInt Q.bits v.toInt).toInt = v.toInt := by
      rw [BitVec.toInt_ofInt]
      obtain ⟨h1, h2⟩ := hv
      cases Q
      · simp only [Ptr.bits] at h1 h2 ⊢
        exact Int.bmod_eq_of_le (by omega) (by omega)
      · simp only [Ptr.bits] at h1 h2 ⊢
        exact Int.bmod_eq_of_le (by omega) (by omega)
    rw [he] at hQ
    omega
  refine ⟨BitVec.ofInt Q.bits v.toInt, ?_, ?_⟩
  · have hlt : (ZigZag.encode v).toNat < 2 ^ Q.bits := by rw [← hz]; exact BitVec.isLt _
    have := (desc_signed P Q v h rest).1
      (Nat.lt_of_lt_of_le hlt (Nat.pow_le_pow_right (by omega) Q.groups_ge))
    rw [show @decIsize h2 Q o .descriptive = Desc.decTypedSigned Q.bits from rfl, this]
    congr 2
    rw [← hz, BitVec.ofNat_toNat, BitVec.setWidth_eq,
      ZigZag.decode_encode (Nat.le_trans (by decide) Q.bits_ge)]
  · rw [BitVec.toInt_ofInt]
    obtain ⟨h1, h2⟩ := hv
    cases Q
    · simp only [Ptr.bits] at h1 h2 ⊢
      exact Int.bmod_eq_of_le (by omega) (by omega)
    · simp only [Ptr.bits] at h1 h2 ⊢
      exact Int.bmod_eq_of_le (by omega) (by omega)

/-- **C113 (partial).** In descriptive an `isize` of more than 35 bits is an error on machines of 32 bits: from
`2^34` on, and below `-2^34`. -/
theorem C113_isize_descriptive_too_large_partial (P : Ptr) (v : BitVec P.bits) {bs : Bytes}
    (h : @encIsize h1 P o .descriptive v = .ok bs) (hv : 2 ^ 34 ≤ v.toInt ∨ v.toInt < -2 ^ 34) (rest : Bytes) :
    ∃ e, @decIsize h2 .w32 o .descriptive (bs ++ rest) = .error e := by
  have hP := zigzag_toInt (Nat.le_trans (by decide) P.bits_ge) v
  refine (desc_signed P .w32 v h rest).2 ?_
  rw [show Ptr.w32.groups = 35 from rfl]
  rcases hv with hv | hv
  · rw [if_neg (by omega)] at hP; omega
  · rw [if_pos (by omega)] at hP; omega

/-- **C113 (violated).** In between it is read as another number: `2^32` as 0. -/
theorem C113_violated_isize_descriptive :
    @encIsize ⟨.little⟩ .w64 Sample.varOpts .descriptive (BitVec.ofNat 64 (2 ^ 32)) =
      .ok [0x58, 0x80, 0x80, 0x80, 0x80, 0x20] ∧
    @decIsize ⟨.little⟩ .w32 Sample.varOpts .descriptive [0x58, 0x80, 0x80, 0x80, 0x80, 0x20] = .ok (0#32, []) := by
  decide

/-- `isize` values which are not negative are the same `usize`. -/
theorem Ptr.toNat_of_nonneg (P : Ptr) (v : BitVec P.bits) (hv : 0 ≤ v.toInt) :
    (v.toNat : Int) = v.toInt ∧ v.toNat < 2 ^ (P.bits - 1) := by
  have e : v.toInt = if 2 * v.toNat < 2 ^ P.bits then (v.toNat : Int) else (v.toNat : Int) - ((2 ^ P.bits : Nat) : Int) :=
    BitVec.toInt_eq_toNat_cond v
  have hp := ZigZag.pow_pred (Nat.le_trans (by decide) P.bits_ge)
  have := v.isLt
  split at e <;> omega

/-- **C113 (partial).** In storage and wire an `isize` which is not negative and exists on the machine that reads
it is read as the same number. -/
theorem C113_isize_partial (P Q : Ptr) (m : Mode) (v : BitVec P.bits) {bs : Bytes}
    (h : @encIsize h1 P o m v = .ok bs) (h0 : 0 ≤ v.toInt) (hv : Q.HasInt v.toInt) (rest : Bytes) :
    ∃ u : BitVec Q.bits, @decIsize h2 Q o m (bs ++ rest) = .ok (u, rest) ∧ u.toInt = v.toInt := by
  by_cases hm : m = .descriptive
  · subst hm
    exact C113_isize_descriptive_partial P Q v h hv rest
  obtain ⟨e, -⟩ := Ptr.toNat_of_nonneg P v h0
  have hp := ZigZag.pow_pred (Nat.le_trans (by decide) Q.bits_ge)
  have hq : v.toNat < 2 ^ (Q.bits - 1) := by
    have := hv.2
    have c : ((2 ^ (Q.bits - 1) : Nat) : Int) = 2 ^ (Q.bits - 1) := by norm_cast
    omega
  refine ⟨_, (isize_outcome P Q m hm v h rest).1 (.inl (by omega)), ?_⟩
  have e' : (BitVec.ofNat Q.bits v.toNat).toInt = if 2 * (BitVec.ofNat Q.bits v.toNat).toNat < 2 ^ Q.bits then
      ((BitVec.ofNat Q.bits v.toNat).toNat : Int)
      else ((BitVec.ofNat Q.bits v.toNat).toNat : Int) - ((2 ^ Q.bits : Nat) : Int) := BitVec.toInt_eq_toNat_cond _
  rw [e', BitVec.toNat_ofNat, Nat.mod_eq_of_lt (by omega), if_pos (by omega), e]

/-- **C113 (partial).** Between machines with the same width of pointers every `isize` is preserved. -/
theorem C113_isize_same_width_partial (P : Ptr) (m : Mode) (v : BitVec P.bits) {bs : Bytes}
    (h : @encIsize h1 P o m v = .ok bs) (rest : Bytes) : @decIsize h2 P o m (bs ++ rest) = .ok (v, rest) := by
  by_cases hm : m = .descriptive
  · subst hm
    have := (desc_signed P P v h rest).1
      (Nat.lt_of_lt_of_le (BitVec.isLt _) (Nat.pow_le_pow_right (by omega) P.groups_ge))
    rw [show @decIsize h2 P o .descriptive = Desc.decTypedSigned P.bits from rfl, this, BitVec.ofNat_toNat,
      BitVec.setWidth_eq, ZigZag.decode_encode (Nat.le_trans (by decide) P.bits_ge)]
  · rw [(isize_outcome P P m hm v h rest).1 (.inl v.isLt), BitVec.ofNat_toNat, BitVec.setWidth_eq]

/-- **C113 (violated).** In storage and wire a negative `isize` written with 32 bits is a large positive number
for machines with 64 bits. -/
theorem C113_violated_isize_wider (m : Mode) (hm : m ≠ .descriptive) (v : BitVec 32) {bs : Bytes}
    (h : @encIsize h1 .w32 o m v = .ok bs) (hv : v.toInt < 0) (rest : Bytes) :
    ∃ u : BitVec 64, @decIsize h2 .w64 o m (bs ++ rest) = .ok (u, rest) ∧ u.toInt = 2 ^ 32 + v.toInt := by
  have hlt := v.isLt
  refine ⟨_, (isize_outcome .w32 .w64 m hm v h rest).1
    (.inl (Nat.lt_of_lt_of_le hlt (by decide))), ?_⟩
  have e : v.toInt = if 2 * v.toNat < 2 ^ 32 then (v.toNat : Int) else (v.toNat : Int) - ((2 ^ 32 : Nat) : Int) :=
    BitVec.toInt_eq_toNat_cond v
  have e' : (BitVec.ofNat 64 v.toNat).toInt = if 2 * (BitVec.ofNat 64 v.toNat).toNat < 2 ^ 64 then
      ((BitVec.ofNat 64 v.toNat).toNat : Int)
      else ((BitVec.ofNat 64 v.toNat).toNat : Int) - ((2 ^ 64 : Nat) : Int) := BitVec.toInt_eq_toNat_cond _
  show (BitVec.ofNat 64 v.toNat).toInt = _
  rw [e', BitVec.toNat_ofNat, Nat.mod_eq_of_lt (by omega), if_pos (by omega)]
  split at e <;> omega

/-- **C113 (violated).** And a negative `isize` written with 64 bits is never readable with 32 bits, though it may
well exist there. -/
theorem C113_violated_isize_narrower (m : Mode) (hm : m ≠ .descriptive) (v : BitVec 64) {bs : Bytes}
    (h : @encIsize h1 .w64 o m v = .ok bs) (hv : v.toInt < 0) (rest : Bytes) :
    ∃ e, @decIsize h2 .w32 o m (bs ++ rest) = .error e := by
  have e : v.toInt = if 2 * v.toNat < 2 ^ 64 then (v.toNat : Int) else (v.toNat : Int) - ((2 ^ 64 : Nat) : Int) :=
    BitVec.toInt_eq_toNat_cond v
  have hn : 2 ^ 63 ≤ v.toNat := by split at e <;> omega
  refine (isize_outcome .w64 .w32 m hm v h rest).2 ?_ ?_
  · exact Nat.le_trans (by decide) hn
  · intro _
    exact Nat.le_trans (by decide) hn

/-- −1 written with 32 bits and read with 64 bits. -/
example : @encIsize ⟨.little⟩ .w32 Sample.varOpts .storage (-1) = .ok [0xFF, 0xFF, 0xFF, 0xFF, 0x0F] ∧
    @decIsize ⟨.little⟩ .w64 Sample.varOpts .storage [0xFF, 0xFF, 0xFF, 0xFF, 0x0F] =
      .ok (BitVec.ofNat 64 4294967295, []) ∧ Ptr.w64.HasInt (-1) := by
  refine ⟨by decide, by decide, ?_⟩
  unfold Ptr.HasInt
  decide

/-- −300 in descriptive. -/
example : @encIsize ⟨.little⟩ .w64 Sample.varOpts .descriptive (BitVec.ofInt 64 (-300)) = .ok [0x58, 0xD7, 0x04] ∧
    @decIsize ⟨.big⟩ .w32 Sample.varOpts .descriptive [0x58, 0xD7, 0x04] = .ok (BitVec.ofInt 32 (-300), []) := by
  decide

/-- **C113.** The full statement: a number is read as itself if it exists on the machine which reads it, and is an
error otherwise. -/
def C113Full : Prop := ∀ (h1 h2 : Host) (P Q : Ptr) (o : Options) (m : Mode) (v : BitVec P.bits) (bs rest : Bytes),
  (@encUsize h1 P o m v = .ok bs →
    if v.toNat < 2 ^ Q.bits then
      ∃ u : BitVec Q.bits, @decUsize h2 Q o m (bs ++ rest) = .ok (u, rest) ∧ u.toNat = v.toNat
    else ∃ e, @decUsize h2 Q o m (bs ++ rest) = .error e) ∧
  (@encIsize h1 P o m v = .ok bs →
    (Q.HasInt v.toInt →
      ∃ u : BitVec Q.bits, @decIsize h2 Q o m (bs ++ rest) = .ok (u, rest) ∧ u.toInt = v.toInt) ∧
    (¬Q.HasInt v.toInt → ∃ e, @decIsize h2 Q o m (bs ++ rest) = .error e))

@[inherit_doc C113Full]
theorem C113_full_statement_false : ¬C113Full := by
  intro h
  obtain ⟨u, hu, -⟩ := ((h ⟨.little⟩ ⟨.little⟩ .w64 .w32 Sample.varOpts .storage (BitVec.ofInt 64 (-1))
    [0xFF, 0xFF, 0xFF, 0xFF, 0xFF, 0xFF, 0xFF, 0xFF, 0xFF, 0x01] []).2 (by decide)).1 (by unfold Ptr.HasInt; decide)
  obtain ⟨e, he⟩ := C113_violated_isize_narrower (h1 := ⟨.little⟩) (h2 := ⟨.little⟩) (o := Sample.varOpts)
    .storage (by decide) (BitVec.ofInt 64 (-1))
    (bs := [0xFF, 0xFF, 0xFF, 0xFF, 0xFF, 0xFF, 0xFF, 0xFF, 0xFF, 0x01]) (by decide) (by decide) []
  rw [hu] at he
  cases he

end Musli
