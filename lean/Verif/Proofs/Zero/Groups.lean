import Verif.Proofs.Zero.Bits
/-!
# The three implementations of groups
-/
namespace Musli.Zero.Swiss
open Musli

/-- A control byte as it occurs in a table. -/
def IsCtrl (c : Byte) : Prop := isFull c = true ∨ c = empty

/-- What a table needs from a group. -/
structure Lawful (g : Group) : Prop where
  width_pow : ∃ k, g.width = 2 ^ k
  width_le : g.width ≤ 16
  complete : ∀ s b i, s.length = g.width → (∀ c ∈ s, IsCtrl c) → isFull b = true → s[i]? = some b →
    i ∈ g.matchByte s b
  sound : ∀ s b i, s.length = g.width → (∀ c ∈ s, IsCtrl c) → isFull b = true → i ∈ g.matchByte s b →
    ∃ c, s[i]? = some c ∧ isFull c = true
  any_empty : ∀ s, s.length = g.width → (∀ c ∈ s, IsCtrl c) → (g.anyEmpty s = true ↔ empty ∈ s)
  lowest_some : ∀ s i, s.length = g.width → (∀ c ∈ s, IsCtrl c) → g.lowestSpecial s = some i →
    s[i]? = some empty ∧ ∀ j, s[j]? = some empty → i ≤ j
  lowest_none : ∀ s, s.length = g.width → (∀ c ∈ s, IsCtrl c) → g.lowestSpecial s = none → empty ∉ s

theorem isFull_empty : isFull empty = false := by decide

theorem high_iff (c : Byte) (h : IsCtrl c) : (c &&& 0x80#8 != 0) = true ↔ c = empty := by
  rcases h with h | rfl
  · constructor
    · intro h'
      simp [isFull] at h
      simp [h] at h'
    · rintro rfl
      cases h
  · decide

theorem full_of_bit7 : ∀ c : Byte, c.getLsbD 7 = false → isFull c = true := by decide

theorem bit7_of_full : ∀ c : Byte, isFull c = true → c.getLsbD 7 = false := by decide

theorem mem_iff_some {s : Bytes} {c : Byte} : c ∈ s ↔ ∃ i : Nat, s[i]? = some c := List.mem_iff_getElem?

theorem sse2_iter (t : Nat) : (0xFFFF : Nat).testBit t = decide (t < 16) := by
  rw [show (0xFFFF : Nat) = 2 ^ 16 - 1 from rfl, Nat.testBit_two_pow_sub_one]

theorem pack_some {w one : Nat} {p : Byte → Bool} {s : Bytes} {t : Nat} (hw : 0 < w) (ho : one < 2 ^ w)
    (h : (pack w one p s).testBit t = true) : ∃ c, s[t / w]? = some c ∧ p c = true := by
  rw [testBit_pack w one hw ho, Bool.and_eq_true] at h
  cases hs : s[t / w]? with
  | none => rw [hs] at h; simp at h
  | some c => rw [hs] at h; exact ⟨c, rfl, h.1⟩

theorem pack_set {w one : Nat} {p : Byte → Bool} {s : Bytes} {i r : Nat} {c : Byte} (ho : one < 2 ^ w)
    (h : s[i]? = some c) (hc : p c = true) (hr : r < w) (hor : one.testBit r = true) :
    (pack w one p s).testBit (w * i + r) = true := by
  have hw : 0 < w := by omega
  rw [testBit_pack w one hw ho, Nat.mul_add_div hw, Nat.div_eq_of_lt hr, Nat.add_zero, h, Nat.mul_add_mod,
    Nat.mod_eq_of_lt hr, hor]
  simp [hc]

/-- `sse2` and `neon`. -/
theorem packed_lawful (w one k : Nat) (g : Group) (hw : 0 < w) (ho : one < 2 ^ w) (hr : ∃ r, r < w ∧ one.testBit r = true ∧
      ∀ i, i < g.width → k.testBit (w * i + r) = true) (hk : k < 2 ^ 64)
    (h1 : ∃ k, g.width = 2 ^ k) (h2 : g.width ≤ 16)
    (e1 : g.matchByte = fun s b => (Mask.mk (pack w one (· == b) s) w).toList k)
    (e2 : g.anyEmpty = fun s => (Mask.mk (pack w one (· == empty) s) w).any)
    (e3 : g.lowestSpecial = fun s => (Mask.mk (pack w one (fun c => c &&& 0x80#8 != 0) s) w).lowest) : Lawful g := by
  obtain ⟨r, hrw, hro, hrk⟩ := hr
  refine ⟨h1, h2, ?_, ?_, ?_, ?_, ?_⟩
  · intro s b i hl hc hb hs
    rw [e1]
    show i ∈ (Mask.mk (pack w one (· == b) s) w).toList k
    rw [mem_toList _ _ hk]
    have hi : i < s.length := (List.getElem?_eq_some_iff.1 hs).1
    refine ⟨w * i + r, pack_set ho hs (by simp) hrw hro, hrk i (by omega), ?_⟩
    show (w * i + r) / w = i
    rw [Nat.mul_add_div hw, Nat.div_eq_of_lt hrw, Nat.add_zero]
  · intro s b i hl hc hb hs
    rw [e1] at hs
    replace hs : i ∈ (Mask.mk (pack w one (· == b) s) w).toList k := hs
    rw [mem_toList _ _ hk] at hs
    obtain ⟨t, ht, -, rfl⟩ := hs
    obtain ⟨c, h3, h4⟩ := pack_some hw ho ht
    rw [beq_iff_eq] at h4
    subst h4
    exact ⟨c, h3, hb⟩
  · intro s hl hc
    rw [e2]
    show (Mask.mk (pack w one (· == empty) s) w).any = true ↔ _
    rw [mask_any]
    constructor
    · rintro ⟨t, ht⟩
      obtain ⟨c, h3, h4⟩ := pack_some hw ho ht
      rw [beq_iff_eq] at h4
      subst h4
      exact mem_iff_some.2 ⟨_, h3⟩
    · intro h
      obtain ⟨i, hi⟩ := mem_iff_some.1 h
      exact ⟨_, pack_set ho hi (by simp) hrw hro⟩
  · intro s i hl hc h
    rw [e3] at h
    obtain ⟨⟨t, ht, hti⟩, hmin⟩ := mask_lowest_some _ _ h
    obtain ⟨c, h3, h4⟩ := pack_some hw ho ht
    rw [high_iff c (hc c (mem_iff_some.2 ⟨_, h3⟩))] at h4
    subst h4
    refine ⟨?_, ?_⟩
    · rw [← hti]; exact h3
    · intro j hj
      have := hmin _ (pack_set (p := fun c => c &&& 0x80#8 != 0) ho hj (by decide) hrw hro)
      rw [show (Mask.mk (pack w one (fun c => c &&& 0x80#8 != 0) s) w).stride = w from rfl,
        Nat.mul_add_div hw, Nat.div_eq_of_lt hrw, Nat.add_zero] at this
      exact this
  · intro s hl hc h hmem
    rw [e3] at h
    obtain ⟨i, hi⟩ := mem_iff_some.1 hmem
    have := mask_lowest_none _ h (w * i + r)
    rw [show (Mask.mk (pack w one (fun c => c &&& 0x80#8 != 0) s) w).word = _ from rfl,
      pack_set (p := fun c => c &&& 0x80#8 != 0) ho hi (by decide) hrw hro] at this
    cases this

theorem sse2_lawful : Lawful sse2 :=
  packed_lawful 1 1 0xFFFF sse2 (by decide) (by decide)
    ⟨0, by decide, by decide, fun i hi => by
      rw [sse2_iter]
      have : i < 16 := hi
      simp; omega⟩ (by decide) ⟨4, rfl⟩ (by decide) rfl rfl rfl

theorem neon_lawful : Lawful neon :=
  packed_lawful 8 0xFF 0x8080808080808080 neon (by decide) (by decide)
    ⟨7, by decide, by decide, fun i hi => by
      have h : i < 8 := hi
      have : ∀ i, i < 8 → (0x8080808080808080 : Nat).testBit (8 * i + 7) = true := by decide
      exact this i h⟩ (by decide) ⟨3, rfl⟩ (by decide) rfl rfl rfl

/-! ## The generic group -/

theorem wordOf_lt : ∀ (s : Bytes), wordOf s < 256 ^ s.length
  | [] => by decide
  | b :: s => by
    have := wordOf_lt s
    have hb := b.isLt
    unfold wordOf
    rw [List.length_cons, Nat.pow_succ]
    omega

theorem getLsbD_readWord (big : Bool) (s : Bytes) (i r : Nat) (hi : i < 8) (hr : r < 8) :
    (readWord big s).getLsbD (8 * i + r) = (((if big then s.reverse else s)[i]?).getD 0).getLsbD r := by
  unfold readWord
  rw [BitVec.getLsbD_ofNat, testBit_wordOf]
  have e1 : (8 * i + r) / 8 = i := by omega
  have e2 : (8 * i + r) % 8 = r := by omega
  have e3 : 8 * i + r < 64 := by omega
  simp [e1, e2, e3]

theorem getLsbD_repeat (b : Byte) (i r : Nat) (hi : i < 8) (hr : r < 8) :
    (repeatByte b).getLsbD (8 * i + r) = b.getLsbD r := by
  unfold repeatByte
  rw [BitVec.getLsbD_ofNat, testBit_wordOf]
  have e1 : (8 * i + r) / 8 = i := by omega
  have e2 : (8 * i + r) % 8 = r := by omega
  have e3 : 8 * i + r < 64 := by omega
  rw [e1, e2, List.getElem?_replicate]
  simp [hi, e3]

theorem getLsbD_swap (w : BitVec 64) (i r : Nat) (hi : i < 8) (hr : r < 8) :
    (swapWord w).getLsbD (8 * i + r) = w.getLsbD (8 * (7 - i) + r) := by
  unfold swapWord
  rw [BitVec.getLsbD_ofNat, testBit_wordOf]
  have e1 : (8 * i + r) / 8 = i := by omega
  have e2 : (8 * i + r) % 8 = r := by omega
  have e3 : 8 * i + r < 64 := by omega
  rw [e1, e2, List.getElem?_map, List.getElem?_range hi]
  simp [e3, hr]

/-- A zero byte makes the byte of the difference have its highest bit set, whatever is borrowed. -/
theorem sub_bit (C : BitVec 64) (i : Nat) (hi : i < 8) (h : C.extractLsb' (8 * i) 8 = 0) :
    (C - repeatByte 0x01#8).getLsbD (8 * i + 7) = true := by
  have h1 : C.toNat / 2 ^ (8 * i) % 256 = 0 := by
    have := congrArg BitVec.toNat h
    rw [BitVec.extractLsb'_toNat, Nat.shiftRight_eq_div_pow] at this
    exact this
  have hR : (repeatByte 0x01#8).toNat = 0x0101010101010101 := by decide
  have hC := C.isLt
  rw [← BitVec.testBit_toNat, BitVec.toNat_sub, hR, Nat.testBit_eq_decide_div_mod_eq, decide_eq_true_eq]
  generalize C.toNat = c at *
  rcases (show i = 0 ∨ i = 1 ∨ i = 2 ∨ i = 3 ∨ i = 4 ∨ i = 5 ∨ i = 6 ∨ i = 7 by omega) with
    rfl | rfl | rfl | rfl | rfl | rfl | rfl | rfl <;> simp only [Nat.reduceMul, Nat.reduceAdd, Nat.reducePow] at * <;> omega

/-- What `match_byte` computes before it converts the byte order. -/
def matchWord (w : BitVec 64) (b : Byte) : BitVec 64 :=
  ((w ^^^ repeatByte b) - repeatByte 0x01#8) &&& ~~~(w ^^^ repeatByte b) &&& repeatByte 0x80#8

theorem byte_bit (w : BitVec 64) (i r : Nat) (hr : r < 8) :
    (w.extractLsb' (8 * i) 8).getLsbD r = w.getLsbD (8 * i + r) := by
  rw [BitVec.getLsbD_extractLsb']
  simp [hr]

theorem bit80 : ∀ r, r < 8 → ((0x80#8).getLsbD r = true ↔ r = 7) := by decide

theorem matchWord_sound (w : BitVec 64) (b : Byte) (i r : Nat) (hi : i < 8) (hr : r < 8)
    (h : (matchWord w b).getLsbD (8 * i + r) = true) :
    r = 7 ∧ (w.extractLsb' (8 * i) 8).getLsbD 7 = b.getLsbD 7 := by
  unfold matchWord at h
  rw [BitVec.getLsbD_and, BitVec.getLsbD_and, Bool.and_eq_true, Bool.and_eq_true, getLsbD_repeat _ _ _ hi hr,
    bit80 r hr, BitVec.getLsbD_not, BitVec.getLsbD_xor, getLsbD_repeat _ _ _ hi hr] at h
  obtain ⟨⟨-, h2⟩, rfl⟩ := h
  refine ⟨rfl, ?_⟩
  rw [byte_bit w i 7 (by decide)]
  revert h2
  cases w.getLsbD (8 * i + 7) <;> cases b.getLsbD 7 <;> simp

theorem matchWord_complete (w : BitVec 64) (b : Byte) (i : Nat) (hi : i < 8)
    (h : w.extractLsb' (8 * i) 8 = b) : (matchWord w b).getLsbD (8 * i + 7) = true := by
  unfold matchWord
  have hbits : ∀ r, r < 8 → (w ^^^ repeatByte b).getLsbD (8 * i + r) = false := by
    intro r hr
    rw [BitVec.getLsbD_xor, getLsbD_repeat _ _ _ hi hr, ← byte_bit w i r hr, h]
    simp
  have h0 : (w ^^^ repeatByte b).extractLsb' (8 * i) 8 = 0 := by
    apply BitVec.eq_of_getLsbD_eq
    intro r hr
    rw [byte_bit _ i r hr, hbits r hr]
    simp
  rw [BitVec.getLsbD_and, BitVec.getLsbD_and, sub_bit _ i hi h0, getLsbD_repeat _ _ _ hi (by decide),
    BitVec.getLsbD_not, hbits 7 (by decide)]
  have : 8 * i + 7 < 64 := by omega
  simp [this]

theorem readWord_byte (big : Bool) (s : Bytes) (j : Nat) (hj : j < 8) :
    (readWord big s).extractLsb' (8 * j) 8 = ((if big then s.reverse else s)[j]?).getD 0 := by
  apply BitVec.eq_of_getLsbD_eq
  intro r hr
  rw [byte_bit _ _ _ hr, getLsbD_readWord big s j r hj hr]

/-- Where a byte in memory is in the word. -/
def bytePos (big : Bool) (i : Nat) : Nat := if big then 7 - i else i

theorem toLe_bit (big : Bool) (w : BitVec 64) (i r : Nat) (hi : i < 8) (hr : r < 8) :
    (toLe big w).getLsbD (8 * i + r) = w.getLsbD (8 * bytePos big i + r) := by
  cases big with
  | false => rfl
  | true => exact getLsbD_swap w i r hi hr

theorem readWord_at (big : Bool) (s : Bytes) (hl : s.length = 8) (i : Nat) (hi : i < 8) :
    (readWord big s).extractLsb' (8 * bytePos big i) 8 = (s[i]?).getD 0 := by
  unfold bytePos
  cases big with
  | false => exact readWord_byte false s i hi
  | true =>
    simp only [if_true]
    rw [readWord_byte true s (7 - i) (by omega)]
    simp only [if_true]
    rw [List.getElem?_reverse (by omega)]
    congr 2
    omega

theorem bytePos_lt (big : Bool) (i : Nat) (hi : i < 8) : bytePos big i < 8 := by
  unfold bytePos; split <;> omega

theorem word_bit (w : BitVec 64) (t : Nat) (h : w.toNat.testBit t = true) :
    ∃ i r, i < 8 ∧ r < 8 ∧ t = 8 * i + r ∧ w.getLsbD (8 * i + r) = true := by
  rw [BitVec.testBit_toNat] at h
  have : t < 64 := BitVec.lt_of_getLsbD h
  refine ⟨t / 8, t % 8, by omega, by omega, by omega, ?_⟩
  rw [show 8 * (t / 8) + t % 8 = t by omega]
  exact h

theorem getD_some {s : Bytes} {i : Nat} (h : i < s.length) : s[i]? = some ((s[i]?).getD 0) := by
  rw [List.getElem?_eq_getElem h]; rfl

/-- Groups whose two other masks depend on the bytes one by one. -/
theorem generic_lawful (big : Bool) : Lawful (generic big) := by
  have hsp : ∀ s : Bytes, s.length = 8 → (∀ c ∈ s, IsCtrl c) → ∀ i r, i < 8 → r < 8 →
      ((genericSpecial big s).getLsbD (8 * i + r) = true ↔ r = 7 ∧ s[i]? = some empty) := by
    intro s hl hc i r hi hr
    unfold genericSpecial
    rw [toLe_bit _ _ _ _ hi hr, BitVec.getLsbD_and, getLsbD_repeat _ _ _ (bytePos_lt big i hi) hr,
      ← byte_bit _ _ _ hr, readWord_at big s hl i hi, Bool.and_eq_true, bit80 r hr, and_comm]
    have hs := getD_some (s := s) (i := i) (by omega)
    rcases hc _ (List.mem_iff_getElem?.2 ⟨_, hs⟩) with h | h
    · constructor
      · rintro ⟨rfl, h'⟩
        rw [bit7_of_full _ h] at h'
        cases h'
      · rintro ⟨rfl, h'⟩
        rw [h'] at h
        cases h
    · rw [h] at hs ⊢
      rw [hs]
      constructor
      · rintro ⟨rfl, -⟩; exact ⟨rfl, rfl⟩
      · rintro ⟨rfl, -⟩; exact ⟨rfl, by decide⟩
  have hem : ∀ s : Bytes, s.length = 8 → (∀ c ∈ s, IsCtrl c) → ∀ i r, i < 8 → r < 8 →
      ((genericEmpty big s).getLsbD (8 * i + r) = true ↔ r = 7 ∧ s[i]? = some empty) := by
    intro s hl hc i r hi hr
    unfold genericEmpty
    show (toLe big (readWord big s &&& readWord big s <<< 1 &&& repeatByte 0x80#8)).getLsbD (8 * i + r) = true ↔ _
    have hp := bytePos_lt big i hi
    rw [toLe_bit _ _ _ _ hi hr, BitVec.getLsbD_and, getLsbD_repeat _ _ _ hp hr, Bool.and_eq_true, bit80 r hr,
      and_comm]
    have hs := getD_some (s := s) (i := i) (by omega)
    constructor
    · rintro ⟨rfl, h'⟩
      refine ⟨rfl, ?_⟩
      rw [BitVec.getLsbD_and, Bool.and_eq_true, ← byte_bit _ _ _ hr, readWord_at big s hl i hi] at h'
      rcases hc _ (List.mem_iff_getElem?.2 ⟨_, hs⟩) with h | h
      · rw [bit7_of_full _ h] at h'
        cases h'.1
      · rw [hs, h]
    · rintro ⟨rfl, h⟩
      refine ⟨rfl, ?_⟩
      rw [BitVec.getLsbD_and, Bool.and_eq_true, BitVec.getLsbD_shiftLeft, ← byte_bit _ _ _ hr,
        show 8 * bytePos big i + 7 - 1 = 8 * bytePos big i + 6 from rfl, ← byte_bit _ _ 6 (by decide),
        readWord_at big s hl i hi, h]
      refine ⟨by decide, ?_⟩
      have : 8 * bytePos big i + 7 < 64 := by omega
      simp [this]
      decide
  refine ⟨⟨3, rfl⟩, by show 8 ≤ 16; decide, ?_, ?_, ?_, ?_, ?_⟩
  · intro s b i hl hc hb hs
    show i ∈ (Mask.mk (genericMatch big s b).toNat 8).toList (2 ^ 64 - 1)
    have hl : s.length = 8 := hl
    have hi : i < 8 := by have := (List.getElem?_eq_some_iff.1 hs).1; omega
    rw [mem_toList _ _ (by decide)]
    refine ⟨8 * i + 7, ?_, ?_, ?_⟩
    · show (genericMatch big s b).toNat.testBit _ = true
      rw [BitVec.testBit_toNat]
      show (toLe big (matchWord (readWord big s) b)).getLsbD (8 * i + 7) = true
      rw [toLe_bit _ _ _ _ hi (by decide)]
      apply matchWord_complete _ _ _ (bytePos_lt big i hi)
      rw [readWord_at big s hl i hi, hs]; rfl
    · rw [Nat.testBit_two_pow_sub_one, decide_eq_true_eq]; omega
    · show (8 * i + 7) / 8 = i; omega
  · intro s b i hl hc hb hs
    replace hs : i ∈ (Mask.mk (genericMatch big s b).toNat 8).toList (2 ^ 64 - 1) := hs
    have hl : s.length = 8 := hl
    rw [mem_toList _ _ (by decide)] at hs
    obtain ⟨t, ht, -, hti⟩ := hs
    replace hti : t / 8 = i := hti
    obtain ⟨i', r, hi, hr, rfl, hbit⟩ := word_bit _ _ ht
    have : i' = i := by omega
    subst this
    replace hbit : (toLe big (matchWord (readWord big s) b)).getLsbD (8 * i' + r) = true := hbit
    rw [toLe_bit _ _ _ _ hi hr] at hbit
    obtain ⟨rfl, h7⟩ := matchWord_sound _ _ _ _ (bytePos_lt big i' hi) hr hbit
    rw [readWord_at big s hl i' hi, bit7_of_full _ hb] at h7
    exact ⟨_, getD_some (by omega), full_of_bit7 _ h7⟩
  · intro s hl hc
    have hl : s.length = 8 := hl
    show (Mask.mk (genericEmpty big s).toNat 8).any = true ↔ _
    rw [mask_any]
    constructor
    · rintro ⟨t, ht⟩
      obtain ⟨i, r, hi, hr, rfl, hbit⟩ := word_bit _ _ ht
      exact List.mem_iff_getElem?.2 ⟨i, ((hem s hl hc i r hi hr).1 hbit).2⟩
    · intro h
      obtain ⟨i, hs⟩ := List.mem_iff_getElem?.1 h
      have hi : i < 8 := by have := (List.getElem?_eq_some_iff.1 hs).1; omega
      exact ⟨8 * i + 7, by
        show (genericEmpty big s).toNat.testBit _ = true
        rw [BitVec.testBit_toNat]
        exact (hem s hl hc i 7 hi (by decide)).2 ⟨rfl, hs⟩⟩
  · intro s i hl hc h
    have hl : s.length = 8 := hl
    replace h : (Mask.mk (genericSpecial big s).toNat 8).lowest = some i := h
    obtain ⟨⟨t, ht, hti⟩, hmin⟩ := mask_lowest_some _ _ h
    replace hti : t / 8 = i := hti
    obtain ⟨i', r, hi, hr, rfl, hbit⟩ := word_bit _ _ ht
    have : i' = i := by omega
    subst this
    refine ⟨((hsp s hl hc i' r hi hr).1 hbit).2, ?_⟩
    intro j hj
    have hj8 : j < 8 := by have := (List.getElem?_eq_some_iff.1 hj).1; omega
    have := hmin (8 * j + 7) (by
      show (genericSpecial big s).toNat.testBit _ = true
      rw [BitVec.testBit_toNat]
      exact (hsp s hl hc j 7 hj8 (by decide)).2 ⟨rfl, hj⟩)
    replace this : i' ≤ (8 * j + 7) / 8 := this
    omega
  · intro s hl hc h hmem
    have hl : s.length = 8 := hl
    replace h : (Mask.mk (genericSpecial big s).toNat 8).lowest = none := h
    obtain ⟨j, hj⟩ := List.mem_iff_getElem?.1 hmem
    have hj8 : j < 8 := by have := (List.getElem?_eq_some_iff.1 hj).1; omega
    have := mask_lowest_none _ h (8 * j + 7)
    replace this : (genericSpecial big s).toNat.testBit (8 * j + 7) = false := this
    rw [BitVec.testBit_toNat, (hsp s hl hc j 7 hj8 (by decide)).2 ⟨rfl, hj⟩] at this
    cases this

end Musli.Zero.Swiss
