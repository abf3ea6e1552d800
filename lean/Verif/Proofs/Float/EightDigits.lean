import Verif.Model.Dec2Flt.Parse
import Verif.Proofs.Float.Digits
/-!
# Eight digits at a time
-/
set_option linter.unusedSectionVars false
namespace Musli.Dec2Flt

/-- The text of a list of digits. -/
def chars (ds : List Nat) : Bytes := ds.map fun d => BitVec.ofNat 8 (0x30 + d)

/-- The text does not go on with a digit. -/
def NoDigit (r : Bytes) : Prop := ∀ c, r.head? = some c → ¬ digitOf c < 10

theorem digitOf_char {d : Nat} (h : d < 10) : digitOf (BitVec.ofNat 8 (0x30 + d)) = d := by
  exact (by decide : ∀ d < 10, digitOf (BitVec.ofNat 8 (0x30 + d)) = d) d h

theorem char_digitOf {c : Byte} (h : digitOf c < 10) : BitVec.ofNat 8 (0x30 + digitOf c) = c := by
  revert c; decide +kernel

theorem byte_or {x y x' y' : Nat} (hx : x < 256) (hy : y < 256) :
    (x + 256 * x') ||| (y + 256 * y') = (x ||| y) + 256 * (x' ||| y') := by
  have hxy : x ||| y < 2 ^ 8 := Nat.or_lt_two_pow (n := 8) hx hy
  apply Nat.eq_of_testBit_eq
  intro i
  rw [Nat.testBit_or, add_comm x, add_comm y, add_comm (x ||| y)]
  rw [show (256 : Nat) = 2 ^ 8 from rfl, Nat.testBit_two_pow_mul_add _ hx, Nat.testBit_two_pow_mul_add _ hy,
    Nat.testBit_two_pow_mul_add _ hxy]
  split <;> simp [Nat.testBit_or]

theorem byte_and {x y x' y' : Nat} (hx : x < 256) (hy : y < 256) :
    (x + 256 * x') &&& (y + 256 * y') = (x &&& y) + 256 * (x' &&& y') := by
  have hxy : x &&& y < 2 ^ 8 := Nat.and_lt_two_pow x (n := 8) hy
  apply Nat.eq_of_testBit_eq
  intro i
  rw [Nat.testBit_and, add_comm x, add_comm y, add_comm (x &&& y)]
  rw [show (256 : Nat) = 2 ^ 8 from rfl, Nat.testBit_two_pow_mul_add _ hx, Nat.testBit_two_pow_mul_add _ hy,
    Nat.testBit_two_pow_mul_add _ hxy]
  split <;> simp [Nat.testBit_and]

/-- A number all of whose bytes are `b`. -/
def rep (b : Nat) : Nat → Nat
  | 0 => 0
  | n + 1 => b + 256 * rep b n

theorem rep_lt (b : Nat) (hb : b < 256) (n : Nat) : rep b n < 256 ^ n := by
  induction n with
  | zero => simp [rep]
  | succ n ih => simp only [rep, Nat.pow_succ]; omega

theorem low_byte : ∀ c : Byte, ((((c.toNat + 0x46) % 256) ||| ((c.toNat + 256 - 0x30) % 256)) &&& 0x80 = 0) ↔
    digitOf c < 10 := by decide +kernel

theorem digit_range : ∀ c : Byte, digitOf c < 10 → 0x30 ≤ c.toNat ∧ c.toNat < 0x3A ∧ digitOf c = c.toNat - 0x30 := by
  decide +kernel

theorem le_lt (cs : Bytes) : le cs < 256 ^ cs.length := by
  induction cs with
  | nil => simp [le]
  | cons c cs ih =>
    have := c.isLt
    simp only [le, List.length_cons, Nat.pow_succ]; omega

theorem mod_step (x y M : Nat) : (x + 256 * y) % (M * 256) = x % 256 + 256 * ((y + x / 256) % M) := by
  have h : x + 256 * y = x % 256 + 256 * (y + x / 256) := by omega
  rw [h, Nat.mul_comm M 256, Nat.mod_mul, show (x % 256 + 256 * (y + x / 256)) / 256 = y + x / 256 by omega]
  omega

theorem is8_general (cs : Bytes) :
    ((((le cs + rep 0x46 cs.length) % 256 ^ cs.length) |||
      ((le cs + 256 ^ cs.length - rep 0x30 cs.length) % 256 ^ cs.length)) &&& rep 0x80 cs.length = 0) ↔
    ∀ c ∈ cs, digitOf c < 10 := by
  induction cs with
  | nil => simp [le, rep]
  | cons c cs ih =>
    have hc := c.isLt
    have h30 := rep_lt 0x30 (by norm_num) cs.length
    simp only [le, List.length_cons, rep, Nat.pow_succ, List.mem_cons, forall_eq_or_imp]
    rw [show c.toNat + 256 * le cs + (70 + 256 * rep 70 cs.length) =
      (c.toNat + 0x46) + 256 * (le cs + rep 0x46 cs.length) by ring]
    rw [show c.toNat + 256 * le cs + 256 ^ cs.length * 256 - (48 + 256 * rep 48 cs.length) =
      (c.toNat + 256 - 0x30) + 256 * (le cs + 256 ^ cs.length - rep 0x30 cs.length - 1) by omega]
    rw [mod_step, mod_step, byte_or (Nat.mod_lt _ (by norm_num)) (Nat.mod_lt _ (by norm_num)),
      byte_and (Nat.or_lt_two_pow (n := 8) (Nat.mod_lt _ (by norm_num)) (Nat.mod_lt _ (by norm_num))) (by norm_num)]
    rw [← low_byte c, ← ih, Nat.add_eq_zero_iff]
    refine and_congr_right fun hl => ?_
    have hd := digit_range c ((low_byte c).1 hl)
    rw [show (c.toNat + 0x46) / 256 = 0 by omega, show (c.toNat + 256 - 0x30) / 256 = 1 by omega]
    rw [show le cs + 256 ^ cs.length - rep 0x30 cs.length - 1 + 1 = le cs + 256 ^ cs.length - rep 0x30 cs.length by omega]
    simp

theorem is8digits_iff (c0 c1 c2 c3 c4 c5 c6 c7 : Byte) :
    is8digits (le [c0, c1, c2, c3, c4, c5, c6, c7]) = true ↔
      ∀ c ∈ [c0, c1, c2, c3, c4, c5, c6, c7], digitOf c < 10 := by
  rw [← is8_general]
  simp [is8digits, rep]

theorem le_chars (ds : List Nat) (h : ∀ d ∈ ds, d < 10) : le (chars ds) = rep 0x30 ds.length + (le (ds.map (BitVec.ofNat 8))) := by
  induction ds with
  | nil => rfl
  | cons d ds ih =>
    have hd := h d (by simp)
    have := ih fun x hx => h x (by simp [hx])
    simp only [chars, List.map_cons, le, List.length_cons, rep] at *
    rw [this]
    simp only [BitVec.toNat_ofNat]
    omega

theorem mask_spec (b0 b1 b2 b3 b4 b5 b6 b7 : Nat) (h0 : b0 < 256) (h1 : b1 < 256) (h2 : b2 < 256) (h3 : b3 < 256)
    (h4 : b4 < 256) (h5 : b5 < 256) (h6 : b6 < 256) :
    (b0 + 256 * (b1 + 256 * (b2 + 256 * (b3 + 256 * (b4 + 256 * (b5 + 256 * (b6 + 256 * b7))))))) &&&
      0x000000FF000000FF = b0 + 4294967296 * b4 := by
  have hlow : ∀ x, x < 256 → x &&& 255 = x := fun x hx => by
    rw [show (255 : Nat) = 2 ^ 8 - 1 from rfl, Nat.and_two_pow_sub_one_eq_mod]; exact Nat.mod_eq_of_lt hx
  have hm : (0x000000FF000000FF : Nat) = 255 + 256 * (0 + 256 * (0 + 256 * (0 + 256 * (255 + 256 * (0 + 256 * (0 + 256 * 0)))))) := by
    norm_num
  rw [hm, byte_and h0 (by norm_num), byte_and h1 (by norm_num), byte_and h2 (by norm_num), byte_and h3 (by norm_num),
    byte_and h4 (by norm_num), byte_and h5 (by norm_num), byte_and h6 (by norm_num), hlow _ h0, hlow _ h4]
  simp only [Nat.and_zero]
  omega

theorem aux_shift16 (X l w : Nat) (hl : l < 65536) (h : w = l + 65536 * X) : w / 2 ^ 16 = X := by omega

theorem aux_mul1 (a b : Nat) (_ : a < 100) (_ : b < 100) : (a + 4294967296 * b) * 0x000F424000000064 % 2 ^ 64 =
    100 * a + 4294967296 * (1000000 * a + 100 * b) := by omega

theorem aux_mul2 (a b : Nat) (_ : a < 100) (_ : b < 100) : (a + 4294967296 * b) * 0x0000271000000001 % 2 ^ 64 =
    a + 4294967296 * (10000 * a + b) := by omega

theorem aux_sum (a b p q : Nat) (_ : a < 10000) (_ : b < 10000) (_ : p < 200000000) (_ : q < 20000000) :
    (a + 4294967296 * p + (b + 4294967296 * q)) % 2 ^ 64 / 2 ^ 32 % 2 ^ 32 = p + q := by omega

theorem pair_sum (d0 d1 d2 d3 d4 d5 d6 d7 : Nat) :
    10 * (d0 + 256 * (d1 + 256 * (d2 + 256 * (d3 + 256 * (d4 + 256 * (d5 + 256 * (d6 + 256 * d7))))))) +
      (d1 + 256 * (d2 + 256 * (d3 + 256 * (d4 + 256 * (d5 + 256 * (d6 + 256 * d7)))))) =
    (10 * d0 + d1) + 256 * ((10 * d1 + d2) + 256 * ((10 * d2 + d3) + 256 * ((10 * d3 + d4) + 256 *
      ((10 * d4 + d5) + 256 * ((10 * d5 + d6) + 256 * ((10 * d6 + d7) + 256 * (10 * d7))))))) := by ring

/-- The part of `parse_8digits` after the subtraction. -/
theorem combine_spec (c0 c1 c2 c3 c4 c5 c6 c7 : Nat) (h0 : c0 < 100) (h1 : c1 < 100) (h2 : c2 < 100) (h3 : c3 < 100)
    (h4 : c4 < 100) (h5 : c5 < 100) (h6 : c6 < 100) (h7 : c7 < 100) (w : Nat)
    (hw : w = c0 + 256 * (c1 + 256 * (c2 + 256 * (c3 + 256 * (c4 + 256 * (c5 + 256 * (c6 + 256 * c7))))))) :
    ((((w &&& 0x000000FF000000FF) * 0x000F424000000064 % 2 ^ 64 +
      ((w >>> 16) &&& 0x000000FF000000FF) * 0x0000271000000001 % 2 ^ 64) % 2 ^ 64) >>> 32) % 2 ^ 32 =
    1000000 * c0 + 100 * c4 + (10000 * c2 + c6) := by
  have hs : w >>> 16 = c2 + 256 * (c3 + 256 * (c4 + 256 * (c5 + 256 * (c6 + 256 * (c7 + 256 * (0 + 256 * 0)))))) := by
    rw [Nat.shiftRight_eq_div_pow]
    refine aux_shift16 _ (c0 + 256 * c1) w (by omega) ?_
    rw [hw]; ring
  rw [hs, mask_spec _ _ _ _ _ _ _ _ (by omega) (by omega) (by omega) (by omega) (by omega) (by omega) (by omega), hw,
    mask_spec _ _ _ _ _ _ _ _ (by omega) (by omega) (by omega) (by omega) (by omega) (by omega) (by omega),
    Nat.shiftRight_eq_div_pow, aux_mul1 _ _ h0 h4, aux_mul2 _ _ h2 h6]
  exact aux_sum _ _ _ _ (by omega) (by omega) (by omega) (by omega)

theorem sub_rep (x0 x1 x2 x3 x4 x5 x6 x7 : Nat) :
    48 + 256 * (48 + 256 * (48 + 256 * (48 + 256 * (48 + 256 * (48 + 256 * (48 + 256 * (48 + 256 * 0))))))) +
      (x0 + 256 * (x1 + 256 * (x2 + 256 * (x3 + 256 * (x4 + 256 * (x5 + 256 * (x6 + 256 * (x7 + 256 * 0)))))))) =
    0x3030303030303030 + (x0 + 256 * (x1 + 256 * (x2 + 256 * (x3 + 256 * (x4 + 256 * (x5 + 256 * (x6 + 256 * x7))))))) := by
  ring

theorem parse8digits_spec (d0 d1 d2 d3 d4 d5 d6 d7 : Nat) (h : ∀ d ∈ [d0, d1, d2, d3, d4, d5, d6, d7], d < 10) :
    parse8digits (le (chars [d0, d1, d2, d3, d4, d5, d6, d7])) = some (num10 [d0, d1, d2, d3, d4, d5, d6, d7]) := by
  rw [le_chars _ h]
  simp only [List.mem_cons, List.not_mem_nil, or_false, forall_eq_or_imp, forall_eq] at h
  obtain ⟨h0, h1, h2, h3, h4, h5, h6, h7⟩ := h
  have hmod : ∀ x, x < 10 → x % 2 ^ 8 = x := fun x hx => Nat.mod_eq_of_lt (by omega)
  simp only [List.map_cons, List.map_nil, le, BitVec.toNat_ofNat, List.length_cons, List.length_nil, rep,
    hmod _ h0, hmod _ h1, hmod _ h2, hmod _ h3, hmod _ h4, hmod _ h5, hmod _ h6, hmod _ h7]
  rw [sub_rep]
  have hp := pair_sum d0 d1 d2 d3 d4 d5 d6 d7
  obtain ⟨t, ht⟩ : ∃ t, t = d1 + 256 * (d2 + 256 * (d3 + 256 * (d4 + 256 * (d5 + 256 * (d6 + 256 * d7))))) :=
    ⟨_, rfl⟩
  have htl : t < 10 * 281474976710656 := by omega
  rw [← ht] at hp ⊢
  obtain ⟨v, hv⟩ : ∃ v, v = d0 + 256 * t := ⟨_, rfl⟩
  have hs : v >>> 8 = t := by rw [Nat.shiftRight_eq_div_pow]; omega
  rw [← hv] at hp ⊢
  have hvl : v < 723401728380766731 := by omega
  unfold parse8digits
  rw [if_neg (by omega), Nat.add_sub_cancel_left]
  simp only [Option.bind_eq_bind, u64]
  rw [if_pos (by omega), Option.bind_some, hs, if_pos (by omega), Option.bind_some]
  have hw : v * 10 + t = _ := (congrArg (· + t) (Nat.mul_comm v 10)).trans hp
  rw [combine_spec _ _ _ _ _ _ _ _ (by omega) (by omega) (by omega) (by omega) (by omega) (by omega) (by omega)
    (by omega) _ hw]
  have hn : num10 [d0, d1, d2, d3, d4, d5, d6, d7] = d0 * 10000000 + (d1 * 1000000 + (d2 * 100000 + (d3 * 10000 +
      (d4 * 1000 + (d5 * 100 + (d6 * 10 + d7)))))) := by
    simp [num10]
  rw [hn]
  refine congrArg some ?_
  ring

end Musli.Dec2Flt
