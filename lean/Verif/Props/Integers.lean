import Verif.Proofs.IntEnc
/-!
# C01–C08: integer encodings

`w` ranges over all widths of at least eight bits (the code instantiates 8, 16,
32, 64 and 128), fixed encodings need whole bytes.
-/
namespace Musli
open Musli.Spec

/-- **C01.** Variable-length encoding round-trips, whatever follows. -/
theorem C01_varint_roundtrip {w : Nat} (hw : 8 ≤ w) (v : BitVec w) (rest : Bytes) :
    Varint.decode w (Varint.encode v ++ rest) = .ok (v, rest) :=
  Varint.decode_encode hw v rest

example : Varint.encode (300#32) = [0xAC#8, 0x02#8] := by decide
example : Varint.decode 32 (Varint.encode (300#32) ++ [0xFF#8]) = .ok (300#32, [0xFF#8]) := by decide

/-- **C02.** The encoding is well-formed, denotes the value in base 128 and has
the least possible number of groups. -/
theorem C02_varint_minimal {w : Nat} (hw : 8 ≤ w) (v : BitVec w) :
    WellFormed (Varint.encode v) ∧ denote (Varint.encode v) = v.toNat ∧
      IsGroupCount v.toNat (Varint.encode v).length := by
  rw [Varint.encode_eq hw]
  exact ⟨Varint.wellFormed_natEnc _, Varint.denote_natEnc _, Varint.length_natEnc _⟩

/-- **C02.** At most `⌈w/7⌉` bytes. -/
theorem C02_varint_bound {w : Nat} (hw : 8 ≤ w) (v : BitVec w) :
    (Varint.encode v).length ≤ (w + 6) / 7 := by
  rw [Varint.encode_eq hw]
  rcases Varint.natEnc_len_le v.isLt with h | h <;> omega

/-- **C02.** No well-formed encoding of the same number is shorter. -/
theorem C02_varint_shortest {w : Nat} (hw : 8 ≤ w) (v : BitVec w) (bs : Bytes)
    (h : WellFormed bs) (hd : denote bs = v.toNat) : (Varint.encode v).length ≤ bs.length := by
  obtain ⟨_, _, h1, _, h3⟩ := C02_varint_minimal hw v
  generalize (Varint.encode v).length = k at *
  have hb : denote bs < 128 ^ bs.length := by
    clear h hd
    induction bs with
    | nil => simp [denote]
    | cons b s ih => simp only [denote, List.length_cons, Nat.pow_succ]; omega
  have hne : 1 ≤ bs.length := by
    obtain ⟨i, l, rfl, _, _⟩ := h; simp
  by_cases hk : 1 < k
  · have h4 := h3 hk
    have : (128:Nat) ^ (k - 1) < 128 ^ bs.length := by omega
    have := (Nat.pow_lt_pow_iff_right (a := 128) (by omega)).1 this
    omega
  · omega

example : (Varint.encode (BitVec.allOnes 64)).length = 10 := by decide
example : WellFormed [0x80#8, 0x00#8] ∧ denote [0x80#8, 0x00#8] = (0#8).toNat :=
  ⟨⟨[0x80#8], 0x00#8, rfl, by decide, by decide⟩, by decide⟩

/-- **C03.** Encodings are prefix-free, hence injective: if one is followed by
anything and the other too and the results agree, the values agree. -/
theorem C03_varint_prefix_free {w : Nat} (hw : 8 ≤ w) (a b : BitVec w) (r r' : Bytes)
    (h : Varint.encode a ++ r = Varint.encode b ++ r') : a = b ∧ r = r' := by
  have h1 := C01_varint_roundtrip hw a r
  have h2 := C01_varint_roundtrip hw b r'
  rw [h, h2] at h1
  cases h1
  exact ⟨rfl, rfl⟩

example : Varint.encode (5#16) ++ [1#8] = Varint.encode (5#16) ++ [1#8] := rfl

/-- **C04.** Whenever decoding succeeds, on any input, it consumed exactly one
well-formed run of at most `⌈w/7⌉` bytes from the front, and the result does not
depend on what follows. -/
theorem C04_varint_consumes {w : Nat} (hw : 8 ≤ w) (s : Bytes) (v : BitVec w) (s' : Bytes)
    (h : Varint.decode w s = .ok (v, s')) :
    ∃ c, s = c ++ s' ∧ WellFormed c ∧ c.length ≤ (w + 6) / 7 ∧
      ∀ t, Varint.decode w (c ++ t) = .ok (v, t) := by
  obtain ⟨c, h1, h2, h3, h4⟩ := Varint.decode_sound hw h
  refine ⟨c, h1, h2, by rcases h3 with h3 | h3 <;> omega, fun t => ?_⟩
  obtain ⟨v', h5⟩ := Varint.decode_complete h2 h3 t
  obtain ⟨c', h6, h7, _, h8⟩ := Varint.decode_sound hw h5
  obtain ⟨rfl, _⟩ := Varint.wellFormed_unique h2 h7 h6
  rw [h5]
  congr 2
  exact BitVec.eq_of_toNat_eq (by rw [h8, h4])

/-- **C04.** Truncated encodings are rejected. -/
theorem C04_varint_truncated {w : Nat} (hw : 8 ≤ w) (v : BitVec w) (p q : Bytes)
    (hpq : Varint.encode v = p ++ q) (hq : q ≠ []) : ∃ e, Varint.decode w p = .error e := by
  cases h : Varint.decode w p with
  | error e => exact ⟨e, rfl⟩
  | ok r =>
    exfalso
    obtain ⟨v', s'⟩ := r
    obtain ⟨c, h1, _, _, h4⟩ := C04_varint_consumes hw p v' s' h
    have h5 := h4 (s' ++ q)
    rw [← List.append_assoc, ← h1, ← hpq] at h5
    have h6 := C01_varint_roundtrip hw v []
    rw [List.append_nil, h5] at h6
    simp at h6
    exact hq h6.2.2

example : Varint.decode 32 [0x80#8, 0x80#8, 0x01#8, 0x55#8] = .ok (16384#32, [0x55#8]) := by decide
example : Varint.decode 32 [0xAC#8] = .error .eof := by decide

/-- **C05 is false of the code**: excess bits of the last group are dropped, so
that a `u32` whose wire form denotes 2^32 decodes as zero instead of failing. -/
theorem C05_varint_exact_violated :
    ¬ ∀ (s : Bytes) (v : BitVec 32) (s' : Bytes), Varint.decode 32 s = .ok (v, s') →
      ∃ c, s = c ++ s' ∧ v.toNat = denote c := by
  intro h
  obtain ⟨c, h1, h2⟩ := h [0x80#8, 0x80#8, 0x80#8, 0x80#8, 0x10#8] 0#32 [] (by decide)
  rw [List.append_nil] at h1
  rw [← h1] at h2
  exact absurd h2 (by decide)

/-- **C05, partial.** The decoded value is the denoted number modulo `2^w`; it is
exact precisely when the denoted number fits. What is missing from C05 is the
rejection of numbers which do not fit. -/
theorem C05_varint_exact_partial {w : Nat} (hw : 8 ≤ w) (s : Bytes) (v : BitVec w) (s' : Bytes)
    (h : Varint.decode w s = .ok (v, s')) :
    ∃ c, s = c ++ s' ∧ WellFormed c ∧ v.toNat = denote c % 2 ^ w ∧
      (denote c < 2 ^ w → v.toNat = denote c) := by
  obtain ⟨c, h1, h2, _, h4⟩ := Varint.decode_sound hw h
  exact ⟨c, h1, h2, h4, fun hc => by rw [h4, Nat.mod_eq_of_lt hc]⟩

example : Varint.decode 8 [0xFF#8, 0x01#8] = .ok (255#8, []) := by decide

/-- **C06.** ZigZag decoding inverts encoding. -/
theorem C06_zigzag_decode_encode {w : Nat} (hw : 1 ≤ w) (x : BitVec w) :
    ZigZag.decode (ZigZag.encode x) = x := ZigZag.decode_encode hw x

/-- **C06.** ZigZag encoding inverts decoding. -/
theorem C06_zigzag_encode_decode {w : Nat} (hw : 1 ≤ w) (x : BitVec w) :
    ZigZag.encode (ZigZag.decode x) = x := ZigZag.encode_decode hw x

/-- **C06.** ZigZag maps `0, -1, 1, -2, 2, ..` to `0, 1, 2, 3, 4, ..`. -/
theorem C06_zigzag_value {w : Nat} (hw : 1 ≤ w) (x : BitVec w) :
    ((ZigZag.encode x).toNat : Int) = if 0 ≤ x.toInt then 2 * x.toInt else -2 * x.toInt - 1 := by
  have hp := ZigZag.pow_pred hw
  have hlt := x.isLt
  rw [ZigZag.encode_toNat hw, BitVec.toInt_eq_toNat_cond]
  by_cases h : x.toNat < 2 ^ (w - 1)
  · rw [if_pos h, if_pos (by omega), if_pos (by omega)]; push_cast; rfl
  · rw [if_neg h, if_neg (by omega), if_neg (by omega)]
    omega

example : ZigZag.encode (-3#32 : BitVec 32) = 5#32 := by decide

/-- **C07.** Unsigned integers round-trip under every option word and host. -/
theorem C07_unsigned_roundtrip [Host] (o : Options) {w : Nat} (hw : 8 ≤ w) (h8 : w % 8 = 0)
    (v : BitVec w) (rest : Bytes) :
    Int'.decodeUnsigned o w (Int'.encodeUnsigned o v ++ rest) = .ok (v, rest) :=
  Int'.decodeUnsigned_encodeUnsigned o hw h8 v rest

/-- **C07.** Signed integers round-trip under every option word and host. -/
theorem C07_signed_roundtrip [Host] (o : Options) {w : Nat} (hw : 8 ≤ w) (h8 : w % 8 = 0)
    (v : BitVec w) (rest : Bytes) :
    Int'.decodeSigned o w (Int'.encodeSigned o v ++ rest) = .ok (v, rest) :=
  Int'.decodeSigned_encodeSigned o hw h8 v rest

/-- **C07.** Fixed encodings are the value's bytes in the requested order:
`w / 8` bytes, which read least significant first (little) or last (big) give
the value; the host's byte order does not matter. -/
theorem C07_fixed_layout [Host] {w : Nat} (h8 : w % 8 = 0) (v : BitVec w) :
    (Fixed.writeBytes .little v).length = w / 8 ∧
    Fixed.leNat (Fixed.writeBytes .little v) = v.toNat ∧
    Fixed.writeBytes .big v = (Fixed.writeBytes .little v).reverse := by
  refine ⟨Fixed.length_writeBytes _ _, ?_, ?_⟩
  · rw [Fixed.writeBytes_eq h8]
    simp only
    rw [Fixed.leNat_leBytes, show (256:Nat) = 2 ^ 8 from rfl, ← Nat.pow_mul,
      show 8 * (w / 8) = w by omega, Nat.mod_eq_of_lt v.isLt]
  · rw [Fixed.writeBytes_eq h8, Fixed.writeBytes_eq h8]

/-- **C07.** The same bytes are produced on little and big endian hosts. -/
theorem C07_host_independent (h1 h2 : Host) (o : Options) {w : Nat} (h8 : w % 8 = 0)
    (v : BitVec w) :
    @Int'.encodeUnsigned h1 o w v = @Int'.encodeUnsigned h2 o w v ∧
    @Int'.encodeSigned h1 o w v = @Int'.encodeSigned h2 o w v := by
  unfold Int'.encodeUnsigned Int'.encodeSigned
  cases Opt.integer o
  · exact ⟨rfl, rfl⟩
  · simp only [@Fixed.writeBytes_eq h1 _ h8, @Fixed.writeBytes_eq h2 _ h8]
    exact ⟨trivial, trivial⟩

example : @Int'.encodeUnsigned ⟨.little⟩ (Opt.setByteOrder (Opt.setInteger Opt.new .fixed) .big)
    32 (0x01020304#32) = [1#8, 2#8, 3#8, 4#8] := by decide

/-- **C08.** A successfully encoded length decodes to itself. -/
theorem C08_usize_roundtrip [Host] (o : Options) (v : BitVec 64) (bs : Bytes)
    (h : Int'.encodeUsize o v = .ok bs) (rest : Bytes) :
    Int'.decodeUsize o (bs ++ rest) = .ok (v, rest) :=
  Int'.decodeUsize_encodeUsize o v h rest

/-- The capacity of a configured length width, in bits: 8, 16, 32; 64 for
everything else (in particular variable lengths hold any `usize`). -/
def lengthCapacity (o : Options) : Nat :=
  match Opt.length o with
  | .u8 => 8 | .u16 => 16 | .u32 => 32 | _ => 64

/-- **C08.** Encoding a length fails exactly when it exceeds the configured
width; it never truncates. -/
theorem C08_usize_no_truncation [Host] (o : Options) (v : BitVec 64) :
    (∃ bs, Int'.encodeUsize o v = .ok bs) ↔ v.toNat < 2 ^ lengthCapacity o := by
  rw [Int'.encodeUsize_ok_iff]
  unfold lengthCapacity
  have := v.isLt
  cases Opt.length o <;> simp [Int'.widthBits] <;> omega

example : @Int'.encodeUsize ⟨.little⟩ (Opt.setPointer Opt.new .u8) 256#64 = .error .overflow := by decide
example : @Int'.encodeUsize ⟨.little⟩ (Opt.setPointer Opt.new .u16) 256#64 = .ok [0#8, 1#8] := by decide

end Musli
