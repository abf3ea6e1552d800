import Verif.Model.Zero.Packed
import Verif.Props.ZeroRef
/-!
# C111: packed slices
-/
set_option linter.unusedSectionVars false
namespace Musli.Zero.RefProps
open Musli Musli.Zero

/-- A size type which is stored in the byte order of the slice: all but `usize` are, and this one is if the byte
order is that of the platform (see C55). -/
def Ordered (P : Platform) (O : SizeTy) (E : ByteOrder) : Prop := O.ok P ∧ (O ≠ .usize ∨ P.order = E)

/-- The stored numbers are in the range of their types, as those of any packed slice are. -/
def PStored (P : Platform) (O L : SizeTy) (s : PSlice) : Prop := Fits P O s.offset ∧ Fits P L s.len

section
variable {P : Platform} {O L : SizeTy} {E : ByteOrder}

/-- **C111**, `from_raw_parts`, `try_from_raw_parts`, `from_ref`: if the offset and the length are in range of
their types the slice has them, and its bytes in memory are those of the two numbers in its byte order;
otherwise the first panics and the second is an error. -/
theorem C111_construct (hO : Ordered P O E) (hL : Ordered P L E) (offset len : Nat) :
    (Fits P O offset ∧ Fits P L len →
      ∃ s, PSlice.fromRawParts P O L E offset len = .ok s ∧ PSlice.tryFromRawParts P O L E offset len = some s ∧
        PStored P O L s ∧ s.offsetOf P O E = offset ∧ s.lenOf P L E = len ∧
        s.mem P O L = numBytes E (O.bytes P) offset ++ numBytes E (L.bytes P) len) ∧
    (¬ (Fits P O offset ∧ Fits P L len) →
      PSlice.fromRawParts P O L E offset len = .error .panic ∧ PSlice.tryFromRawParts P O L E offset len = none) := by
  simp only [PStored, Fits, pow_bytes]
  constructor
  · rintro ⟨h1, h2⟩
    refine ⟨⟨O.swapBytes P E offset, L.swapBytes P E len⟩, ?_, ?_, ⟨swapBytes_lt h1, swapBytes_lt h2⟩,
      asUsize_swapBytes hO.1 h1 hO.2, asUsize_swapBytes hL.1 h2 hL.2, ?_⟩
    · simp only [PSlice.fromRawParts, tryFrom_some h1, tryFrom_some h2]
    · simp only [PSlice.tryFromRawParts, tryFrom_some h1, tryFrom_some h2]
    · simp only [PSlice.mem, nativeBytes, numBytes_swapBytes h1, numBytes_swapBytes h2]
  · intro h
    by_cases h1 : offset < 256 ^ O.bytes P
    · have h2 : 256 ^ L.bytes P ≤ len := by
        by_cases h2 : len < 256 ^ L.bytes P
        · exact absurd ⟨h1, h2⟩ h
        · omega
      simp [PSlice.fromRawParts, PSlice.tryFromRawParts, tryFrom_some h1, tryFrom_none h2]
    · have := tryFrom_none (P := P) (O := O) (n := offset) (by omega)
      simp [PSlice.fromRawParts, PSlice.tryFromRawParts, this]

/-- **C111**, `offset`, `len` and `is_empty`: whatever the bytes of a packed slice are, also if they have been
loaded from a buffer, they are the numbers in its byte order. -/
theorem C111_read (hO : Ordered P O E) (hL : Ordered P L E) {s : PSlice} (hs : PStored P O L s) :
    s.mem P O L = numBytes E (O.bytes P) (s.offsetOf P O E) ++ numBytes E (L.bytes P) (s.lenOf P L E) ∧
    (s.isEmpty = true ↔ s.lenOf P L E = 0) ∧
    Fits P O (s.offsetOf P O E) ∧ Fits P L (s.lenOf P L E) := by
  obtain ⟨off, len⟩ := s
  obtain ⟨h1, h2⟩ := hs
  obtain ⟨e1, _, f1, _⟩ := C55_read_partial hO.1 hO.2 (r := ⟨off, none⟩) ⟨h1, by simp⟩
  obtain ⟨e2, z, _, f2⟩ := C55_read_partial hL.1 hL.2 (r := ⟨0, some len⟩)
    ⟨Nat.two_pow_pos _, by intro n hn; cases hn; exact h2⟩
  obtain ⟨e3, _⟩ := C55_read_partial hL.1 hL.2 (r := ⟨0, none⟩) ⟨Nat.two_pow_pos _, by simp⟩
  refine ⟨?_, ?_, f1, f2 _ rfl⟩
  · simp only [ZRef.mem, refBytes, ZRef.lenOf, Option.map_none, Option.map_some, List.append_nil] at e1 e2 e3
    simp only [PSlice.mem, PSlice.offsetOf, PSlice.lenOf]
    rw [e3] at e2
    have e4 := List.append_cancel_left e2
    rw [e1, e4]
    rfl
  · simpa [PSlice.isEmpty, PSlice.lenOf, ZRef.isEmpty, ZRef.lenOf] using z

/-- **C111**: a packed slice which is not made of `usize` has the same bytes, and means the same, on all
platforms. -/
theorem C111_portable {P' : Platform} (hO : O.ok P ∧ O ≠ .usize) (hL : L.ok P ∧ L ≠ .usize)
    (hO' : O.ok P') (hL' : L.ok P') {offset len : Nat} {s s' : PSlice}
    (hs : PSlice.fromRawParts P O L E offset len = .ok s) (hs' : PStored P' O L s')
    (hm : s.mem P O L = s'.mem P' O L) :
    s'.offsetOf P' O E = offset ∧ s'.lenOf P' L E = len := by
  have hb : O.bytes P = O.bytes P' := by cases O <;> first | rfl | exact absurd rfl hO.2
  have hb' : L.bytes P = L.bytes P' := by cases L <;> first | rfl | exact absurd rfl hL.2
  have hf : Fits P O offset ∧ Fits P L len := by
    by_cases hc : Fits P O offset ∧ Fits P L len
    · exact hc
    · rw [((C111_construct (E := E) ⟨hO.1, .inl hO.2⟩ ⟨hL.1, .inl hL.2⟩ offset len).2 hc).1] at hs
      cases hs
  obtain ⟨s2, h2, -, -, -, -, hmem⟩ :=
    (C111_construct (E := E) ⟨hO.1, .inl hO.2⟩ ⟨hL.1, .inl hL.2⟩ offset len).1 hf
  rw [hs] at h2
  cases h2
  obtain ⟨hread, -, hf1, hf2⟩ := C111_read (E := E) ⟨hO', .inl hO.2⟩ ⟨hL', .inl hL.2⟩ hs'
  rw [hmem, hread, hb, hb'] at hm
  have inj : ∀ {w m n : Nat}, m < 256 ^ w → n < 256 ^ w → numBytes E w m = numBytes E w n → m = n := by
    intro w m n hm hn h
    rw [← fixed_numBytes E hm, h, fixed_numBytes E hn]
  simp only [Fits, pow_bytes, hb, hb'] at hf hf1 hf2
  obtain ⟨h1, h2⟩ := List.append_inj hm (by rw [numBytes_length, numBytes_length])
  exact ⟨(inj hf.1 hf1 h1).symm, (inj hf.2 hf2 h2).symm⟩

/-- `get` and `get_unchecked` refer to the elements of the slice: there is one exactly for the indices below the
length, and it is that many elements after the beginning. -/
def GetClaim (P : Platform) (O L : SizeTy) (E : ByteOrder) : Prop :=
  ∀ (s : PSlice) (size i : Nat), PStored P O L s →
    s.offsetOf P O E + s.lenOf P L E * size < 2 ^ (8 * P.ptr) →
    (s.lenOf P L E ≤ i → s.get P O L E size i = .ok none) ∧
    (i < s.lenOf P L E → ∃ e, s.get P O L E size i = .ok (some e) ∧ s.getUnchecked P O E size i = .ok e ∧
      e.offsetOf P .usize E = s.offsetOf P O E + size * i)

/-- `split_at` works for every position of the slice: the halves are the elements before and after it. -/
def SplitClaim (P : Platform) (O L : SizeTy) (E : ByteOrder) : Prop :=
  ∀ (s : PSlice) (size k : Nat), PStored P O L s →
    s.offsetOf P O E + s.lenOf P L E * size < 2 ^ (8 * P.ptr) → k ≤ s.lenOf P L E →
    ∃ a b, s.splitAt P O L E size k = .ok (a, b) ∧
      a.offsetOf P O E = s.offsetOf P O E ∧ a.lenOf P L E = k ∧
      b.offsetOf P O E = s.offsetOf P O E + k * size ∧ b.lenOf P L E = s.lenOf P L E - k

/-- **C111**, the full statement about elements and halves. -/
def C111Full : Prop :=
  ∀ P O L E, Ordered P O E → Ordered P L E → GetClaim P O L E ∧ SplitClaim P O L E

/-- **C111 (partial)**, `get` and `get_unchecked`: they refer to the elements if the slice is in the byte order of
the platform. -/
theorem C111_get_partial (hp : P.ptr = 4 ∨ P.ptr = 8) (he : P.order = E) : GetClaim P O L E := by
  intro s size i hs hf
  refine ⟨fun h => ?_, fun hi => ?_⟩
  · simp only [PSlice.get]
    rw [if_pos h]
  · have h1 : size * i ≤ s.lenOf P L E * size := by
      rw [Nat.mul_comm (s.lenOf P L E)]; exact Nat.mul_le_mul_left _ (by omega)
    have hu : s.offsetOf P O E + size * i < 256 ^ SizeTy.usize.bytes P := by
      rw [← pow_bytes]; show _ < 2 ^ (8 * P.ptr); omega
    have hg : s.getUnchecked P O E size i =
        .ok ⟨SizeTy.usize.swapBytes P E (s.offsetOf P O E + size * i), none⟩ := by
      simp only [PSlice.getUnchecked, usizeCheck, Bind.bind, Except.bind]
      rw [if_pos (by omega)]
      dsimp only
      rw [show O.asUsize P E s.offset = s.offsetOf P O E from rfl, if_pos (by omega)]
      exact new_ok hu
    refine ⟨_, ?_, hg, ?_⟩
    · simp only [PSlice.get]
      rw [if_neg (by omega), hg]
    · have hok : SizeTy.usize.ok P := ⟨hp, fun h => by cases h⟩
      exact asUsize_swapBytes hok hu (.inr he)

/-- **C111**, violated: `get` of a packed slice in the other byte order does not refer to the element:
`Packed::<[u32], u32, u8, endian::Big>::from_raw_parts(8, 2).get(0)` on a 64-bit little-endian platform. -/
theorem C111_violated_get :
    let P : Platform := ⟨.little, 8⟩
    ∃ s e, PSlice.fromRawParts P .u32 .u8 .big 8 2 = .ok s ∧ s.get P .u32 .u8 .big 4 0 = .ok (some e) ∧
      e.offsetOf P .usize .big = 0x0800000000000000 := by
  refine ⟨⟨0x08000000, 2⟩, ⟨0x0800000000000000, none⟩, ?_, ?_, ?_⟩ <;> decide +kernel

/-- **C111**, `split_at`: it panics exactly if the position is after the end or the offset of the second slice is
not in range of the type of offsets. Otherwise the first slice has the elements before the position and the
second one the others. -/
theorem C111_split_at (hO : Ordered P O E) (hL : Ordered P L E) {s : PSlice} (hs : PStored P O L s) (size k : Nat) :
    (k ≤ s.lenOf P L E ∧ Fits P O (s.offsetOf P O E + k * size) →
      ∃ a b, s.splitAt P O L E size k = .ok (a, b) ∧
        a.offsetOf P O E = s.offsetOf P O E ∧ a.lenOf P L E = k ∧
        b.offsetOf P O E = s.offsetOf P O E + k * size ∧ b.lenOf P L E = s.lenOf P L E - k) ∧
    (¬ (k ≤ s.lenOf P L E ∧ Fits P O (s.offsetOf P O E + k * size)) →
      s.splitAt P O L E size k = .error .panic) := by
  obtain ⟨-, -, hfo, hfl⟩ := C111_read hO hL hs
  have small : ∀ {m}, m ≤ s.lenOf P L E → Fits P L m := fun h => by simp only [Fits] at hfl ⊢; omega
  have eo : O.asUsize P E s.offset = s.offsetOf P O E := rfl
  have el : L.asUsize P E s.len = s.lenOf P L E := rfl
  simp only [PSlice.splitAt, usizeCheck, Bind.bind, Except.bind, eo, el]
  constructor
  · rintro ⟨hk, hf⟩
    have hu := fits_usize hO.1 hf
    obtain ⟨a, ha, -, -, a1, a2, -⟩ := (C111_construct hO hL (s.offsetOf P O E) k).1 ⟨hfo, small hk⟩
    obtain ⟨b, hb, -, -, b1, b2, -⟩ := (C111_construct hO hL (s.offsetOf P O E + k * size)
      (s.lenOf P L E - k)).1 ⟨hf, small (by omega)⟩
    rw [if_pos hk, ha]
    dsimp only
    rw [if_pos (by omega)]
    dsimp only
    rw [if_pos hu]
    dsimp only
    rw [hb]
    exact ⟨a, b, rfl, a1, a2, b1, b2⟩
  · intro h
    by_cases hk : k ≤ s.lenOf P L E
    · have hf : ¬ Fits P O (s.offsetOf P O E + k * size) := fun hf => h ⟨hk, hf⟩
      obtain ⟨a, ha, -⟩ := (C111_construct hO hL (s.offsetOf P O E) k).1 ⟨hfo, small hk⟩
      rw [if_pos hk, ha]
      dsimp only
      by_cases h1 : k * size < 2 ^ (8 * P.ptr)
      · rw [if_pos h1]
        dsimp only
        by_cases h2 : s.offsetOf P O E + k * size < 2 ^ (8 * P.ptr)
        · rw [if_pos h2]
          dsimp only
          rw [((C111_construct hO hL _ _).2 (fun x => hf x.1)).1]
        · rw [if_neg h2]
      · rw [if_neg h1]
    · rw [if_neg hk]

/-- **C111**, violated: a slice of which the end is not in range of the type of offsets cannot be split there:
`Packed::<[u32], u8, u8>::from_raw_parts(200, 20).split_at(14)` panics. -/
theorem C111_violated_split :
    let P : Platform := ⟨.little, 8⟩
    ∃ s, PSlice.fromRawParts P .u8 .u8 .little 200 20 = .ok s ∧ s.lenOf P .u8 .little = 20 ∧
      s.get P .u8 .u8 .little 4 14 = .ok (some ⟨256, none⟩) ∧ s.splitAt P .u8 .u8 .little 4 14 = .error .panic := by
  refine ⟨⟨200, 20⟩, ?_, ?_, ?_, ?_⟩ <;> decide +kernel

theorem C111_full_statement_false : ¬C111Full := by
  intro h
  obtain ⟨-, h⟩ := h ⟨.little, 8⟩ .u8 .u8 .little ⟨⟨.inr rfl, fun h => by cases h⟩, .inl (by decide)⟩
    ⟨⟨.inr rfl, fun h => by cases h⟩, .inl (by decide)⟩
  obtain ⟨a, b, h1, -⟩ := h ⟨200, 20⟩ 4 14 ⟨(by decide : 200 < 2 ^ 8), (by decide : 20 < 2 ^ 8)⟩
    (by decide +kernel) (by decide +kernel)
  have : PSlice.splitAt ⟨.little, 8⟩ .u8 .u8 .little 4 ⟨200, 20⟩ 14 = .error .panic := by decide +kernel
  rw [this] at h1
  cases h1

/-- **C111**, `load`: a packed slice loads what a reference to a slice with the same offset and length does, on
every platform and in every byte order. -/
theorem C111_load [Host] (hp : P.ptr = 4 ∨ P.ptr = 8) (hO : Ordered P O E) (hL : Ordered P L E) {s : PSlice}
    (hs : PStored P O L s) (base : Nat) (buf : Bytes) (t : ZTy) :
    s.load P O L E base buf t = loadSlice base buf t (s.offsetOf P O E) (s.lenOf P L E) := by
  obtain ⟨-, -, hfo, hfl⟩ := C111_read hO hL hs
  have hok : SizeTy.usize.ok P := ⟨hp, fun h => by cases h⟩
  obtain ⟨r, h1, -, -, -, h2, h3, -⟩ := (C55_construct_partial (E := P.order) hok (.inr rfl)
    (s.offsetOf P O E) (some (s.lenOf P L E))).1
      ⟨fits_usize hO.1 hfo, fun n hn => by cases hn; exact fits_usize hL.1 hfl⟩
  unfold PSlice.load
  rw [show O.asUsize P E s.offset = s.offsetOf P O E from rfl,
    show L.asUsize P E s.len = s.lenOf P L E from rfl, h1]
  dsimp only
  rw [h2, h3]
  rfl

/-- Such a slice: the `u32`s at 0x1234 of length 3 in big-endian on a 64-bit little-endian machine, five bytes. -/
example : Ordered ⟨.little, 8⟩ .u32 .big ∧ Ordered ⟨.little, 8⟩ .u8 .big ∧
    PSlice.fromRawParts ⟨.little, 8⟩ .u32 .u8 .big 0x1234 3 = .ok ⟨0x34120000, 3⟩ ∧
    PSlice.mem ⟨.little, 8⟩ .u32 .u8 ⟨0x34120000, 3⟩ = [0, 0, 0x12, 0x34, 3].map (BitVec.ofNat 8) ∧
    PSlice.offsetOf ⟨.little, 8⟩ .u32 .big ⟨0x34120000, 3⟩ = 0x1234 := by
  refine ⟨⟨⟨.inr rfl, fun _ => rfl⟩, .inl (by decide)⟩, ⟨⟨.inr rfl, fun _ => rfl⟩, .inl (by decide)⟩,
    by decide +kernel, by decide +kernel, by decide +kernel⟩

end
end Musli.Zero.RefProps
