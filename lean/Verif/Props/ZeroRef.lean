import Verif.Proofs.Zero.Ref
import Verif.Props.ZeroLayout
/-!
# References: byte orders, slices and coercions
-/
set_option linter.unusedSectionVars false
namespace Musli.Zero.RefProps
open Musli Musli.Zero

/-- The stored numbers are in the range of their type, as those of any reference are. -/
def Stored (P : Platform) (O : SizeTy) (r : ZRef) : Prop :=
  r.offset < 2 ^ (8 * O.bytes P) ∧ ∀ n, r.len = some n → n < 2 ^ (8 * O.bytes P)

/-- The numbers which a size can be. -/
def Fits (P : Platform) (O : SizeTy) (n : Nat) : Prop := n < 2 ^ (8 * O.bytes P)

section
variable {P : Platform} {O : SizeTy} {E : ByteOrder}

/-! ## C55: byte orders -/

/-- **C55** (partial), `Ref::new`, `Ref::with_metadata` and `Ref::try_with_metadata`: if the offset and length
are in range the reference has them, and its bytes in memory are in its byte order; otherwise the first two
panic and the last is an error.

Missing are references with `usize` in the byte order which is not that of the platform, of which it is false
(`C55_violated_by_usize`). -/
theorem C55_construct_partial (hok : O.ok P) (ho : O ≠ .usize ∨ P.order = E) (offset : Nat) (len : Option Nat) :
    (Fits P O offset ∧ (∀ n, len = some n → Fits P O n) →
      ∃ r, ZRef.withMetadata P O E offset len = .ok r ∧ ZRef.tryWithMetadata P O E offset len = some r ∧
        (len = none → ZRef.new P O E offset = .ok r) ∧ Stored P O r ∧
        r.offsetOf P O E = offset ∧ r.lenOf P O E = len ∧
        r.mem P O = refBytes E (O.bytes P) offset len) ∧
    (¬ (Fits P O offset ∧ ∀ n, len = some n → Fits P O n) →
      ZRef.withMetadata P O E offset len = .error .panic ∧ ZRef.tryWithMetadata P O E offset len = none ∧
      (len = none → ZRef.new P O E offset = .error .panic)) := by
  simp only [Fits, Stored, pow_bytes]
  constructor
  · rintro ⟨h1, h2⟩
    refine ⟨_, withMetadata_ok h1 h2, ?_, fun hl => by rw [hl, new_ok h1]; rfl, ⟨swapBytes_lt h1, ?_⟩,
      asUsize_swapBytes hok h1 ho, ?_, ?_⟩
    · simp only [ZRef.tryWithMetadata, tryFrom_some h1]
      cases len with
      | none => rfl
      | some k => simp [tryFromMetadata, tryFrom_some (h2 k rfl), swapMeta]
    · intro n hn
      cases len with
      | none => simp at hn
      | some k =>
        have : O.swapBytes P E k = n := by simpa using hn
        rw [← this]; exact swapBytes_lt (h2 k rfl)
    · cases len with
      | none => rfl
      | some k => simp [ZRef.lenOf, asUsize_swapBytes hok (h2 k rfl) ho]
    · cases len with
      | none => simp [ZRef.mem, refBytes, nativeBytes, numBytes_swapBytes h1]
      | some k => simp [ZRef.mem, refBytes, nativeBytes, numBytes_swapBytes h1, numBytes_swapBytes (h2 k rfl)]
  · intro h
    by_cases h1 : offset < 256 ^ O.bytes P
    · have h2 : ∃ k, len = some k ∧ 256 ^ O.bytes P ≤ k := by
        cases len with
        | none => exact absurd ⟨h1, by simp⟩ h
        | some k =>
          refine ⟨k, rfl, ?_⟩
          by_cases hk : k < 256 ^ O.bytes P
          · exact absurd ⟨h1, fun n hn => by cases hn; exact hk⟩ h
          · omega
      obtain ⟨k, rfl, hk⟩ := h2
      simp [ZRef.withMetadata, ZRef.tryWithMetadata, tryFrom_some h1, tryFromMetadata, tryFrom_none hk]
    · have := tryFrom_none (P := P) (O := O) (n := offset) (by omega)
      simp [ZRef.withMetadata, ZRef.tryWithMetadata, ZRef.new, this]

/-- **C55** (partial), `Ref::offset`, `Ref::len` and `Ref::is_empty`: whatever the bytes of a reference are,
also if they have been loaded from a buffer, they are the numbers in its byte order. -/
theorem C55_read_partial (hok : O.ok P) (ho : O ≠ .usize ∨ P.order = E) {r : ZRef} (hr : Stored P O r) :
    r.mem P O = refBytes E (O.bytes P) (r.offsetOf P O E) (r.lenOf P O E) ∧
    (r.isEmpty = true ↔ r.lenOf P O E = some 0) ∧
    Fits P O (r.offsetOf P O E) ∧ (∀ n, r.lenOf P O E = some n → Fits P O n) := by
  obtain ⟨off, len⟩ := r
  simp only [Stored, Fits, pow_bytes] at hr ⊢
  obtain ⟨h1, h2⟩ := hr
  have hoff : numBytes P.order (O.bytes P) off = numBytes E (O.bytes P) (O.asUsize P E off) := by
    have := numBytes_swapBytes (E := E) (asUsize_lt hok h1 ho)
    rwa [swapBytes_asUsize hok h1 ho] at this
  cases len with
  | none => simp [ZRef.mem, refBytes, nativeBytes, ZRef.offsetOf, ZRef.lenOf, hoff, ZRef.isEmpty,
      asUsize_lt hok h1 ho]
  | some k =>
    have hk := h2 k rfl
    have hlen : numBytes P.order (O.bytes P) k = numBytes E (O.bytes P) (O.asUsize P E k) := by
      have := numBytes_swapBytes (E := E) (asUsize_lt hok hk ho)
      rwa [swapBytes_asUsize hok hk ho] at this
    refine ⟨by simp [ZRef.mem, refBytes, nativeBytes, ZRef.offsetOf, ZRef.lenOf, hoff, hlen], ?_,
      asUsize_lt hok h1 ho, ?_⟩
    · simp only [ZRef.isEmpty, ZRef.lenOf, beq_iff_eq, Option.some.injEq, Option.map_some]
      have hz : (0 : Nat) < 256 ^ O.bytes P := Nat.pow_pos (by omega)
      have h0 : O.swapBytes P E 0 = 0 := by
        rw [swapBytes_eq hz]
        unfold orderSwap
        split
        · rfl
        · have : ∀ w, toLittle w 0 = List.replicate w 0#8 := by
            intro w
            induction w with
            | zero => rfl
            | succ w ih => rw [toLittle, Nat.zero_div, ih]; rfl
          rw [swapNum, this, List.reverse_replicate]
          have : ∀ w, Grammar.little (List.replicate w 0#8) = 0 := by
            intro w
            induction w with
            | zero => rfl
            | succ w ih => rw [List.replicate_succ, Grammar.little, ih]; rfl
          exact this _
      constructor
      · rintro rfl
        have := asUsize_swapBytes hok hz ho
        rwa [h0] at this
      · intro h
        have := swapBytes_asUsize hok hk ho
        rw [h, h0] at this
        exact this.symm
    · intro n hn
      have : O.asUsize P E k = n := by simpa [ZRef.lenOf] using hn
      rw [← this]; exact asUsize_lt hok hk ho

/-- **C55** (partial), `Ref::to_endian`, `to_be`, `to_le` and `to_ne`: the result has the same offset and
length, and its bytes are in the other byte order. -/
theorem C55_to_endian_partial {U : ByteOrder} (hok : O.ok P) (ho : O ≠ .usize ∨ P.order = E)
    (hu : O ≠ .usize ∨ P.order = U) {r : ZRef} (hr : Stored P O r) :
    (r.toEndian P O E U).offsetOf P O U = r.offsetOf P O E ∧
    (r.toEndian P O E U).lenOf P O U = r.lenOf P O E ∧
    (r.toEndian P O E U).mem P O = refBytes U (O.bytes P) (r.offsetOf P O E) (r.lenOf P O E) ∧
    Stored P O (r.toEndian P O E U) := by
  obtain ⟨off, len⟩ := r
  simp only [Stored, pow_bytes] at hr ⊢
  obtain ⟨h1, h2⟩ := hr
  have hs : ∀ {n}, n < 256 ^ O.bytes P → O.swapBytes P E n = O.asUsize P E n := fun hn => by
    rw [asUsize_eq hok hn ho, swapBytes_eq hn]
  cases len with
  | none =>
    simp only [ZRef.toEndian, ZRef.offsetOf, ZRef.lenOf, ZRef.mem, refBytes, nativeBytes, swapMeta, Option.map_none,
      List.append_nil, hs h1]
    exact ⟨asUsize_swapBytes hok (asUsize_lt hok h1 ho) hu, trivial, numBytes_swapBytes (asUsize_lt hok h1 ho),
      swapBytes_lt (asUsize_lt hok h1 ho), by simp⟩
  | some k =>
    have hk := h2 k rfl
    simp only [ZRef.toEndian, ZRef.offsetOf, ZRef.lenOf, ZRef.mem, refBytes, nativeBytes, swapMeta, Option.map_some,
      hs h1, hs hk]
    exact ⟨asUsize_swapBytes hok (asUsize_lt hok h1 ho) hu,
      by rw [asUsize_swapBytes hok (asUsize_lt hok hk ho) hu],
      by rw [numBytes_swapBytes (asUsize_lt hok h1 ho), numBytes_swapBytes (asUsize_lt hok hk ho)],
      swapBytes_lt (asUsize_lt hok h1 ho), fun n hn => by
        cases hn; exact swapBytes_lt (asUsize_lt hok hk ho)⟩

/-- **C55**: a reference which is not made of `usize` has the same bytes, and means the same, on all
platforms: what one of them has stored another one reads. -/
theorem C55_portable {P' : Platform} (hok : O.ok P) (hok' : O.ok P') (ho : O ≠ .usize) {offset : Nat}
    {len : Option Nat} {r r' : ZRef} (hr : ZRef.withMetadata P O E offset len = .ok r) (hr' : Stored P' O r')
    (hs : r'.len.isSome = len.isSome) (hm : r.mem P O = r'.mem P' O) :
    r'.offsetOf P' O E = offset ∧ r'.lenOf P' O E = len := by
  have hb : O.bytes P = O.bytes P' := by cases O <;> first | rfl | exact absurd rfl ho
  have hf : Fits P O offset ∧ ∀ n, len = some n → Fits P O n := by
    by_cases hc : Fits P O offset ∧ ∀ n, len = some n → Fits P O n
    · exact hc
    · rw [((C55_construct_partial hok (.inl ho) offset len).2 hc).1] at hr
      cases hr
  obtain ⟨r2, h2, -, -, -, -, -, hmem⟩ := (C55_construct_partial (E := E) hok (.inl ho) offset len).1 hf
  rw [hr] at h2
  cases h2
  obtain ⟨hread, -, hf1, hf2⟩ := C55_read_partial (E := E) hok' (.inl ho) hr'
  rw [hmem, hread, hb] at hm
  have inj : ∀ {m n : Nat}, m < 256 ^ O.bytes P' → n < 256 ^ O.bytes P' →
      numBytes E (O.bytes P') m = numBytes E (O.bytes P') n → m = n := by
    intro m n hm hn h
    rw [← fixed_numBytes E hm, h, fixed_numBytes E hn]
  simp only [Fits, pow_bytes, hb] at hf hf1 hf2
  simp only [refBytes] at hm
  obtain ⟨h1, h2⟩ := List.append_inj hm (by rw [numBytes_length, numBytes_length])
  refine ⟨(inj hf.1 hf1 h1).symm, ?_⟩
  obtain ⟨off', len'⟩ := r'
  cases len with
  | none => cases len' with
    | none => rfl
    | some _ => simp at hs
  | some k => cases len' with
    | none => simp at hs
    | some k' =>
      simp only [ZRef.lenOf, Option.map_some] at h2 hf2 ⊢
      rw [inj (hf.2 k rfl) (hf2 _ rfl) h2]

/-- Such a platform and reference: the slice at 0x1234 of length 3 in big-endian on a 64-bit little-endian
machine. -/
example : SizeTy.u32.ok ⟨.little, 8⟩ ∧
    ZRef.withMetadata ⟨.little, 8⟩ .u32 .big 0x1234 (some 3) = .ok ⟨0x34120000, some 0x03000000⟩ ∧
    ZRef.mem ⟨.little, 8⟩ .u32 ⟨0x34120000, some 0x03000000⟩ =
      [0, 0, 0x12, 0x34, 0, 0, 0, 3].map (BitVec.ofNat 8) ∧
    ZRef.offsetOf ⟨.little, 8⟩ .u32 .big ⟨0x34120000, some 0x03000000⟩ = 0x1234 := by
  refine ⟨⟨.inr rfl, fun _ => rfl⟩, by decide +kernel, by decide +kernel, by decide +kernel⟩

/-- **C55 is false** for `usize` in the other byte order: the constructors swap it, the accessors do not.
`Ref::<u32, endian::Big, usize>::new(10).offset()` is not 10 on a 64-bit little-endian platform. The
documentation of `Ref::with_metadata` recommends `Ref<T, E, usize>`. -/
theorem C55_violated_by_usize :
    (ZRef.new ⟨.little, 8⟩ .usize .big 10).toOption.map (ZRef.offsetOf ⟨.little, 8⟩ .usize .big) =
      some 0x0A00000000000000 := by
  decide +kernel

/-! ## C56: the elements of a slice -/

theorem fits_usize (hok : O.ok P) {n : Nat} (h : Fits P O n) : n < 2 ^ (8 * P.ptr) := by
  have := Nat.pow_le_pow_right (n := 2) (by omega) (Nat.mul_le_mul_left 8 (bytes_le hok))
  simp only [Fits] at h
  omega

/-- The reference to an element. -/
def element (P : Platform) (O : SizeTy) (E : ByteOrder) (off size i : Nat) : ZRef :=
  ⟨O.swapBytes P E (off + size * i), none⟩

theorem element_offset (hok : O.ok P) (ho : O ≠ .usize ∨ P.order = E) {off size i : Nat} (h : Fits P O (off + size * i)) :
    (element P O E off size i).offsetOf P O E = off + size * i := by
  simp only [Fits, pow_bytes] at h
  exact asUsize_swapBytes hok h ho

theorem getUnchecked_eq (hok : O.ok P) {size i : Nat} {r : ZRef} (h : Fits P O (r.offsetOf P O E + size * i)) :
    r.getUnchecked P O E size i = .ok (element P O E (r.offsetOf P O E) size i) := by
  have h1 := fits_usize hok h
  simp only [ZRef.getUnchecked, usizeCheck, Bind.bind, Except.bind]
  rw [if_pos (by omega)]
  dsimp only
  rw [show O.asUsize P E r.offset = r.offsetOf P O E from rfl, if_pos h1]
  dsimp only
  rw [new_ok (by simpa [Fits, pow_bytes] using h)]
  rfl

theorem get_eq (hok : O.ok P) {size i n : Nat} {r : ZRef} (hn : r.lenOf P O E = some n) (hi : i < n)
    (h : Fits P O (r.offsetOf P O E + size * i)) :
    r.get P O E size i = .ok (some (element P O E (r.offsetOf P O E) size i)) := by
  have := getUnchecked_eq (E := E) hok h
  simp only [ZRef.getUnchecked, usizeCheck, Bind.bind, Except.bind] at this
  simp only [ZRef.get, hn, Option.getD_some, usizeCheck, Bind.bind, Except.bind]
  rw [if_neg (by omega)]
  have h1 := fits_usize hok h
  rw [if_pos (by omega)] at this ⊢
  dsimp only at this ⊢
  rw [show O.asUsize P E r.offset = r.offsetOf P O E from rfl, if_pos h1] at this ⊢
  dsimp only at this ⊢
  rw [this]

/-- **C56**, `Ref::get` and `Ref::get_unchecked` of a slice: there is an element exactly for the indices below
the length, and it is that many elements after the beginning. If its offset is not in range of the type of
offsets it panics. -/
theorem C56_get (hok : O.ok P) (ho : O ≠ .usize ∨ P.order = E) {r : ZRef} {n : Nat} (hn : r.lenOf P O E = some n)
    (size i : Nat) :
    (n ≤ i → r.get P O E size i = .ok none) ∧
    (i < n → Fits P O (r.offsetOf P O E + size * i) →
      ∃ e, r.get P O E size i = .ok (some e) ∧ r.getUnchecked P O E size i = .ok e ∧
        e.offsetOf P O E = r.offsetOf P O E + size * i ∧ e.lenOf P O E = none) ∧
    (i < n → ¬ Fits P O (r.offsetOf P O E + size * i) → r.get P O E size i = .error .panic) := by
  refine ⟨fun h => ?_, fun hi hf => ?_, fun hi hf => ?_⟩
  · simp only [ZRef.get, hn, Option.getD_some]
    rw [if_pos h]
  · exact ⟨_, get_eq hok hn hi hf, getUnchecked_eq hok hf, element_offset hok ho hf, rfl⟩
  · simp only [ZRef.get, hn, Option.getD_some, usizeCheck, Bind.bind, Except.bind]
    rw [if_neg (by omega)]
    by_cases h1 : size * i < 2 ^ (8 * P.ptr)
    · rw [if_pos h1]
      dsimp only
      rw [show O.asUsize P E r.offset = r.offsetOf P O E from rfl]
      by_cases h2 : r.offsetOf P O E + size * i < 2 ^ (8 * P.ptr)
      · rw [if_pos h2]
        dsimp only
        simp only [Fits, pow_bytes] at hf
        rw [ZRef.new, tryFrom_none (by omega)]
      · rw [if_neg h2]
    · rw [if_neg h1]

/-- **C56**, `Ref::split_at`: it panics exactly if the position is after the end or the offset of the second
slice is not in range. Otherwise the elements of the first slice are those before the position, and those of
the second one are the others. -/
theorem C56_split_at (hok : O.ok P) (ho : O ≠ .usize ∨ P.order = E) {r : ZRef} (hr : Stored P O r) {n : Nat}
    (hn : r.lenOf P O E = some n) (size k : Nat) :
    (k ≤ n ∧ Fits P O (r.offsetOf P O E + k * size) →
      ∃ a b, r.splitAt P O E size k = .ok (a, b) ∧ a.lenOf P O E = some k ∧ b.lenOf P O E = some (n - k) ∧
        a.offsetOf P O E = r.offsetOf P O E ∧ b.offsetOf P O E = r.offsetOf P O E + k * size ∧
        (Fits P O (r.offsetOf P O E + n * size) →
          (∀ i, i < k → a.get P O E size i = r.get P O E size i) ∧
          (∀ i, i < n - k → b.get P O E size i = r.get P O E size (k + i)))) ∧
    (¬ (k ≤ n ∧ Fits P O (r.offsetOf P O E + k * size)) → r.splitAt P O E size k = .error .panic) := by
  obtain ⟨-, -, hfo, hfl⟩ := C55_read_partial hok ho hr
  have hfn := hfl n hn
  have small : ∀ {m}, m ≤ n → m < 256 ^ O.bytes P := fun h => by
    simp only [Fits, pow_bytes] at hfn; omega
  have hmeta : ∀ {off m : Nat}, Fits P O off → m ≤ n → ∃ x, ZRef.withMetadata P O E off (some m) = .ok x ∧
      x.offsetOf P O E = off ∧ x.lenOf P O E = some m := by
    intro off m hoff hm
    obtain ⟨x, h1, -, -, -, h2, h3, -⟩ := (C55_construct_partial hok ho off (some m)).1
      ⟨hoff, fun j hj => by cases hj; simp only [Fits, pow_bytes]; exact small hm⟩
    exact ⟨x, h1, h2, h3⟩
  simp only [ZRef.splitAt, hn, Option.getD_some, usizeCheck, Bind.bind, Except.bind]
  constructor
  · rintro ⟨hk, hf⟩
    have hu := fits_usize hok hf
    obtain ⟨a, ha, hao, hal⟩ := hmeta hfo hk
    obtain ⟨b, hb, hbo, hbl⟩ := hmeta hf (show n - k ≤ n by omega)
    rw [if_pos hk, ha]
    dsimp only
    rw [if_pos (by omega)]
    dsimp only
    rw [if_pos hu]
    dsimp only
    rw [hb]
    refine ⟨a, b, rfl, hal, hbl, hao, hbo, fun hall => ?_⟩
    have le : ∀ {j}, j ≤ n → Fits P O (r.offsetOf P O E + size * j) := fun {j} hj => by
      have : size * j ≤ n * size := by rw [Nat.mul_comm n]; exact Nat.mul_le_mul_left _ hj
      simp only [Fits] at hall ⊢
      omega
    constructor
    · intro i hi
      rw [get_eq hok hal hi (by rw [hao]; exact le (by omega)), get_eq hok hn (by omega) (le (by omega)), hao]
    · intro i hi
      have hsum : r.offsetOf P O E + k * size + size * i = r.offsetOf P O E + size * (k + i) := by
        rw [Nat.mul_add, Nat.mul_comm k]; omega
      rw [get_eq hok hbl hi (by rw [hbo, hsum]; exact le (by omega)), get_eq hok hn (by omega) (le (by omega))]
      simp only [element, hbo, hsum]
  · intro h
    by_cases hk : k ≤ n
    · have hf : ¬ Fits P O (r.offsetOf P O E + k * size) := fun hf => h ⟨hk, hf⟩
      obtain ⟨a, ha, -, -⟩ := hmeta hfo hk
      rw [if_pos hk, ha]
      dsimp only
      by_cases h1 : k * size < 2 ^ (8 * P.ptr)
      · rw [if_pos h1]
        dsimp only
        by_cases h2 : r.offsetOf P O E + k * size < 2 ^ (8 * P.ptr)
        · rw [if_pos h2]
          dsimp only
          simp only [Fits, pow_bytes] at hf
          rw [ZRef.withMetadata, tryFrom_none (by omega)]
        · rw [if_neg h2]
      · rw [if_neg h1]
    · rw [if_neg hk]

/-- The iterator is between two elements. -/
theorem run_eq (hok : O.ok P) {off size n : Nat} (hs : 0 < size) (hf : Fits P O (off + n * size)) :
    ∀ (calls : List Bool) (i j : Nat), i ≤ j → j ≤ n →
      RefIter.run P O E size calls ⟨off + size * i, off + size * j⟩ =
        .ok (deque calls ((List.range' i (j - i)).map (element P O E off size)))
  | [], _, _, _, _ => rfl
  | call :: calls, i, j, hij, hj => by
    have hle : size * j ≤ n * size := by rw [Nat.mul_comm n]; exact Nat.mul_le_mul_left _ hj
    by_cases hc : i = j
    · subst hc
      have ih := run_eq hok hs hf calls i i hij hj
      rw [Nat.sub_self] at ih ⊢
      cases call <;> simp only [RefIter.run, RefIter.next, RefIter.nextBack, Bind.bind, Except.bind, if_true, ih] <;>
        simp [deque]
    · have hlt : i < j := by omega
      have hlt' : size * i < size * j := Nat.mul_lt_mul_of_pos_left hlt hs
      have hne : off + size * i ≠ off + size * j := by omega
      obtain ⟨d, rfl⟩ : ∃ d, j = i + d + 1 := ⟨j - i - 1, by omega⟩
      have hu : Fits P O (off + size * (i + d + 1)) := by simp only [Fits] at hf ⊢; omega
      have hsucc : off + size * i + size = off + size * (i + 1) := by rw [Nat.mul_add]; omega
      have hpred : off + size * (i + d + 1) - size = off + size * (i + d) := by
        rw [Nat.mul_add size (i + d)]; omega
      cases call with
      | true =>
        have ih := run_eq hok hs hf calls (i + 1) (i + d + 1) (by omega) hj
        have h1 : size * (i + 1) ≤ size * (i + d + 1) := Nat.mul_le_mul_left _ (by omega)
        have h2 := fits_usize hok hu
        simp only [RefIter.run, RefIter.next, Bind.bind, Except.bind, if_true, usizeCheck]
        rw [if_neg hne, hsucc, if_pos (by omega)]
        dsimp only
        rw [new_ok (by simp only [Fits, pow_bytes] at hu; omega)]
        dsimp only
        rw [ih]
        dsimp only
        rw [show i + d + 1 - i = (i + d + 1 - (i + 1)) + 1 by omega, List.range'_succ]
        simp [deque, element]
      | false =>
        have ih := run_eq hok hs hf calls i (i + d) (by omega) (by omega)
        have h1 : size * (i + d) ≤ size * (i + d + 1) := Nat.mul_le_mul_left _ (by omega)
        simp only [RefIter.run, RefIter.nextBack, Bind.bind, Except.bind, Bool.false_eq_true, if_false]
        rw [if_neg hne, if_neg (by rw [Nat.mul_add size (i + d)]; omega), hpred]
        rw [new_ok (by simp only [Fits, pow_bytes] at hu; omega)]
        dsimp only
        rw [ih]
        dsimp only
        rw [show i + d + 1 - i = (i + d - i) + 1 by omega, List.range'_concat]
        simp [deque, element]

/-- **C56** (partial), `Ref::iter`: whatever calls of `next` and `next_back` are made, in any order and
number, they return what those of an iterator over the elements do: every element once, in order from both
ends, and then nothing.

Missing are elements of size zero, of which it is false (`C56_violated_by_zero_sized`). -/
theorem C56_iter_partial (hok : O.ok P) {r : ZRef} {n : Nat} (hn : r.lenOf P O E = some n) {size : Nat}
    (hs : 0 < size) (hf : Fits P O (r.offsetOf P O E + n * size)) :
    ∃ (es : List ZRef) (it : RefIter), es.length = n ∧ (∀ i, i < n → r.get P O E size i = .ok es[i]?) ∧
      r.iter P O E size = .ok it ∧ ∀ calls, RefIter.run P O E size calls it = .ok (deque calls es) := by
  have hu := fits_usize hok hf
  refine ⟨(List.range' 0 n).map (element P O E (r.offsetOf P O E) size),
    ⟨r.offsetOf P O E, r.offsetOf P O E + n * size⟩, by simp, ?_, ?_, ?_⟩
  · intro i hi
    have : size * i ≤ n * size := by rw [Nat.mul_comm n]; exact Nat.mul_le_mul_left _ (by omega)
    rw [get_eq hok hn hi (by simp only [Fits] at hf ⊢; omega)]
    rw [List.getElem?_map, List.getElem?_range' hi]
    simp
  · simp only [ZRef.iter, hn, Option.getD_some, usizeCheck, Bind.bind, Except.bind]
    rw [if_pos (by omega)]
    dsimp only
    rw [show O.asUsize P E r.offset = r.offsetOf P O E from rfl, if_pos hu]
  · intro calls
    have := run_eq (E := E) hok hs hf calls 0 n (by omega) (by omega)
    rw [Nat.mul_zero, Nat.add_zero, Nat.sub_zero, Nat.mul_comm size n] at this
    exact this

/-- **C56 is false** of iterators if the elements have size zero: `Ref::<[()]>::with_metadata(0, 3)` has three
elements, and its iterator returns none of them. -/
theorem C56_violated_by_zero_sized :
    let P : Platform := ⟨.little, 8⟩
    let r : ZRef := ⟨0, some 3⟩
    r.lenOf P .u32 .little = some 3 ∧ (r.get P .u32 .little 0 1).toOption = some (some ⟨0, none⟩) ∧
    ((r.iter P .u32 .little 0).toOption.bind fun it => (RefIter.run P .u32 .little 0 [true] it).toOption) =
      some [none] := by
  decide +kernel

/-- The slice at 0x100 of three `u32`, from both ends. -/
example :
    let P : Platform := ⟨.little, 8⟩
    let r : ZRef := ⟨0x00010000, some 0x03000000⟩
    r.lenOf P .u32 .big = some 3 ∧
    ((r.iter P .u32 .big 4).toOption.bind fun it =>
      (RefIter.run P .u32 .big 4 [true, false, true, false, true] it).toOption) =
      some [some ⟨0x00010000, none⟩, some ⟨0x08010000, none⟩, some ⟨0x04010000, none⟩, none, none] := by
  decide +kernel

open LayoutProps in
theorem isValue_array_iff [Host] {t : ZTy} (hw : t.WF) :
    ∀ {n : Nat} {s : Bytes}, s.length = n * t.size →
      (IsValue (.array t n) s ↔ ∀ i, i < n → IsValue t (range s (i * t.size) t.size))
  | 0, s, h => by
    rw [isValue_array_zero]
    have : s = [] := List.length_eq_zero_iff.1 (by omega)
    simp [this]
  | n + 1, s, h => by
    rw [Nat.add_mul, Nat.one_mul] at h
    have hs : s = s.take t.size ++ s.drop t.size := (List.take_append_drop _ _).symm
    have hx : (s.take t.size).length = t.size := by rw [List.length_take]; omega
    rw [hs, isValue_array_succ hw hx, isValue_array_iff hw (by rw [List.length_drop]; omega), ← hs]
    constructor
    · rintro ⟨h1, h2⟩ i hi
      cases i with
      | zero => simpa [range] using h1
      | succ i =>
        have := h2 i (by omega)
        rw [range, List.drop_drop] at this
        rw [range, Nat.add_mul, Nat.one_mul, Nat.add_comm (i * t.size)]
        exact this
    · intro h2
      refine ⟨by simpa [range] using h2 0 (by omega), fun i hi => ?_⟩
      have := h2 (i + 1) (by omega)
      rw [range, Nat.add_mul, Nat.one_mul, Nat.add_comm (i * t.size)] at this
      rw [range, List.drop_drop]
      exact this

open LayoutProps in
/-- **C56** (partial): a slice can be loaded exactly if its elements can be: for any address and contents of
a buffer and any reference to a slice in it, loading the slice gives some bytes if and only if loading every one
of the references to its elements gives the bytes of this element. An empty slice has to be in the buffer and
aligned.

Missing are types without `LoadOk`, see C51. -/
theorem C56_load_partial [Host] (hok : O.ok P) (ho : O ≠ .usize ∨ P.order = E) {r : ZRef} {n : Nat}
    (hn : r.lenOf P O E = some n) {base : Nat} {buf : Bytes} {t : ZTy} (hw : t.WF) (hl : t.LoadOk)
    (hbuf : buf.length < 2 ^ 63) (hf : Fits P O (r.offsetOf P O E + n * t.size))
    (hu : r.offsetOf P O E + n * t.size < 2 ^ 64) (s : Bytes) :
    loadSlice base buf t (r.offsetOf P O E) n = .ok s ↔
      s.length = n * t.size ∧
      (n = 0 → r.offsetOf P O E ≤ buf.length ∧ (base + r.offsetOf P O E) % 2 ^ t.lg = 0) ∧
      ∀ i, i < n → ∃ e, r.get P O E t.size i = .ok (some e) ∧
        loadSized base buf t (e.offsetOf P O E) = .ok (range s (i * t.size) t.size) := by
  have hle : ∀ {i}, i < n → i * t.size + t.size ≤ n * t.size := fun {i} hi => by
    have := Nat.mul_le_mul_right t.size (show i + 1 ≤ n by omega)
    rwa [Nat.add_mul, Nat.one_mul] at this
  have helem : ∀ {i}, i < n → ∃ e, r.get P O E t.size i = .ok (some e) ∧
      e.offsetOf P O E = r.offsetOf P O E + i * t.size := fun {i} hi => by
    have h1 := hle hi
    have h2 : Fits P O (r.offsetOf P O E + t.size * i) := by
      rw [Nat.mul_comm]; simp only [Fits] at hf ⊢; omega
    obtain ⟨e, h3, -, h4, -⟩ := (C56_get hok ho hn t.size i).2.1 hi h2
    exact ⟨e, h3, by rw [h4, Nat.mul_comm]⟩
  rw [(C51_load_slice_partial (base := base) (start := r.offsetOf P O E) (len := n) hw hl hbuf).1 s, ZTy.size]
  constructor
  · rintro ⟨h1, h2, rfl, h4⟩
    have hlen : (range buf (r.offsetOf P O E) (n * t.size)).length = n * t.size := slice_length h1
    refine ⟨hlen, fun _ => ⟨by omega, h2⟩, fun i hi => ?_⟩
    obtain ⟨e, he, heo⟩ := helem hi
    refine ⟨e, he, ?_⟩
    have h5 := hle hi
    rw [heo, (C51_load_partial (base := base) (buf := buf) hw hl (by omega)).1]
    refine ⟨by omega, ?_, ?_, (isValue_array_iff hw hlen).1 h4 i hi⟩
    · have hm : (i * t.size) % 2 ^ t.lg = 0 := by
        rw [Nat.mul_mod, size_mod t hw, Nat.mul_zero, Nat.zero_mod]
      rw [← Nat.add_assoc, Nat.add_mod, h2, hm]
      simp
    · simp only [range, List.drop_take, List.drop_drop, List.take_take]
      rw [Nat.min_eq_left (by omega)]
  · rintro ⟨h1, h2, h3⟩
    have hparts : ∀ i, i < n → r.offsetOf P O E + (i * t.size + t.size) ≤ buf.length ∧
        (base + (r.offsetOf P O E + i * t.size)) % 2 ^ t.lg = 0 ∧
        range s (i * t.size) t.size = range buf (r.offsetOf P O E + i * t.size) t.size ∧
        IsValue t (range s (i * t.size) t.size) := by
      intro i hi
      have h5 := hle hi
      obtain ⟨e, he, hload⟩ := h3 i hi
      obtain ⟨e', he', heo⟩ := helem hi
      rw [he] at he'
      cases he'
      rw [heo, (C51_load_partial (base := base) (buf := buf) hw hl (by omega)).1] at hload
      obtain ⟨h6, h7, h8, h9⟩ := hload
      exact ⟨by omega, h7, h8, h9⟩
    by_cases h0 : n = 0
    · subst h0
      obtain ⟨h4, h5⟩ := h2 rfl
      rw [Nat.zero_mul] at h1 ⊢
      have hs : s = [] := List.length_eq_zero_iff.1 h1
      exact ⟨h4, h5, by simp [hs, range], by rw [isValue_array_zero]; exact hs⟩
    · have hin : r.offsetOf P O E + n * t.size ≤ buf.length := by
        have h4 := (hparts (n - 1) (by omega)).1
        have : (n - 1) * t.size + t.size = n * t.size := by
          rw [← Nat.succ_mul, Nat.succ_eq_add_one, Nat.sub_add_cancel (by omega)]
        omega
      refine ⟨hin, by simpa using (hparts 0 (by omega)).2.1, ?_, (isValue_array_iff hw h1).2 fun i hi => (hparts i hi).2.2.2⟩
      -- the bytes are equal since those of all elements are
      have key : ∀ (n : Nat) (a b : Bytes), a.length = n * t.size → b.length = n * t.size →
          (∀ i, i < n → range a (i * t.size) t.size = range b (i * t.size) t.size) → a = b := by
        intro n
        induction n with
        | zero =>
          intro a b ha hb _
          rw [List.length_eq_zero_iff.1 (by omega : a.length = 0), List.length_eq_zero_iff.1 (by omega : b.length = 0)]
        | succ n ih =>
          intro a b ha hb h
          rw [Nat.add_mul, Nat.one_mul] at ha hb
          rw [← List.take_append_drop t.size a, ← List.take_append_drop t.size b]
          have h0 := h 0 (by omega)
          simp only [range, Nat.zero_mul, List.drop_zero] at h0
          rw [h0, ih (a.drop t.size) (b.drop t.size) (by rw [List.length_drop]; omega) (by rw [List.length_drop]; omega)]
          intro i hi
          have := h (i + 1) (by omega)
          simp only [range, List.drop_drop] at this ⊢
          rw [Nat.add_mul, Nat.one_mul, Nat.add_comm (i * t.size)] at this
          exact this
      refine key n s _ h1 (slice_length hin) fun i hi => ?_
      rw [(hparts i hi).2.2.1]
      have h5 := hle hi
      simp only [range, List.drop_take, List.drop_drop, List.take_take]
      rw [Nat.min_eq_left (by omega)]

/-! ## C57: coercions -/

/-- The number of bytes of a type. -/
def Elem.size : Elem → Nat
  | .int _ n => n
  | .nonzero _ n => n
  | .array t n => n * Elem.size t
  | .wrapping t => Elem.size t

/-- The number of bytes of the integers in a type. -/
def Elem.unit : Elem → Nat
  | .int _ n => n
  | .nonzero _ n => n
  | .array t _ => Elem.unit t
  | .wrapping t => Elem.unit t

/-- The alignment of a type, if `al n` is the one of the integers of `n` bytes. -/
def Elem.align (al : Nat → Nat) (t : Elem) : Nat := al (Elem.unit t)

/-- The number of bytes which a reference with that length refers to. -/
def Pointee.region : Pointee → Option Nat → Nat
  | .sized t, _ => Elem.size t
  | .slice t, len => len.getD 0 * Elem.size t
  | .str, len => len.getD 0

/-- The length, in elements, that a reference to that many bytes needs. -/
def Pointee.lenOf : Pointee → Nat → Option Nat
  | .sized _, _ => none
  | .slice t, bytes => some (bytes / Elem.size t)
  | .str, bytes => some bytes

def Pointee.align (al : Nat → Nat) : Pointee → Nat
  | .sized t => Elem.align al t
  | .slice t => Elem.align al t
  | .str => 1

/-- A reference has a length exactly if it refers to a slice or string. -/
def HasLen : Pointee → ZRef → Prop
  | .sized _, r => r.len = none
  | _, r => r.len.isSome

theorem coerceSlice_ok {t u : Elem} {f : Nat} (h : coerceSlice t u = some f) :
    f * Elem.size u = Elem.size t ∧ 0 < Elem.size u ∧ 0 < f ∧
    (∀ al : Nat → Nat, (∀ m n, m ≤ n → al m ≤ al n) → Elem.align al u ≤ Elem.align al t) := by
  simp only [coerceSlice, Option.map_eq_some_iff] at h
  obtain ⟨row, hrow, rfl⟩ := h
  have hmem := List.mem_of_find?_eq_some hrow
  have hp := List.find?_some hrow
  simp only [Bool.and_eq_true, List.contains_iff_mem] at hp
  obtain ⟨ht, hu⟩ := hp
  have hall : ∀ row ∈ sliceRows, ∀ t ∈ both row.2.1, ∀ u ∈ group row.2.2,
      row.1 * Elem.size u = Elem.size t ∧ 0 < Elem.size u ∧ 0 < row.1 ∧ Elem.unit u ≤ Elem.unit t := by
    decide +kernel
  obtain ⟨h1, h2, h3, h4⟩ := hall row hmem t ht u hu
  exact ⟨h1, h2, h3, fun al mono => mono _ _ h4⟩

theorem sameSize_ok {t u : Elem} (h : sameSize t u = true) :
    Elem.size u = Elem.size t ∧ Elem.unit u ≤ Elem.unit t := by
  simp only [sameSize, List.any_eq_true, Bool.and_eq_true, List.contains_iff_mem] at h
  obtain ⟨n, hn, ht, hu⟩ := h
  have hall : ∀ n ∈ [1, 2, 4, 8, 16], ∀ t ∈ both n, ∀ u ∈ group n,
      Elem.size u = Elem.size t ∧ Elem.unit u ≤ Elem.unit t := by decide +kernel
  exact hall n hn t ht u hu

theorem coerceSized_ok : ∀ {t u : Elem}, coerceSized t u = true →
    Elem.size u = Elem.size t ∧ Elem.unit u ≤ Elem.unit t
  | .int _ _, u, h => sameSize_ok (by simpa [coerceSized] using h)
  | .nonzero _ n, .int s m, h => by
    simp only [coerceSized, both, Bool.and_eq_true, List.contains_iff_mem, List.mem_cons, List.not_mem_nil,
      Elem.int.injEq, or_false] at h
    have : m = n := by rcases h.1 with h | h <;> exact h.2
    simp [Elem.size, Elem.unit, this]
  | .nonzero _ _, .nonzero _ _, h => by simp [coerceSized] at h
  | .nonzero _ _, .array _ _, h => by simp [coerceSized] at h
  | .nonzero _ _, .wrapping _, h => by simp [coerceSized] at h
  | .array _ _, u, h => by simp [coerceSized] at h
  | .wrapping t, u, h => by
    rw [coerceSized] at h
    have := coerceSized_ok h
    exact this

/-- What a coercion does to lengths: it multiplies. -/
theorem coerceTo_ok {from_ to_ : Pointee} {c : Resize} (h : coerceTo from_ to_ = some c) :
    (∀ al : Nat → Nat, al 1 = 1 → (∀ m n, m ≤ n → al m ≤ al n) → (∀ n, 0 < al n) →
      Pointee.align al to_ ≤ Pointee.align al from_) ∧
    match c with
    | .keep => ∃ t u, from_ = .sized t ∧ to_ = .sized u ∧ Elem.size u = Elem.size t
    | .times f => 0 < f ∧ ∀ k, Pointee.lenOf to_ (Pointee.region from_ (some k)) = some (k * f) ∧
        Pointee.region to_ (some (k * f)) = Pointee.region from_ (some k) ∧ ∀ r, HasLen from_ r → r.len.isSome
    | .count n f => 0 < f ∧ Pointee.lenOf to_ (Pointee.region from_ none) = some (n * f) ∧
        Pointee.region to_ (some (n * f)) = Pointee.region from_ none ∧ ∀ r, HasLen from_ r → r.len = none := by
  have div : ∀ {k f u t : Nat}, f * u = t → 0 < u → k * t / u = k * f := by
    intro k f u t h1 h2
    rw [← h1, ← Nat.mul_assoc, Nat.mul_div_cancel _ h2]
  have slice : ∀ {t u : Elem} {f k : Nat}, coerceSlice t u = some f →
      k * Elem.size t / Elem.size u = k * f ∧ k * f * Elem.size u = k * Elem.size t := by
    intro t u f k hs
    obtain ⟨h1, h2, -, -⟩ := coerceSlice_ok hs
    exact ⟨div h1 h2, by rw [Nat.mul_assoc, h1]⟩
  cases from_ with
  | slice t =>
    cases to_ with
    | sized u => simp [coerceTo] at h
    | slice u =>
      simp only [coerceTo, Option.map_eq_some_iff] at h
      obtain ⟨f, hf, rfl⟩ := h
      obtain ⟨-, -, h3, h4⟩ := coerceSlice_ok hf
      exact ⟨fun al _ mono _ => h4 al mono, h3, fun k => ⟨by simp [Pointee.lenOf, Pointee.region, (slice hf).1],
        by simp [Pointee.region, (slice hf).2], fun r hr => hr⟩⟩
    | str =>
      simp only [coerceTo, Option.map_eq_some_iff] at h
      obtain ⟨f, hf, rfl⟩ := h
      obtain ⟨h1, -, h3, h4⟩ := coerceSlice_ok hf
      simp only [Elem.size, Nat.mul_one] at h1
      exact ⟨fun al _ mono pos => by simp only [Pointee.align, Elem.align]; exact pos _,
        h3, fun k => ⟨by simp [Pointee.lenOf, Pointee.region, h1],
        by simp [Pointee.region, h1], fun r hr => hr⟩⟩
  | str =>
    cases to_ with
    | sized u => simp [coerceTo] at h
    | str => simp [coerceTo] at h
    | slice u =>
      simp only [coerceTo, Option.map_eq_some_iff] at h
      obtain ⟨f, hf, rfl⟩ := h
      obtain ⟨h1, h2, h3, h4⟩ := coerceSlice_ok hf
      have h5 : ∀ k, k / Elem.size u = k * f ∧ k * f * Elem.size u = k := fun k => by
        have := slice (k := k) hf
        simpa [Elem.size] using this
      refine ⟨fun al one mono pos => ?_, h3, fun k => ⟨by simp [Pointee.lenOf, Pointee.region, (h5 k).1],
        by simp [Pointee.region, (h5 k).2], fun r hr => hr⟩⟩
      have := h4 al mono
      simp only [Pointee.align]
      rw [← one]
      exact this
  | sized t =>
    cases to_ with
    | sized u =>
      simp only [coerceTo] at h
      split at h
      · next hc =>
        cases h
        obtain ⟨h1, h2⟩ := coerceSized_ok hc
        exact ⟨fun al _ mono _ => mono _ _ h2, t, u, rfl, rfl, h1⟩
      · cases h
    | str => cases t <;> simp [coerceTo] at h
    | slice u =>
      have one : ∀ {t : Elem} {f : Nat}, coerceSlice t u = some f →
          (∀ al : Nat → Nat, al 1 = 1 → (∀ m n, m ≤ n → al m ≤ al n) → (∀ n, 0 < al n) →
            Pointee.align al (.slice u) ≤ Pointee.align al (.sized t)) ∧ 0 < f ∧
          Pointee.lenOf (.slice u) (Pointee.region (.sized t) none) = some (1 * f) ∧
          Pointee.region (.slice u) (some (1 * f)) = Pointee.region (.sized t) none ∧
          ∀ r, HasLen (.sized t) r → r.len = none := by
        intro t f hf
        obtain ⟨-, -, h3, h4⟩ := coerceSlice_ok hf
        have h5 := slice (k := 1) hf
        rw [Nat.one_mul] at h5
        exact ⟨fun al _ mono _ => h4 al mono, h3, by simp [Pointee.lenOf, Pointee.region, h5.1],
          by simp only [Pointee.region, Option.getD_some]; exact h5.2, fun r hr => hr⟩
      cases t with
      | array t n =>
        simp only [coerceTo, Option.map_eq_some_iff] at h
        obtain ⟨f, hf, rfl⟩ := h
        obtain ⟨-, -, h3, h4⟩ := coerceSlice_ok hf
        have h5 := slice (k := n) hf
        exact ⟨fun al _ mono _ => h4 al mono, h3, by simp [Pointee.lenOf, Pointee.region, Elem.size, h5.1],
          by simp only [Pointee.region, Option.getD_some]; exact h5.2, fun r hr => hr⟩
      | int sg n =>
        simp only [coerceTo, Option.map_eq_some_iff] at h
        obtain ⟨f, hf, rfl⟩ := h
        exact one hf
      | nonzero sg n =>
        simp only [coerceTo, Option.map_eq_some_iff] at h
        obtain ⟨f, hf, rfl⟩ := h
        exact one hf
      | wrapping t =>
        simp only [coerceTo, Option.map_eq_some_iff] at h
        obtain ⟨f, hf, rfl⟩ := h
        exact one hf

theorem native_offset (hok : O.ok P) {r : ZRef} (hr : Stored P O r) :
    r.offsetOf P O P.order = r.offset ∧ r.lenOf P O P.order = r.len := by
  obtain ⟨off, len⟩ := r
  simp only [Stored, pow_bytes] at hr
  have h1 : ∀ {n}, n < 256 ^ O.bytes P → O.asUsize P P.order n = n := fun hn => by
    rw [asUsize_eq hok hn (.inr rfl)]; simp [orderSwap]
  refine ⟨h1 hr.1, ?_⟩
  cases len with
  | none => rfl
  | some k => simp [ZRef.lenOf, h1 (hr.2 k rfl)]

/-- **C57** (partial), `Ref::coerce` and `Ref::try_coerce` of references in the byte order of the platform, for
all implementations of `Coerce`: the result refers to the same bytes: it has the same offset, and the length, in
elements of the other type, of these bytes; the alignment which the other type needs is not stricter. If this
length is not in range then `try_coerce` is `None`.

Missing are references in the other byte order, of which it is false (`C57_violated_by_byte_order`). -/
theorem C57_coerce_partial (hok : O.ok P) {from_ to_ : Pointee} {c : Resize} (hc : coerceTo from_ to_ = some c)
    {r : ZRef} (hr : Stored P O r) (hl : HasLen from_ r) :
    let len := r.lenOf P O P.order
    let len' := Pointee.lenOf to_ (Pointee.region from_ len)
    (∀ al : Nat → Nat, al 1 = 1 → (∀ m n, m ≤ n → al m ≤ al n) → (∀ n, 0 < al n) →
      Pointee.align al to_ ≤ Pointee.align al from_) ∧
    Pointee.region to_ len' = Pointee.region from_ len ∧
    ((∀ n, len' = some n → Fits P O n) → r.tryCoerce P O c = some (r.coerce P O c) ∧
      (r.coerce P O c).offsetOf P O P.order = r.offsetOf P O P.order ∧
      (r.coerce P O c).lenOf P O P.order = len') ∧
    (¬ (∀ n, len' = some n → Fits P O n) → r.tryCoerce P O c = none) := by
  have hn := native_offset hok hr
  intro len len'
  have hlen : len = r.len := hn.2
  obtain ⟨hal, hm⟩ := coerceTo_ok hc
  refine ⟨hal, ?_⟩
  have hfit : ∀ {k}, Fits P O k → O.asUsize P P.order k = k := fun hk => by
    simp only [Fits, pow_bytes] at hk
    rw [asUsize_eq hok hk (.inr rfl)]; simp [orderSwap]
  have hoff : (r.coerce P O c).offsetOf P O P.order = r.offsetOf P O P.order := rfl
  cases c with
  | keep =>
    obtain ⟨t, u, rfl, rfl, hsz⟩ := hm
    have hl0 : r.len = none := hl
    have h0 : len' = none := rfl
    refine ⟨hsz, fun _ => ⟨rfl, hoff, ?_⟩, fun h => absurd (fun n hn => by rw [h0] at hn; cases hn) h⟩
    rw [h0]
    simp [ZRef.coerce, ZRef.lenOf, coerceMeta, hl0]
  | times f =>
    obtain ⟨hf0, hm⟩ := hm
    obtain ⟨k, hk⟩ := Option.isSome_iff_exists.1 ((hm 0).2.2 r hl)
    have h1 : len = some k := by rw [hlen, hk]
    have h2 : len' = some (k * f) := by show Pointee.lenOf to_ (Pointee.region from_ len) = _; rw [h1]; exact (hm k).1
    refine ⟨by rw [h2, h1]; exact (hm k).2.1, fun hfits => ?_, fun hfits => ?_⟩
    · have hkf := hfits _ h2
      have hkf' : k * f < 2 ^ (8 * O.bytes P) := hkf
      refine ⟨?_, hoff, ?_⟩
      · simp only [ZRef.tryCoerce, tryCoerceMeta, hk, checkedMul, ZRef.coerce, coerceMeta, Option.map_some, wrappingMul]
        rw [tryFrom_some (by rw [← pow_bytes]; exact hkf'), Nat.mod_eq_of_lt hkf']
        rfl
      · simp only [ZRef.lenOf, ZRef.coerce, coerceMeta, hk, Option.map_some, wrappingMul, Nat.mod_eq_of_lt hkf',
          hfit hkf, h2]
    · have hkf : ¬ Fits P O (k * f) := fun h => hfits fun n hn => by rw [h2] at hn; cases hn; exact h
      simp only [Fits, pow_bytes] at hkf
      simp only [ZRef.tryCoerce, tryCoerceMeta, hk, checkedMul]
      rw [tryFrom_none (by omega)]
      rfl
  | count n f =>
    obtain ⟨hf0, hm1, hm2, hm3⟩ := hm
    have h1 : len = none := by rw [hlen, hm3 r hl]
    have h2 : len' = some (n * f) := by show Pointee.lenOf to_ (Pointee.region from_ len) = _; rw [h1]; exact hm1
    have hnf : n ≤ n * f := Nat.le_mul_of_pos_right n hf0
    refine ⟨by rw [h2, h1]; exact hm2, fun hfits => ?_, fun hfits => ?_⟩
    · have hkf := hfits _ h2
      have hkf' : n * f < 2 ^ (8 * O.bytes P) := hkf
      have hkn : O.tryFrom P n = some n := tryFrom_some (by rw [← pow_bytes]; omega)
      refine ⟨?_, hoff, ?_⟩
      · simp only [ZRef.tryCoerce, tryCoerceMeta, checkedMul, ZRef.coerce, coerceMeta, wrappingMul, hkn,
          Bind.bind, Option.bind, Option.getD_some]
        rw [tryFrom_some (by rw [← pow_bytes]; exact hkf'), Nat.mod_eq_of_lt hkf']
        rfl
      · simp only [ZRef.lenOf, ZRef.coerce, coerceMeta, Option.map_some, wrappingMul, hkn, Option.getD_some,
          Nat.mod_eq_of_lt hkf', hfit hkf, h2]
    · have hkf : ¬ Fits P O (n * f) := fun h => hfits fun m hm => by rw [h2] at hm; cases hm; exact h
      simp only [Fits, pow_bytes] at hkf
      simp only [ZRef.tryCoerce, tryCoerceMeta, checkedMul, Bind.bind, Option.bind]
      cases hkn : O.tryFrom P n with
      | none => rfl
      | some m =>
        have : m = n := by
          simp only [SizeTy.tryFrom] at hkn
          split at hkn
          · cases hkn
          · cases hkn; rfl
        subst this
        dsimp only
        rw [tryFrom_none (by omega)]
        rfl

/-- **C57** (partial), `Ref::array_into_slice` in the byte order of the platform: the slice is where the array
is, and has its length. Missing is the other byte order (`C57_violated_by_array_into_slice`). -/
theorem C57_array_into_slice_partial (hok : O.ok P) {r : ZRef} (hr : Stored P O r) {n : Nat} (hn : Fits P O n) :
    ∃ r', r.arrayIntoSlice P O P.order n = .ok r' ∧ r'.offsetOf P O P.order = r.offsetOf P O P.order ∧
      r'.lenOf P O P.order = some n := by
  obtain ⟨r', h1, -, -, -, h2, h3, -⟩ := (C55_construct_partial (E := P.order) hok (.inr rfl) r.offset (some n)).1
    ⟨hr.1, fun m hm => by cases hm; exact hn⟩
  exact ⟨r', h1, by rw [h2, (native_offset hok hr).1], h3⟩

/-- `Ref<[u32]>` to `Ref<[u8]>`: five elements are twenty. With `u8` as size, 64 elements are too many. -/
example : coerceTo (.slice (.int false 4)) (.slice (.int false 1)) = some (.times 4) ∧
    ZRef.tryCoerce ⟨.little, 8⟩ .u32 (.times 4) ⟨0, some 5⟩ = some ⟨0, some 20⟩ ∧
    ZRef.tryCoerce ⟨.little, 8⟩ .u8 (.times 4) ⟨0, some 64⟩ = none := by decide +kernel

/-- **C57 is false** in the other byte order, since the metadata is not swapped before it is multiplied, nor
the length of the result afterwards. On a little-endian platform, a `Ref<u64, Big>` becomes a `Ref<[u32], Big>`
of length 0x02000000 instead of 2. And a `Ref<[u32], Big, u16>` of 64 elements cannot be coerced to `[u8]`,
though 256 is in range. -/
theorem C57_violated_by_byte_order :
    let P : Platform := ⟨.little, 8⟩
    (coerceTo (.sized (.int false 8)) (.slice (.int false 4)) = some (.count 1 2) ∧
      (ZRef.zero.coerce P .u32 (.count 1 2)).lenOf P .u32 .big = some 0x02000000) ∧
    coerceTo (.slice (.int false 4)) (.slice (.int false 1)) = some (.times 4) ∧
      ((ZRef.withMetadata P .u16 .big 0 (some 64)).toOption.map fun r => r.tryCoerce P .u16 (.times 4)) =
        some none := by
  decide +kernel

/-- **C57 is false** of `array_into_slice` in the other byte order: the offset is swapped once more.
`Ref::<[u32; 2], Big>::new(8).array_into_slice().offset()` is not 8. -/
theorem C57_violated_by_array_into_slice :
    let P : Platform := ⟨.little, 8⟩
    ((ZRef.new P .u32 .big 8).toOption.bind fun r => (r.arrayIntoSlice P .u32 .big 2).toOption).map
      (ZRef.offsetOf P .u32 .big) = some 0x08000000 := by
  decide +kernel

end
/-! ## Which coercions there are -/

/-- The sizes of the integers, in bytes. -/
def sizes : List Nat := [1, 2, 4, 8, 16]

/-- What a slice of integers may be seen as a slice of, `k` bytes each: integers, and arrays of at least two
integers. -/
inductive Target : Elem → Nat → Prop
  | int (s : Bool) {k : Nat} (hk : k ∈ sizes) : Target (.int s k) k
  | array (s : Bool) {b n : Nat} (hb : b ∈ sizes) (hn : 2 ≤ n) (h : b * n ∈ sizes) :
    Target (.array (.int s b) n) (b * n)

private theorem le_of_sizes {k : Nat} (h : k ∈ sizes) : 1 ≤ k ∧ k ≤ 16 := by
  have := (by decide : ∀ k ∈ sizes, 1 ≤ k ∧ k ≤ 16)
  exact this k h

private theorem target_of_group {u : Elem} : ∀ k ∈ sizes, u ∈ group k → Target u k := by
      intro k hk h
      simp only [sizes, List.mem_cons, List.not_mem_nil, or_false] at hk
      rcases hk with rfl | rfl | rfl | rfl | rfl <;>
        simp only [group, both, bothArrays, List.mem_cons, List.not_mem_nil, or_false, List.mem_append] at h <;>
        repeat' (rcases h with h | h)
      all_goals first
        | (exact .int _ (by decide))
        | (exact .array _ (b := 1) (n := 2) (by decide) (by decide) (by decide))
        | (exact .array _ (b := 2) (n := 2) (by decide) (by decide) (by decide))
        | (exact .array _ (b := 4) (n := 2) (by decide) (by decide) (by decide))
        | (exact .array _ (b := 8) (n := 2) (by decide) (by decide) (by decide))
        | (exact .array _ (b := 1) (n := 4) (by decide) (by decide) (by decide))
        | (exact .array _ (b := 2) (n := 4) (by decide) (by decide) (by decide))
        | (exact .array _ (b := 4) (n := 4) (by decide) (by decide) (by decide))
        | (exact .array _ (b := 1) (n := 8) (by decide) (by decide) (by decide))
        | (exact .array _ (b := 2) (n := 8) (by decide) (by decide) (by decide))
        | (exact .array _ (b := 1) (n := 16) (by decide) (by decide) (by decide))

private theorem group_of_target {u : Elem} {k : Nat} (h : Target u k) : k ∈ sizes ∧ u ∈ group k := by
  cases h with
  | int s hk =>
    exact ⟨hk, (by decide : ∀ k ∈ sizes, ∀ s, Elem.int s k ∈ group k) k hk s⟩
  | @array s b n hb hn h =>
    have := (by decide +kernel : ∀ b ∈ sizes, ∀ n < 17, 2 ≤ n → b * n ∈ sizes → ∀ s,
      Elem.array (.int s b) n ∈ group (b * n))
    refine ⟨h, this b hb n ?_ hn h s⟩
    have := le_of_sizes h
    have := le_of_sizes hb
    have : 1 * n ≤ b * n := Nat.mul_le_mul_right n (by omega)
    omega

private theorem mem_both {t : Elem} {a : Nat} : t ∈ both a ↔ ∃ s, t = .int s a := by
  simp only [both, List.mem_cons, List.not_mem_nil, or_false]
  constructor
  · rintro (rfl | rfl) <;> exact ⟨_, rfl⟩
  · rintro ⟨_ | _, rfl⟩ <;> simp

private theorem coerceSlice_iff (t u : Elem) (f : Nat) :
    coerceSlice t u = some f ↔
      ∃ s a k, t = .int s a ∧ a ∈ sizes ∧ Target u k ∧ k ≤ a ∧ f = a / k := by
  constructor
  · intro h
    unfold coerceSlice at h
    obtain ⟨row, h1, rfl⟩ := Option.map_eq_some_iff.1 h
    have hm := List.mem_of_find?_eq_some h1
    have hp := List.find?_some h1
    simp only [Bool.and_eq_true, List.contains_iff_mem] at hp
    have key : ∀ row ∈ sliceRows, row.2.1 ∈ sizes ∧ row.2.2 ∈ sizes ∧ row.2.2 ≤ row.2.1 ∧
        row.1 = row.2.1 / row.2.2 := by decide
    obtain ⟨k1, k2, k3, k4⟩ := key row hm
    obtain ⟨s, hs⟩ := mem_both.1 hp.1
    exact ⟨s, _, _, hs, k1, target_of_group _ k2 hp.2, k3, k4⟩
  · rintro ⟨s, a, k, rfl, ha, hu, hk, rfl⟩
    cases hu with
    | int s' hk' =>
      have := (by decide +kernel : ∀ a ∈ sizes, ∀ k ∈ sizes, k ≤ a → ∀ s s',
        coerceSlice (.int s a) (.int s' k) = some (a / k))
      exact this a ha k hk' hk s s'
    | @array s' b n hb hn h =>
      have := (by decide +kernel : ∀ a ∈ sizes, ∀ b ∈ sizes, ∀ n < 17, (2 ≤ n ∧ b * n ∈ sizes ∧ b * n ≤ a) → ∀ s s',
        coerceSlice (.int s a) (.array (.int s' b) n) = some (a / (b * n)))
      refine this a ha b hb n ?_ ⟨hn, h, hk⟩ s s'
      have := le_of_sizes h
      have := le_of_sizes hb
      have : 1 * n ≤ b * n := Nat.mul_le_mul_right n (by omega)
      omega

private theorem sameSize_iff (t u : Elem) :
    sameSize t u = true ↔ ∃ s a, t = .int s a ∧ Target u a := by
  simp only [sameSize, List.any_eq_true, Bool.and_eq_true, List.contains_iff_mem, mem_both]
  constructor
  · rintro ⟨k, hk, ⟨s, rfl⟩, hu⟩
    exact ⟨s, k, rfl, target_of_group k hk hu⟩
  · rintro ⟨s, a, rfl, h⟩
    exact ⟨a, (group_of_target h).1, ⟨s, rfl⟩, (group_of_target h).2⟩

private theorem sized_iff (t u : Elem) (c : Resize) :
    coerceTo (.sized t) (.sized u) = some c ↔ coerceSized t u = true ∧ c = .keep := by
  have e : coerceTo (.sized t) (.sized u) = if coerceSized t u then some .keep else none := by cases t <;> rfl
  rw [e]
  cases coerceSized t u <;> simp [eq_comm]

/-- **C57**, which coercions there are. Slices of integers are coerced to slices of integers and of arrays of
integers whose size is at most theirs, and the length is multiplied by the quotient; so are integers and arrays,
to slices; an integer is coerced to what has its size, a `NonZero` to the integers of its size, and a `Wrapping`
to what its contents are coerced to. -/
theorem C57_which (t u : Elem) :
    (∀ c, coerceTo (.slice t) (.slice u) = some c ↔
      ∃ s a k, t = .int s a ∧ a ∈ sizes ∧ Target u k ∧ k ≤ a ∧ c = .times (a / k)) ∧
    (∀ c, coerceTo .str (.slice u) = some c ↔ (∃ s, u = .int s 1) ∧ c = .times 1) ∧
    (∀ c, coerceTo (.slice t) .str = some c ↔ ∃ s a, t = .int s a ∧ a ∈ sizes ∧ c = .times a) ∧
    (∀ s a c, coerceTo (.sized (.int s a)) (.slice u) = some c ↔
      ∃ k, a ∈ sizes ∧ Target u k ∧ k ≤ a ∧ c = .count 1 (a / k)) ∧
    (∀ n c, coerceTo (.sized (.array t n)) (.slice u) = some c ↔
      ∃ s a k, t = .int s a ∧ a ∈ sizes ∧ Target u k ∧ k ≤ a ∧ c = .count n (a / k)) ∧
    (∀ s a c, coerceTo (.sized (.int s a)) (.sized u) = some c ↔ Target u a ∧ c = .keep) ∧
    (∀ s a c, coerceTo (.sized (.nonzero s a)) (.sized u) = some c ↔
      a ∈ sizes ∧ (∃ s', u = .int s' a) ∧ c = .keep) ∧
    (∀ c, coerceTo (.sized (.wrapping t)) (.sized u) = some c ↔ coerceTo (.sized t) (.sized u) = some c) ∧
    (∀ n, coerceTo (.sized (.array t n)) (.sized u) = none) := by
  have one : ∀ k, Target u k → k ≤ 1 → ∃ s, u = .int s 1 := by
    intro k h hk
    cases h with
    | int s h => exact ⟨s, by have := le_of_sizes h; congr 1; omega⟩
    | @array s b n hb hn h =>
      have := le_of_sizes hb
      have : 1 * n ≤ b * n := Nat.mul_le_mul_right n (by omega)
      omega
  refine ⟨fun c => ?_, fun c => ?_, fun c => ?_, fun s a c => ?_, fun n c => ?_, fun s a c => ?_, fun s a c => ?_,
    fun c => ?_, fun n => rfl⟩
  · simp only [coerceTo, Option.map_eq_some_iff, coerceSlice_iff]
    constructor
    · rintro ⟨f, ⟨s, a, k, h1, h2, h3, h4, rfl⟩, rfl⟩
      exact ⟨s, a, k, h1, h2, h3, h4, rfl⟩
    · rintro ⟨s, a, k, h1, h2, h3, h4, rfl⟩
      exact ⟨_, ⟨s, a, k, h1, h2, h3, h4, rfl⟩, rfl⟩
  · simp only [coerceTo, Option.map_eq_some_iff, coerceSlice_iff]
    constructor
    · rintro ⟨f, ⟨s, a, k, h1, h2, h3, h4, rfl⟩, rfl⟩
      cases h1
      obtain ⟨s', h⟩ := one k h3 h4
      subst h
      refine ⟨⟨s', rfl⟩, ?_⟩
      cases h3; rfl
    · rintro ⟨⟨s, rfl⟩, rfl⟩
      exact ⟨1, ⟨false, 1, 1, rfl, by decide, .int s (by decide), Nat.le_refl _, rfl⟩, rfl⟩
  · simp only [coerceTo, Option.map_eq_some_iff, coerceSlice_iff]
    constructor
    · rintro ⟨f, ⟨s, a, k, h1, h2, h3, h4, rfl⟩, rfl⟩
      cases h3
      exact ⟨s, a, h1, h2, by simp⟩
    · rintro ⟨s, a, h1, h2, rfl⟩
      exact ⟨a, ⟨s, a, 1, h1, h2, .int _ (by decide), (le_of_sizes h2).1, by simp⟩, rfl⟩
  · simp only [coerceTo, Option.map_eq_some_iff, coerceSlice_iff]
    constructor
    · rintro ⟨f, ⟨s, a, k, h1, h2, h3, h4, rfl⟩, rfl⟩
      cases h1
      exact ⟨k, h2, h3, h4, rfl⟩
    · rintro ⟨k, h2, h3, h4, rfl⟩
      exact ⟨_, ⟨s, a, k, rfl, h2, h3, h4, rfl⟩, rfl⟩
  · simp only [coerceTo, Option.map_eq_some_iff, coerceSlice_iff]
    constructor
    · rintro ⟨f, ⟨s, a, k, h1, h2, h3, h4, rfl⟩, rfl⟩
      exact ⟨s, a, k, h1, h2, h3, h4, rfl⟩
    · rintro ⟨s, a, k, h1, h2, h3, h4, rfl⟩
      exact ⟨_, ⟨s, a, k, h1, h2, h3, h4, rfl⟩, rfl⟩
  · rw [sized_iff]
    have : coerceSized (.int s a) u = true ↔ Target u a := by
      show sameSize (.int s a) u = true ↔ _
      rw [sameSize_iff]
      constructor
      · rintro ⟨s', a', e, ht⟩
        cases e
        exact ht
      · exact fun h => ⟨s, a, rfl, h⟩
    rw [this]
  · rw [sized_iff]
    have : coerceSized (.nonzero s a) u = true ↔ a ∈ sizes ∧ ∃ s', u = .int s' a := by
      cases u with
      | int s' m =>
        simp only [coerceSized, Bool.and_eq_true, List.contains_iff_mem, mem_both]
        exact ⟨fun h => ⟨h.2, h.1⟩, fun h => ⟨h.2, h.1⟩⟩
      | _ => simp [coerceSized]
    rw [this, and_assoc]
  · rw [sized_iff, sized_iff]
    rfl

/-- `[u64]` is coerced to `[[i16; 2]]`, with a factor of two. -/
example : coerceTo (.slice (.int false 8)) (.slice (.array (.int true 2) 2)) = some (.times 2) :=
  ((C57_which _ _).1 _).2 ⟨false, 8, 4, rfl, by decide, .array true (b := 2) (n := 2) (by decide) (by decide) (by decide),
    by decide, rfl⟩

theorem toLittle_zero (w : Nat) : toLittle w 0 = List.replicate w 0#8 := by
  induction w with
  | zero => rfl
  | succ w ih => rw [toLittle, Nat.zero_div, ih]; rfl

theorem little_zeros (w : Nat) : Grammar.little (List.replicate w 0#8) = 0 := by
  induction w with
  | zero => rfl
  | succ w ih => rw [List.replicate_succ, Grammar.little, ih]; rfl

theorem swapNum_zero (w : Nat) : swapNum w 0 = 0 := by
  rw [swapNum, toLittle_zero, List.reverse_replicate, little_zeros]

/-- `Ref::zero` has the offset zero, on every platform, in every size and byte order. -/
theorem zero_offset (P : Platform) (O : SizeTy) (E : ByteOrder) : ZRef.zero.offsetOf P O E = 0 := by
  unfold ZRef.offsetOf ZRef.zero
  cases O <;> simp [SizeTy.asUsize, orderSwap, swapNum_zero]

end Musli.Zero.RefProps
