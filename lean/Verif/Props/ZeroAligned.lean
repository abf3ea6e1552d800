import Verif.Proofs.Zero.Mutable
import Verif.Props.ZeroOwned
/-!
# C127: aligned copies of buffers
-/
set_option linter.unusedSectionVars false
namespace Musli.Zero.AlignedProps
open Musli Musli.Zero Musli.Zero.LayoutProps Musli.Zero.OwnedProps

/-! ## Lemmas -/

theorem isPowerOfTwo_iff (n : Nat) : isPowerOfTwo n = true ↔ ∃ lg, n = 2 ^ lg := by
  have h := Nat.ne_zero_and_sub_one_eq_zero_iff_isPowerOfTwo (n := n)
  rw [isPowerOfTwo]
  simp only [Bool.and_eq_true, bne_iff_ne, ne_eq, beq_iff_eq]
  exact h

theorem trailingZeros_spec (addr : Nat) : ∀ n, trailingZeros addr n ≤ n ∧ addr % 2 ^ trailingZeros addr n = 0 ∧
    ∀ lg, lg ≤ n → addr % 2 ^ lg = 0 → lg ≤ trailingZeros addr n
  | 0 => ⟨Nat.le_refl _, by simp [trailingZeros, Nat.mod_one], fun lg h _ => h⟩
  | n + 1 => by
    rw [trailingZeros]
    by_cases h : addr % 2 ^ (n + 1) = 0
    · rw [if_pos h]
      exact ⟨Nat.le_refl _, h, fun lg hl _ => hl⟩
    · rw [if_neg h]
      obtain ⟨h1, h2, h3⟩ := trailingZeros_spec addr n
      refine ⟨by omega, h2, fun lg hl ha => ?_⟩
      by_cases hlg : lg = n + 1
      · subst hlg; exact absurd ha h
      · exact h3 lg (by omega) ha

section
variable {env : Env}

theorem new_spec {capacity lg : Nat} (hok : layoutOk capacity lg = true) :
    ∃ b, Owned.new env capacity lg = .ok b ∧ b.fixed = false ∧ b.data = [] ∧ b.capacity = capacity ∧
      b.requested = lg ∧ b.align = lg ∧ (env.Lawful → b.addr % 2 ^ lg = 0) := by
  unfold Owned.new
  dsimp only
  by_cases h0 : capacity = 0
  · rw [if_pos h0]
    exact ⟨_, rfl, rfl, rfl, h0.symm, rfl, rfl, fun _ => Nat.mod_self _⟩
  · rw [if_neg h0, if_pos hok, allocBlock, if_neg h0]
    exact ⟨_, rfl, rfl, rfl, rfl, rfl, rfl, fun hl => hl _ _ _⟩

theorem ensureCapacity_aligned (hlaw : env.Lawful) {b b' : Owned} {c : Nat} (hf : b.fixed = false)
    (ha : b.align = b.requested) (haddr : b.addr % 2 ^ b.requested = 0) (h : ensureCapacity env b c = .ok b') :
    b'.addr % 2 ^ b'.requested = 0 := by
  unfold ensureCapacity at h
  dsimp only at h
  by_cases h1 : b.capacity ≥ max c (2 ^ b.requested)
  · rw [if_pos h1] at h; cases h; exact haddr
  rw [if_neg h1, hf, if_neg (by simp)] at h
  generalize max (max c (2 ^ b.requested)) (env.grow b.capacity) = n at h
  by_cases h2 : layoutOk n b.requested = true
  · rw [if_pos h2] at h
    by_cases h3 : b.capacity = 0
    · rw [if_pos h3] at h
      unfold allocInit allocBlock at h
      by_cases h4 : n = 0
      · rw [if_pos h4] at h; exact nomatch h
      · rw [if_neg h4] at h; cases h; exact hlaw _ _ _
    · rw [if_neg h3, if_pos ha.symm] at h
      unfold allocRealloc allocBlock at h
      by_cases h4 : n = 0
      · rw [if_pos h4] at h; exact nomatch h
      · rw [if_neg h4] at h
        simp only [Bind.bind, Except.bind, deallocBlock] at h
        split at h
        · exact nomatch h
        · rename_i x hx
          split at hx
          · cases hx
            cases h
            rw [ha]
            exact hlaw _ _ _
          · exact nomatch hx
  · rw [if_neg h2] at h; exact nomatch h

theorem extend_aligned (hlaw : env.Lawful) {b b' : Owned} {s : Bytes} (hf : b.fixed = false)
    (ha : b.align = b.requested) (haddr : b.addr % 2 ^ b.requested = 0) (h : extend env b s = .ok b') :
    b'.addr % 2 ^ b'.requested = 0 := by
  unfold extend reserve at h
  by_cases h1 : b.len + s.length ≥ 2 ^ 64
  · rw [if_pos h1] at h; exact nomatch h
  rw [if_neg h1] at h
  cases hc : ensureCapacity env b (b.len + s.length) with
  | error e => rw [hc] at h; exact nomatch h
  | ok b1 =>
    rw [hc] at h
    have := ensureCapacity_aligned hlaw hf ha haddr hc
    change append b1 (s.map some) = _ at h
    unfold append at h
    split at h
    · cases h; exact this
    · exact nomatch h

/-! ## C127 -/

/-- **C127**. `alignment` is the greatest power of two, up to 2²⁹, which divides the address. -/
theorem C127_alignment (addr : Nat) : alignment addr ≤ 29 ∧ addr % 2 ^ alignment addr = 0 ∧
    ∀ lg, lg ≤ 29 → addr % 2 ^ lg = 0 → lg ≤ alignment addr := trailingZeros_spec addr 29

/-- **C127**. `to_aligned_with`, `to_aligned` and the like, for a buffer at any address, any contents and any alignment: if
the alignment is a power of two, they return the buffer itself if its address is a multiple of it, and otherwise a copy
with the same bytes whose address is, in one allocation of the size of the buffer; they panic exactly if the alignment is
no power of two, or if the buffer has to be copied and is too large. -/
theorem C127_to_aligned (hlaw : env.Lawful) (addr : Nat) (bytes : Bytes) (align : Nat) :
    match toAlignedWith env addr bytes align with
    | .ok .borrowed => (∃ lg, align = 2 ^ lg) ∧ align ∣ addr
    | .ok (.owned b) => (∃ lg, align = 2 ^ lg) ∧ ¬ align ∣ addr ∧ align ∣ b.addr ∧ b.data = bytes.map some ∧
        b.capacity = bytes.length
    | .error e => e = .panic ∧ ((¬ ∃ lg, align = 2 ^ lg) ∨ ¬ align ∣ addr ∧ ∃ lg, align = 2 ^ lg ∧ roundUp bytes.length lg ≥ 2 ^ 63) := by
  unfold toAlignedWith
  by_cases hp : isPowerOfTwo align = true
  · rw [if_pos hp]
    obtain ⟨lg, rfl⟩ := (isPowerOfTwo_iff align).1 hp
    have hal : (addr &&& (2 ^ lg - 1) == 0) = true ↔ 2 ^ lg ∣ addr := by
      rw [Nat.dvd_iff_mod_eq_zero]
      exact isAligned_iff addr lg
    by_cases ha : (addr &&& (2 ^ lg - 1) == 0) = true
    · rw [if_pos ha]
      exact ⟨⟨lg, rfl⟩, hal.1 ha⟩
    · rw [if_neg ha, Nat.log2_two_pow]
      have hna : ¬ 2 ^ lg ∣ addr := fun h => ha (hal.2 h)
      by_cases hok : layoutOk bytes.length lg = true
      · obtain ⟨b, h1, h2, h3, h4, h5, h6, h7⟩ := new_spec (env := env) hok
        have happ : append b (bytes.map some) = .ok { b with data := b.data ++ bytes.map some } :=
          if_pos (by rw [Owned.len, h3, h4]; simp)
        have e : (Owned.new env bytes.length lg >>= fun b => append b (bytes.map some) >>= fun b => Except.ok (Cow.owned b)) =
            .ok (.owned { b with data := b.data ++ bytes.map some }) := by
          rw [h1]
          show (append b (bytes.map some) >>= fun b => Except.ok (Cow.owned b)) = _
          rw [happ]
          rfl
        rw [e]
        refine ⟨⟨lg, rfl⟩, hna, ?_, ?_, h4⟩
        · rw [Nat.dvd_iff_mod_eq_zero]; exact h7 hlaw
        · show b.data ++ _ = _
          rw [h3, List.nil_append]
      · have hn : Owned.new env bytes.length lg = .error .panic := by
          unfold Owned.new
          dsimp only
          by_cases h0 : bytes.length = 0
          · rw [h0] at hok
            exfalso
            apply hok
            rw [layoutOk, roundUp]
            have : (0 + (2 ^ lg - 1)) / 2 ^ lg = 0 := by
              apply Nat.div_eq_of_lt
              have := Nat.two_pow_pos lg
              omega
            rw [this]; simp
          · rw [if_neg h0, if_neg hok]
        rw [hn]
        refine ⟨rfl, .inr ⟨hna, lg, rfl, ?_⟩⟩
        simpa [layoutOk] using hok
  · rw [if_neg hp]
    exact ⟨rfl, .inl fun h => hp ((isPowerOfTwo_iff align).2 h)⟩

/-- **C127**. `to_owned` of a buffer of up to 2⁶⁰ bytes at any address is a copy with the same bytes, whose address is a
multiple of every alignment which Rust has and the address of the original is a multiple of. -/
theorem C127_to_owned (hlaw : env.Lawful) (hgr : env.Grows) (addr : Nat) (bytes : Bytes) (hb : bytes.length ≤ 2 ^ 60) :
    ∃ b, toOwned env addr bytes = .ok b ∧ b.data = bytes.map some ∧
      (∀ lg, lg ≤ 29 → addr % 2 ^ lg = 0 → b.addr % 2 ^ lg = 0) := by
  obtain ⟨a1, a2, a3⟩ := C127_alignment addr
  have hok : layoutOk bytes.length (alignment addr) = true := layoutOk_small (by omega) a1
  obtain ⟨b, h1, h2, h3, h4, h5, h6, h7⟩ := new_spec (env := env) hok
  have hst : Start env b := .inl ⟨_, _, h1⟩
  have hi := (start_spec hst).1
  have hlen : b.len = 0 := by rw [Owned.len, h3]; rfl
  have hlg : (2 : Nat) ^ alignment addr ≤ 2 ^ 29 := Nat.pow_le_pow_right (by omega) a1
  unfold toOwned
  rw [h1]
  show ∃ b', extend env b bytes = .ok b' ∧ _
  rcases extend_spec (env := env) hi (bytes := []) (l := alignment addr) ⟨h3, h5⟩ bytes with ⟨b', g1, g2, g3, g4, _⟩ | ⟨g1, g2⟩
  · refine ⟨b', g1, by rw [g4.1, List.nil_append], fun lg hl ha => ?_⟩
    have hal := extend_aligned hlaw h2 (by rw [h6, h5]) (by rw [h5]; exact h7 hlaw) g1
    rw [g4.2] at hal
    exact mod_of_le hal (a3 lg hl ha)
  · exfalso
    rcases g2 with g2 | ⟨g2, g3 | g3⟩
    · rw [hlen] at g2; omega
    · rw [h2] at g3; exact nomatch g3
    · rw [layoutOk_small (n := max (max (b.len + bytes.length) (2 ^ b.requested)) (env.grow b.capacity))] at g3
      · exact nomatch g3
      · have := hgr b.capacity
        rw [h4] at this
        rw [hlen, h5, h4]
        simp only [Nat.max_def]
        split <;> split <;> omega
      · rw [h5]; exact a1

variable [Host]

/-- **C127** (partial). What can be loaded from a buffer at an aligned address can be loaded from any copy with the same
bytes whose address has the alignment of the type, at every offset.

Missing are the types which are not loaded properly, and offsets so large that the sum with the size overflows (C51). -/
theorem C127_same_loads_partial {addr addr' : Nat} {bytes : Bytes} {t : ZTy} {off : Nat} (hw : t.WF) (hlo : t.LoadOk)
    (ha : addr % 2 ^ t.lg = 0) (ha' : addr' % 2 ^ t.lg = 0) (ho : off + t.size < 2 ^ 64) (s : Bytes) :
    loadSized addr bytes t off = .ok s ↔ loadSized addr' bytes t off = .ok s := by
  rw [(loadSized_right hw hlo ho).1, (loadSized_right hw hlo ho).1, Nat.add_mod, ha, Nat.add_mod addr' off, ha']

end

/-! ### Examples -/

/-- Six bytes at an odd address, and a `NonZeroU32` in them. -/
def six : Bytes := [1#8, 0#8, 0#8, 0#8, 7#8, 8#8]

example : (match toAlignedWith bump 101 six 4 with
    | .ok (.owned b) => decide (b.data = six.map some ∧ b.addr % 4 = 0 ∧ b.live.length = 1)
    | _ => false) = true := by decide +kernel
example : (match toAlignedWith bump 104 six 4 with | .ok .borrowed => true | _ => false) = true := by decide +kernel
example : (match toAlignedWith bump 104 six 6 with | .error .panic => true | _ => false) = true := by decide +kernel
example : loadSized 101 six nz32 0 = .error .alignment ∧ loadSized 104 six nz32 0 = .ok [1#8, 0#8, 0#8, 0#8] := by
  decide +kernel
example : alignment 104 = 3 ∧ alignment 101 = 0 ∧ alignment (2 ^ 40) = 29 := by decide +kernel

/-- **C127**: the copy which `to_owned` makes of a buffer needs as much memory as the alignment of its address, which may
be far more than it has bytes: six bytes at the start of a page become a page. -/
theorem C127_to_owned_size : (match toOwned bump 4096 six with
    | .ok b => decide (b.data = six.map some ∧ b.capacity = 4096)
    | _ => false) = true := by decide +kernel

/-- **C127 is false** of types the fields of which are not found (C51): they are looked for at aligned addresses, so that
whether a value is loaded depends on the address, although the type has an alignment of 1. -/
theorem C127_violated_by_wrapping : wrapped.lg = 0 ∧
    loadSized 67 [0#8, 1#8, 0#8, 0#8, 0#8] wrapped 0 = .ok [0#8, 1#8, 0#8, 0#8, 0#8] ∧
    loadSized 64 [0#8, 1#8, 0#8, 0#8, 0#8] wrapped 0 = .error .ub := by decide +kernel

end Musli.Zero.AlignedProps
