import Verif.Proofs.Zero.Swiss
import Verif.Props.ZeroSwiss
/-!
# C50: lookup in swiss tables from untrusted buffers

`Raw` is any contents of the four fields of the table: nothing ties the control bytes, the entries and the
mask together, as they are when the table has been read from a file.
-/
namespace Musli.Zero.Swiss
open Musli

theorem tryMatches_any {V : Type} (entries : List V) (mask pos : Nat) (eq : V → Bool) : ∀ bits : List Nat,
    tryMatches entries mask pos eq bits = .error .bounds ∨ tryMatches entries mask pos eq bits = .ok none ∨
    ∃ (i : Nat) (v : V), tryMatches entries mask pos eq bits = .ok (some i) ∧ entries[i]? = some v ∧ eq v = true
  | [] => .inr (.inl rfl)
  | b :: bits => by
    unfold tryMatches
    cases h : entries[(pos + b) &&& mask]? with
    | none => exact .inl (by simp [h])
    | some v =>
      by_cases he : eq v = true
      · exact .inr (.inr ⟨_, v, by simp [h, he], h, he⟩)
      · rcases tryMatches_any entries mask pos eq bits with h1 | h1 | ⟨i, v', h1, h2⟩
        · exact .inl (by simp [h, he, h1])
        · exact .inr (.inl (by simp [h, he, h1]))
        · exact .inr (.inr ⟨i, v', by simp [h, he, h1], h2⟩)

theorem and_le_right (a b : Nat) : a &&& b ≤ b := Nat.and_le_right

/-- What lookup can result in. -/
inductive Outcome {V : Type} (g : Group) (t : Raw V) (eq : V → Bool) : Except ZErr (Option Nat) → Prop
  | bounds : Outcome g t eq (.error .bounds)
  | stride : Outcome g t eq (.error .stride)
  | overflow : 2 ^ 64 ≤ t.mask + g.width → Outcome g t eq (.error .panic)
  | none : Outcome g t eq (.ok none)
  | found (i : Nat) (v : V) : t.entries[i]? = some v → eq v = true → Outcome g t eq (.ok (some i))

/-- The loop ends, after at most `mask + 2` groups. -/
theorem findLoop_total {V : Type} (g : Group) (hg : 0 < g.width) (t : Raw V) (h2 : Byte) (eq : V → Bool) :
    ∀ (f : Nat) (p : ProbeSeq), p.pos ≤ t.mask → t.mask < f + p.stride → Outcome g t eq (findLoop g t h2 eq (f + 1) p)
  | f, p, hp, h => by
    unfold findLoop
    cases groupAt g t.ctrl p.pos with
    | none =>
      dsimp only
      split
      · exact .overflow (by omega)
      · exact .bounds
    | some bytes =>
      dsimp only
      rcases tryMatches_any t.entries t.mask p.pos eq (g.matchByte bytes h2) with h1 | h1 | ⟨i, v, h1, h3, h4⟩
      · rw [h1]; exact .bounds
      · rw [h1]
        dsimp only
        split
        · exact .none
        · unfold ProbeSeq.next
          by_cases hs : p.stride > t.mask
          · rw [if_pos hs]; exact .stride
          · rw [if_neg hs]
            match f, h with
            | 0, h => omega
            | f + 1, h => exact findLoop_total g hg t h2 eq f _ Nat.and_le_right (by dsimp only; omega)
      · rw [h1]
        exact .found i v h3 h4

/-- The probes of a lookup: the start, and the successor of a probe at which a group has been loaded. -/
inductive Probes {V : Type} (g : Group) (t : Raw V) (hash : BitVec 64) : ProbeSeq → Prop
  | start : Probes g t hash (probeSeq t.mask hash)
  | next {p q : ProbeSeq} {bytes : Bytes} : Probes g t hash p → groupAt g t.ctrl p.pos = some bytes →
      p.next g t.mask = .ok q → Probes g t hash q

theorem high_and {x m : Nat} (hx : 2 ^ 63 ≤ x) (hx' : x < 2 ^ 64) (hm : 2 ^ 63 ≤ m) (hm' : m < 2 ^ 64) :
    2 ^ 63 ≤ x &&& m := by
  apply Nat.ge_two_pow_of_testBit (i := 63)
  rw [Nat.testBit_and]
  have h1 : x.testBit 63 = true := by
    rw [Nat.testBit_eq_decide_div_mod_eq]; simp only [decide_eq_true_eq]; omega
  have h2 : m.testBit 63 = true := by
    rw [Nat.testBit_eq_decide_div_mod_eq]; simp only [decide_eq_true_eq]; omega
  rw [h1, h2]
  rfl

/-- The sums `stride + WIDTH` and `pos + stride` in `move_next`, and `pos + bit` in the loop over the matches,
never overflow: regions of memory are smaller than 2⁶³. -/
theorem probes_no_overflow {V : Type} {g : Group} (hg : Lawful g) {t : Raw V} {hash : BitVec 64} (hm : t.mask < 2 ^ 64)
    (hc : t.ctrl.length < 2 ^ 63) {p q : ProbeSeq} {bytes : Bytes} (hp : Probes g t hash p)
    (hb : groupAt g t.ctrl p.pos = some bytes) (hq : p.next g t.mask = .ok q) :
    p.pos + (p.stride + g.width) < 2 ^ 64 ∧ p.pos + g.width < 2 ^ 64 := by
  have hw := hg.width_le
  have hpos : ∀ {p : ProbeSeq} {bytes : Bytes}, groupAt g t.ctrl p.pos = some bytes → p.pos + g.width < 2 ^ 63 := by
    intro p bytes h
    unfold groupAt at h
    split at h
    · omega
    · cases h
  have key : ∀ {p : ProbeSeq} {bytes : Bytes}, Probes g t hash p → groupAt g t.ctrl p.pos = some bytes →
      t.mask < 2 ^ 63 ∧ p.stride ≤ t.mask + g.width ∨ p.stride < 2 ^ 63 := by
    intro p bytes hp
    induction hp generalizing bytes with
    | start => intro _; exact .inr (by unfold probeSeq; dsimp only; omega)
    | @next p q b' hp hb' hq ih =>
      intro hb
      have h1 := ih hb'
      have h2 := hpos hb
      have h3 := hpos hb'
      unfold ProbeSeq.next at hq
      split at hq
      · cases hq
      · cases hq
        dsimp only at *
        by_cases hmask : t.mask < 2 ^ 63
        · exact .inl ⟨hmask, by omega⟩
        · rcases h1 with h1 | h1
          · omega
          · -- a sum with the highest bit would be out of bounds
            by_cases hlow : p.pos + (p.stride + g.width) < 2 ^ 63
            · exact .inr (by omega)
            · have := high_and (x := p.pos + (p.stride + g.width)) (m := t.mask) (by omega) (by omega) (by omega) hm
              omega
  have h1 := hpos hb
  have h2 := key hp hb
  unfold ProbeSeq.next at hq
  split at hq
  · cases hq
  · omega

/-- **C50**, the full statement for swiss maps: lookup in whatever is in a buffer does not panic. -/
def C50SwissStatement : Prop := ∀ (p : Platform) (K V : Type) [DecidableEq K] (hash : K → BitVec 64) (m : Raw (K × V)) (k : K),
  m.mask < 2 ^ 64 → getMap p.group hash m k ≠ .error .panic

/-- With a mask of all ones, and a key whose hash has sixty ones, the end of the range of control bytes
overflows: a panic in builds with overflow checks (`swiss/map.rs:457, 577`). -/
theorem C50_swiss_full_statement_false : ¬ C50SwissStatement := by
  intro h
  exact h .sse2 Nat Nat (fun _ => BitVec.allOnes 64) ⟨[], [], 2 ^ 64 - 1, 0⟩ 0 (by decide)
    (by
      unfold getMap Raw.find findLoop
      have h1 : groupAt Platform.sse2.group ([] : Bytes) (probeSeq (2 ^ 64 - 1) (BitVec.allOnes 64)).pos = none := by
        decide +kernel
      rw [h1]
      have h2 : (probeSeq (2 ^ 64 - 1) (BitVec.allOnes 64)).pos + Platform.sse2.group.width ≥ 2 ^ 64 := by
        decide +kernel
      simp only [if_pos h2])

/-- **C50** for swiss maps, on all platforms, whatever the buffer contains, unless the mask is almost 2⁶⁴:
lookup ends, without a panic, with an error or with the value of an entry in the buffer with this key. -/
theorem C50_swiss_partial (p : Platform) {K V : Type} [DecidableEq K] (hash : K → BitVec 64) (m : Raw (K × V)) (k : K)
    (hm : m.mask < 2 ^ 64 - 16) :
    getMap p.group hash m k = .error .bounds ∨ getMap p.group hash m k = .error .stride ∨
    getMap p.group hash m k = .ok none ∨ ∃ v, getMap p.group hash m k = .ok (some v) ∧ (k, v) ∈ m.entries := by
  have hw : 0 < p.group.width := by cases p <;> decide
  have hw' := p.lawful.width_le
  have := findLoop_total p.group hw m (h2 (hash k)) (fun e => e.1 == k) (m.mask + 1) (probeSeq m.mask (hash k))
    Nat.and_le_right (by unfold probeSeq; dsimp only; omega)
  unfold getMap Raw.find
  generalize findLoop p.group m (h2 (hash k)) (fun e => e.1 == k) (m.mask + 1 + 1) (probeSeq m.mask (hash k)) = r at this
  cases this with
  | bounds => exact .inl rfl
  | stride => exact .inr (.inl rfl)
  | overflow h => omega
  | none => exact .inr (.inr (.inl rfl))
  | found i v h1 h2 =>
    dsimp only
    rw [h1]
    rw [beq_iff_eq] at h2
    obtain ⟨k', v⟩ := v
    cases h2
    exact .inr (.inr (.inr ⟨v, rfl, List.mem_iff_getElem?.2 ⟨i, h1⟩⟩))

/-- **C50** for swiss sets. -/
theorem C50_swiss_set_partial (p : Platform) {K : Type} [DecidableEq K] (hash : K → BitVec 64) (m : Raw K) (k : K)
    (hm : m.mask < 2 ^ 64 - 16) :
    containsSet p.group hash m k = .error .bounds ∨ containsSet p.group hash m k = .error .stride ∨
    containsSet p.group hash m k = .ok false ∨ containsSet p.group hash m k = .ok true ∧ k ∈ m.entries := by
  have hw : 0 < p.group.width := by cases p <;> decide
  have hw' := p.lawful.width_le
  have := findLoop_total p.group hw m (h2 (hash k)) (fun e => e == k) (m.mask + 1) (probeSeq m.mask (hash k))
    Nat.and_le_right (by unfold probeSeq; dsimp only; omega)
  unfold containsSet Raw.find
  generalize findLoop p.group m (h2 (hash k)) (fun e => e == k) (m.mask + 1 + 1) (probeSeq m.mask (hash k)) = r at this
  cases this with
  | bounds => exact .inl rfl
  | stride => exact .inr (.inl rfl)
  | overflow h => omega
  | none => exact .inr (.inr (.inl rfl))
  | found i v h1 h2 =>
    dsimp only
    rw [h1]
    rw [beq_iff_eq] at h2
    cases h2
    exact .inr (.inr (.inr ⟨rfl, List.mem_iff_getElem?.2 ⟨i, h1⟩⟩))

/-! ### The hypotheses are met -/

/-- A hostile table: no control byte is empty, so that the stride check ends the loop. -/
example : getMap (generic false) (fun _ : Nat => 0#64) ⟨List.replicate 16 0x80#8, [(1, 2)], 7, 0⟩ 1 = .error .stride := by
  decide +kernel

-- a table with as many control bytes as a group has, and one with fewer
example : getMap Platform.sse2.group (fun _ : Nat => 0) ⟨0 :: List.replicate 15 0xFF, [(1, 2)], 0, 1⟩ 1 = .ok (some 2) ∧
    getMap Platform.sse2.group (fun _ : Nat => 0) ⟨0 :: List.replicate 14 0xFF, [(1, 2)], 0, 1⟩ 1 = .error .bounds ∧
    getMap (generic false) (fun _ : Nat => 0) ⟨0 :: List.replicate 7 0xFF, [(1, 2)], 0, 1⟩ 1 = .ok (some 2) := by
  decide +kernel

end Musli.Zero.Swiss
