import Verif.Proofs.Alloc.Benign
/-!
# C32: the slice allocator

Buffers which the slice allocator hands out do not overlap each other or the headers, they
are aligned, and they keep their contents, whatever is done with other buffers.
-/
namespace Musli.Slice
open Musli Spec

/-! ## Concrete histories -/

/-- Decides `Op.ok`, except for powers of two, for which the exponent must be at most 4. -/
def Op.check (s : State) : Op → Bool
  | .new h size align => (s.bufs h).isNone && decide (0 < size) && [1, 2, 4, 8, 16].contains align &&
    decide (align ∣ size)
  | .box h align bytes => (s.bufs h).isNone && !bytes.isEmpty && [1, 2, 4, 8, 16].contains align &&
    decide (align ∣ bytes.length)
  | .extend h n bytes => (s.bufs h).any (fun b => bytes.length == n * b.size)
  | .reserve h _ => (s.bufs h).isSome
  | .truncate h n => (s.bufs h).any (fun b => decide (n ≤ b.len))
  | .write h offset bytes => (s.bufs h).any (fun b => decide (offset + bytes.length ≤ b.len * b.size))
  | .append h o => decide (h ≠ o) && (s.bufs h).any (fun b => (s.bufs o).any (fun c =>
    b.size == c.size && b.align == c.align))
  | .drop h => (s.bufs h).isSome

theorem pow_of_mem {a : Nat} (h : [1, 2, 4, 8, 16].contains a = true) : ∃ k, a = 2 ^ k := by
  simp at h
  rcases h with rfl | rfl | rfl | rfl | rfl
  · exact ⟨0, rfl⟩
  · exact ⟨1, rfl⟩
  · exact ⟨2, rfl⟩
  · exact ⟨3, rfl⟩
  · exact ⟨4, rfl⟩

theorem check_ok {s : State} {op : Op} (h : op.check s = true) : op.ok s := by
  cases op <;> simp only [Op.check, Bool.and_eq_true, Option.any_eq_true, beq_iff_eq, decide_eq_true_eq,
    Option.isNone_iff_eq_none, Option.isSome_iff_exists] at h <;> unfold Op.ok
  · exact ⟨h.1.1.1, h.1.1.2, pow_of_mem h.1.2, h.2⟩
  · exact ⟨h.1.1.1, by have := h.1.1.2; rintro rfl; simp at this, pow_of_mem h.1.2, h.2⟩
  · exact h
  · exact h
  · exact h
  · exact h
  · obtain ⟨h1, b, hb, d, hd, h2, h3⟩ := h
    exact ⟨h1, b, d, hb, hd, h2, h3⟩
  · exact h

/-- Perform operations. -/
def play (fix : Bool) : State → Buffers → List Op → State × Buffers
  | s, c, [] => (s, c)
  | s, c, op :: ops => play fix (s.step fix op).2 (effect c (s.step fix op).1 op) ops

/-- All operations of a history are possible. -/
def playable (fix : Bool) : State → List Op → Bool
  | _, [] => true
  | s, op :: ops => op.check s && playable fix (s.step fix op).2 ops

theorem play_runs {fix : Bool} {s : State} {c : Buffers} (h : Runs fix s c) {ops : List Op}
    (hp : playable fix s ops = true) : Runs fix (play fix s c ops).1 (play fix s c ops).2 := by
  induction ops generalizing s c with
  | nil => exact h
  | cons op ops ih =>
    simp only [playable, Bool.and_eq_true] at hp
    exact ih (.step op h (check_ok hp.1)) hp.2

/-- A buffer of zeros at address zero. -/
def zeros (size : Nat) : State := .new 0 size (fun _ => 0#8)

/-- What two buffers hold in the end, and what they should hold. -/
def outcome (fix : Bool) (size : Nat) (ops : List Op) (h : Nat) : Option Bytes × Option Bytes :=
  let r := play fix (zeros size) (fun _ => none) ops
  (r.1.contents h, (r.2 h).map Prod.snd)

/-! ## The code

The property is false of the code: three defects, each of which is reached by safe code. -/

/-- Header reuse: two buffers are dropped, three others are created and one of them is dropped. -/
def reuse : List Op :=
  [.new 0 1 1, .new 1 1 1, .drop 0, .drop 1, .new 2 1 1, .extend 2 2 [1#8, 2#8], .new 3 1 1,
    .extend 3 2 [3#8, 4#8], .drop 2, .new 4 1 1, .extend 4 2 [5#8, 6#8], .drop 3, .extend 4 1 [7#8]]

/-- **C32**, violated: after `reuse` the last buffer holds `[0, 0, 7]` and not
`[5, 6, 7]`. -/
theorem C32_violated_by_reuse :
    ∃ s c, Runs false s c ∧ s.contents 4 = some [0#8, 0#8, 7#8] ∧ c 4 = some (1, [5#8, 6#8, 7#8]) := by
  refine ⟨_, _, play_runs (ops := reuse) (.new 0 256 (fun _ => 0#8)) (by decide +kernel), ?_, ?_⟩
  · decide +kernel
  · decide +kernel

/-- Appending: the appended buffer is adjacent, but it is not the next region, which is empty. -/
def adjacent : List Op :=
  [.new 0 1 1, .extend 0 2 [1#8, 2#8], .new 1 1 1, .new 2 1 1, .extend 2 2 [3#8, 4#8], .append 0 2,
    .new 3 1 1, .extend 3 1 [9#8], .extend 1 1 [5#8], .extend 0 1 [7#8]]

/-- **C32**, violated: after `adjacent` two buffers share their memory; one holds what
was written to the other. -/
theorem C32_violated_by_append :
    ∃ s c, Runs false s c ∧ s.contents 3 = some [5#8] ∧ c 3 = some (1, [9#8]) ∧
      s.contents 1 = some [5#8] := by
  refine ⟨_, _, play_runs (ops := adjacent) (.new 0 256 (fun _ => 0#8)) (by decide +kernel), ?_, ?_, ?_⟩
  · decide +kernel
  · decide +kernel
  · decide +kernel

/-- **C32**, violated: a box of 32 bytes fits into an allocator of 32 bytes, together
with its header of 24 bytes, because they overlap. -/
theorem C32_violated_by_overlap : ∃ s c, Runs false s c ∧ ¬Separate s := by
  refine ⟨_, _, play_runs (ops := [.box 0 1 (List.replicate 32 1#8)]) (.new 0 32 (fun _ => 0#8))
    (by decide +kernel), fun h => ?_⟩
  have := (h.bounds 0 ⟨some 1, 1, 1, 32, 1⟩ 1 (by decide +kernel) rfl).2.2.1
  revert this
  decide +kernel

/-! ## What holds -/

/-- **C32** for the allocator with the three defects corrected: whatever the history, buffers
are within bounds, aligned, and disjoint, and they hold what they should. -/
theorem C32_corrected {s : State} {c : Buffers} (h : Runs true s c) : Separate s ∧ Holds s c := by
  obtain ⟨l, fl, G⟩ := runs_good h
  exact ⟨good_separate G, good_holds G⟩

/- the same histories, corrected -/
example : outcome true 256 reuse 4 = (some [5#8, 6#8, 7#8], some [5#8, 6#8, 7#8]) := by decide +kernel
example : outcome true 256 adjacent 3 = (some [9#8], some [9#8]) := by decide +kernel
example : Runs true (play true (zeros 256) (fun _ => none) reuse).1
    (play true (zeros 256) (fun _ => none) reuse).2 :=
  play_runs (.new 0 256 (fun _ => 0#8)) (by decide +kernel)

/-- **C32** for the code, for histories in which no operation runs into one of the defects. What
is missing: all other histories, for which it is false. -/
theorem C32_partial {s : State} {c : Buffers} (h : BenignRuns s c) : Separate s ∧ Holds s c :=
  C32_corrected (benign_runs h)

/-- A history without defects: growing two buffers in turn, overwriting, dropping, reusing the space. -/
def turns : List Op :=
  [.new 0 4 4, .extend 0 1 [1#8, 2#8, 3#8, 4#8], .new 1 1 1, .extend 1 3 [5#8, 6#8, 7#8],
    .extend 0 1 [8#8, 9#8, 10#8, 11#8], .write 0 4 [12#8], .new 2 1 1, .extend 2 1 [13#8], .append 1 2,
    .drop 0, .extend 1 2 [14#8, 15#8], .truncate 1 5]

/-- Decides `Benign`. -/
def benignB (s : State) (op : Op) : Bool :=
  (match s.i.freeHead with
    | some id => (s.i.hdr id).next.isNone
    | none => true) &&
  let room (align bytes : Nat) : Bool := decide (s.i.freeStart + align + bytes + 2 * headerSize ≤ s.i.freeEnd)
  match op with
  | .new _ _ align => room align 0
  | .box _ align bytes => room align bytes.length
  | .extend h n _ => (s.bufs h).all (fun b => room b.align ((b.len + n) * b.size))
  | .reserve h n => (s.bufs h).all (fun b => room b.align ((b.len + n) * b.size))
  | .append h o => (s.bufs h).all (fun b => (s.bufs o).all (fun d =>
    room b.align ((b.len + d.len) * b.size) &&
    b.region.all (fun id => (s.i.hdr id).next.all (fun nx =>
      decide ((s.i.hdr id).stop ≠ s.ptr d) || d.region == some nx))))
  | _ => true

theorem benign_of {s : State} {op : Op} (h : benignB s op = true) : Benign s op := by
  unfold benignB at h
  rw [Bool.and_eq_true] at h
  obtain ⟨h1, h2⟩ := h
  refine ⟨fun id hid => ?_, ?_⟩
  · rw [hid] at h1; simpa using h1
  · cases op <;> simp only [Option.all_eq_true, decide_eq_true_eq, Bool.and_eq_true, Bool.or_eq_true,
      beq_iff_eq] at h2
    · exact h2
    · exact h2
    · exact h2
    · exact h2
    · trivial
    · trivial
    · intro b d hb hd
      obtain ⟨q1, q2⟩ := h2 b hb d hd
      exact ⟨q1, fun id nx hr hn hs => (q2 id hr nx hn).resolve_left (fun h => h hs)⟩
    · trivial

/-- All operations of a history are benign. -/
def allBenign : State → List Op → Bool
  | _, [] => true
  | s, op :: ops => op.check s && benignB s op && allBenign (s.step false op).2 ops

theorem play_benign {s : State} {c : Buffers} (h : BenignRuns s c) {ops : List Op}
    (hp : allBenign s ops = true) : BenignRuns (play false s c ops).1 (play false s c ops).2 := by
  induction ops generalizing s c with
  | nil => exact h
  | cons op ops ih =>
    simp only [allBenign, Bool.and_eq_true] at hp
    exact ih (.step op h (check_ok hp.1.1) (benign_of hp.1.2)) hp.2

example : BenignRuns (play false (zeros 512) (fun _ => none) turns).1
    (play false (zeros 512) (fun _ => none) turns).2 :=
  play_benign (.new 0 512 (fun _ => 0#8)) (by decide +kernel)
example : outcome false 512 turns 1 =
    (some [5#8, 6#8, 7#8, 13#8, 14#8], some [5#8, 6#8, 7#8, 13#8, 14#8]) := by decide +kernel

end Musli.Slice
