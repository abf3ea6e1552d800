import Verif.Props.Access
import Verif.Model.AccessFixed
/-!
# C80 with a correction

The clone of a shared guard does not check for overflow (`C80_violated_clone`). If it did, then C80 would hold for all histories.
-/
namespace Musli.Access

theorem pow_facts {bits : Nat} (hb : 1 < bits) : 2 ≤ 2 ^ (bits - 1) ∧ 2 ^ bits = 2 * 2 ^ (bits - 1) := by
  obtain ⟨k, rfl⟩ : ∃ k, bits = k + 2 := ⟨bits - 2, by omega⟩
  have := Nat.pow_pos (n := k) (show 0 < 2 by omega)
  have h1 : 2 ^ (k + 2) = 2 * 2 ^ (k + 1) := by rw [Nat.pow_succ 2 (k + 1)]; omega
  have h2 : 2 ^ (k + 1) = 2 * 2 ^ k := by rw [Nat.pow_succ]; omega
  rw [show k + 2 - 1 = k + 1 from rfl]
  omega

theorem toInt_neg_le {bits n : Nat} (hb : 1 < bits) (h : n ≤ 2 ^ (bits - 1)) : (-BitVec.ofNat bits n).toInt = -n := by
  have h2 := (pow_facts hb).2
  rcases Nat.lt_or_ge n (2 ^ (bits - 1)) with hlt | hge
  · exact toInt_neg_ofNat hb hlt
  · obtain rfl : n = 2 ^ (bits - 1) := by omega
    have : BitVec.ofNat bits (2 ^ (bits - 1)) = BitVec.intMin bits := by
      apply BitVec.eq_of_toNat_eq
      rw [BitVec.toNat_ofNat, BitVec.toNat_intMin]
    rw [this, BitVec.neg_intMin, toInt_intMin' hb]

/-- The counter is the number of shared guards, negated, or one; and never more guards than it can count. -/
structure InvC {bits : Nat} (w : World bits) : Prop where
  state : w.exclusive = 1 ∧ w.shared = 0 ∧ w.state = 1 ∨ w.exclusive = 0 ∧ w.shared ≤ 2 ^ (bits - 1) ∧ w.state = -BitVec.ofNat bits w.shared

theorem one_toInt {bits : Nat} (hb : 1 < bits) : (1 : BitVec bits).toInt = 1 := by
  have h := pow_facts hb
  have : (1 : BitVec bits) = BitVec.ofNat bits 1 := rfl
  rw [this, BitVec.toInt_ofNat']
  apply Int.bmod_eq_of_le <;> omega

theorem neg_succ (bits n : Nat) : (-BitVec.ofNat bits n) - 1 = -BitVec.ofNat bits (n + 1) := by
  rw [BitVec.ofNat_add, BitVec.neg_add]; rfl

/-- What the calls do, by the guards which exist. -/
theorem InvC.calls {bits : Nat} (hb : 1 < bits) {w : World bits} (h : InvC w) :
    Access.shared w.state = (if w.exclusive = 1 then (.panic, w.state) else
      if w.shared = 2 ^ (bits - 1) then (.abort, w.state) else (.ok, w.state - 1)) ∧
    Access.exclusive w.state = (if w.exclusive = 0 ∧ w.shared = 0 then (.ok, 1) else (.panic, w.state)) ∧
    (w.shared ≠ 0 → cloneSharedC w.state = (if w.shared = 2 ^ (bits - 1) then (.abort, w.state) else (.ok, w.state - 1))) := by
  have hp := pow_facts hb
  have h1 := one_toInt hb
  have ofz : (0 : BitVec bits).toInt = 0 := BitVec.toInt_zero
  rcases h.state with ⟨he, hs, hst⟩ | ⟨he, hs, hst⟩
  · refine ⟨?_, ?_, fun h0 => absurd hs h0⟩
    · unfold Access.shared
      rw [hst, if_pos (by rw [h1]; omega), if_pos he]
    · unfold Access.exclusive
      rw [if_pos, if_neg (by omega)]
      intro h0
      rw [hst] at h0
      have := congrArg BitVec.toInt h0
      rw [h1, ofz] at this
      omega
  · have ht := toInt_neg_le hb hs
    have hm : w.state = BitVec.intMin bits ↔ w.shared = 2 ^ (bits - 1) := by
      rw [← BitVec.toInt_inj, hst, ht, toInt_intMin' hb]
      omega
    have hz : w.state = 0 ↔ w.shared = 0 := by
      rw [← BitVec.toInt_inj, hst, ht, ofz]
      omega
    refine ⟨?_, ?_, fun h0 => ?_⟩
    · unfold Access.shared
      rw [if_neg (by rw [hst, ht]; omega), if_neg (by omega : ¬ w.exclusive = 1)]
      simp only [hm]
    · unfold Access.exclusive
      by_cases h0 : w.shared = 0
      · rw [if_neg (fun h => h (hz.2 h0)), if_neg (fun h => by have := hm.1 h; omega), if_pos ⟨he, h0⟩]
      · rw [if_pos (fun h => h0 (hz.1 h)), if_neg (fun h => h0 h.2)]
    · unfold cloneSharedC
      simp only [hm]

theorem stepC_inv {bits : Nat} (hb : 1 < bits) {w w' : World bits} (h : InvC w) (op : Op) (hw : w.stepC op = some w') : InvC w' := by
  obtain ⟨c1, c2, c3⟩ := h.calls hb
  have hst := h.state
  cases op with
  | shared =>
    unfold World.stepC at hw
    dsimp only at hw
    rw [c1] at hw
    by_cases he : w.exclusive = 1
    · rw [if_pos he] at hw
      cases hw
      exact ⟨hst⟩
    · rw [if_neg he] at hw
      by_cases hm : w.shared = 2 ^ (bits - 1)
      · rw [if_pos hm] at hw; cases hw
      · rw [if_neg hm] at hw
        cases hw
        rcases hst with ⟨h1, -⟩ | ⟨h1, h2, h3⟩
        · exact absurd h1 he
        · refine ⟨.inr ⟨h1, by show w.shared + 1 ≤ _; omega, ?_⟩⟩
          show w.state - 1 = -BitVec.ofNat bits (w.shared + 1)
          rw [h3, neg_succ]
  | exclusive =>
    unfold World.stepC at hw
    dsimp only at hw
    rw [c2] at hw
    by_cases hn : w.exclusive = 0 ∧ w.shared = 0
    · rw [if_pos hn] at hw
      cases hw
      exact ⟨.inl ⟨by show w.exclusive + 1 = 1; omega, hn.2, rfl⟩⟩
    · rw [if_neg hn] at hw
      cases hw
      exact ⟨hst⟩
  | clone =>
    unfold World.stepC at hw
    dsimp only at hw
    by_cases h0 : w.shared = 0
    · rw [if_pos h0] at hw; cases hw; exact h
    · rw [if_neg h0, c3 h0] at hw
      by_cases hm : w.shared = 2 ^ (bits - 1)
      · rw [if_pos hm] at hw; cases hw
      · rw [if_neg hm] at hw
        cases hw
        rcases hst with ⟨-, h1, -⟩ | ⟨h1, h2, h3⟩
        · exact absurd h1 h0
        · refine ⟨.inr ⟨h1, by show w.shared + 1 ≤ _; omega, ?_⟩⟩
          show w.state - 1 = -BitVec.ofNat bits (w.shared + 1)
          rw [h3, neg_succ]
  | dropShared =>
    unfold World.stepC World.step at hw
    dsimp only at hw
    by_cases h0 : w.shared = 0
    · rw [if_pos h0] at hw; cases hw; exact h
    · rw [if_neg h0] at hw
      cases hw
      rcases hst with ⟨-, h1, -⟩ | ⟨h1, h2, h3⟩
      · exact absurd h1 h0
      · refine ⟨.inr ⟨h1, by show w.shared - 1 ≤ _; omega, ?_⟩⟩
        show w.state + 1 = -BitVec.ofNat bits (w.shared - 1)
        obtain ⟨n, hn⟩ : ∃ n, w.shared = n + 1 := ⟨w.shared - 1, by omega⟩
        rw [h3, hn, ← neg_succ, Nat.add_sub_cancel, BitVec.sub_add_cancel]
  | dropExclusive =>
    unfold World.stepC World.step at hw
    dsimp only at hw
    by_cases h0 : w.exclusive = 0
    · rw [if_pos h0] at hw; cases hw; exact h
    · rw [if_neg h0] at hw
      cases hw
      rcases hst with ⟨h1, h2, -⟩ | ⟨h1, -⟩
      · refine ⟨.inr ⟨by show w.exclusive - 1 = 0; omega, by show w.shared ≤ _; rw [h2]; exact Nat.zero_le _, ?_⟩⟩
        show (0 : BitVec bits) = -BitVec.ofNat bits w.shared
        rw [h2]
        exact (BitVec.neg_zero _).symm
      · exact absurd h1 h0

theorem runC_inv {bits : Nat} (hb : 1 < bits) : ∀ (ops : List Op) (w w' : World bits), InvC w → w.runC ops = some w' → InvC w'
  | [], w, w', h, hw => by cases hw; exact h
  | op :: ops, w, w', h, hw => by
    unfold World.runC at hw
    split at hw
    · next w1 h1 => exact runC_inv hb ops w1 w' (stepC_inv hb h op h1) hw
    · cases hw

theorem initC_inv (bits : Nat) : InvC (World.init bits) :=
  ⟨.inr ⟨rfl, Nat.zero_le _, (BitVec.neg_zero _).symm⟩⟩

/-- **C80**, the full statement, with the correction, for histories of any length: an exclusive guard excludes all others. A shared guard
is refused with a panic if and only if there is an exclusive one, and an exclusive guard if and only if there is any guard; otherwise
they are given, except that the program is aborted when there are as many shared guards as can be counted. -/
theorem C80_corrected {bits : Nat} (hb : 1 < bits) (ops : List Op) (w : World bits) (h : (World.init bits).runC ops = some w) :
    w.Exclusion ∧
    ((Access.shared w.state).1 = .panic ↔ w.exclusive = 1) ∧
    ((Access.shared w.state).1 = .abort ↔ w.exclusive = 0 ∧ w.shared = 2 ^ (bits - 1)) ∧
    ((Access.exclusive w.state).1 = .panic ↔ ¬ (w.exclusive = 0 ∧ w.shared = 0)) ∧
    (Access.exclusive w.state).1 ≠ .abort := by
  have hi := runC_inv hb ops _ w (initC_inv bits) h
  have hp := pow_facts hb
  obtain ⟨c1, c2, -⟩ := hi.calls hb
  have hst := hi.state
  rw [c1, c2]
  refine ⟨⟨by omega, by omega⟩, ?_, ?_, ?_, ?_⟩
  · by_cases he : w.exclusive = 1
    · simp [he]
    · by_cases hm : w.shared = 2 ^ (bits - 1) <;> simp [he, hm]
  · by_cases he : w.exclusive = 1
    · simp [he]
    · have he0 : w.exclusive = 0 := by omega
      by_cases hm : w.shared = 2 ^ (bits - 1) <;> simp [he0, hm]
  · by_cases hn : w.exclusive = 0 ∧ w.shared = 0
    · simp [hn]
    · rw [if_neg hn]; simp [hn]
  · by_cases hn : w.exclusive = 0 ∧ w.shared = 0
    · rw [if_pos hn]; simp
    · rw [if_neg hn]; simp

/-- **C80**, with the correction: a call which panics changes nothing, so what is iterated stays as it is. -/
theorem C80_corrected_unchanged {bits : Nat} (hb : 1 < bits) (ops : List Op) (w : World bits) (h : (World.init bits).runC ops = some w) :
    ((Access.shared w.state).1 = .panic → w.stepC .shared = some w) ∧
    ((Access.exclusive w.state).1 = .panic → w.stepC .exclusive = some w) := by
  obtain ⟨c1, c2, -⟩ := (runC_inv hb ops _ w (initC_inv bits) h).calls hb
  constructor
  · intro hx
    unfold World.stepC
    dsimp only
    rw [c1] at hx ⊢
    by_cases he : w.exclusive = 1
    · rw [if_pos he]
    · rw [if_neg he] at hx
      split at hx <;> cases hx
  · intro hx
    unfold World.stepC
    dsimp only
    rw [c2] at hx ⊢
    by_cases hn : w.exclusive = 0 ∧ w.shared = 0
    · rw [if_pos hn] at hx; cases hx
    · rw [if_neg hn]

/-- **C80**, with the correction: only a history with more shared guards than can be counted, all at once, is aborted. -/
theorem C80_corrected_aborts {bits : Nat} (hb : 1 < bits) (ops : List Op) (h : (World.init bits).runC ops = none) :
    ∃ before op after w, ops = before ++ op :: after ∧ (World.init bits).runC before = some w ∧ w.shared = 2 ^ (bits - 1) ∧
      (op = .shared ∨ op = .clone) := by
  have key : ∀ (ops : List Op) (w0 : World bits), InvC w0 → w0.runC ops = none →
      ∃ before op after w, ops = before ++ op :: after ∧ w0.runC before = some w ∧ w.shared = 2 ^ (bits - 1) ∧
        (op = .shared ∨ op = .clone) := by
    intro ops
    induction ops with
    | nil => intro w0 _ h; cases h
    | cons op ops ih =>
      intro w0 hi h
      unfold World.runC at h
      cases h1 : w0.stepC op with
      | some w1 =>
        rw [h1] at h
        obtain ⟨b, o, a, w, e1, e2, e3⟩ := ih w1 (stepC_inv hb hi op h1) h
        refine ⟨op :: b, o, a, w, by rw [e1]; rfl, ?_, e3⟩
        unfold World.runC
        rw [h1]
        exact e2
      | none =>
        obtain ⟨c1, c2, c3⟩ := hi.calls hb
        refine ⟨[], op, ops, w0, rfl, rfl, ?_⟩
        cases op with
        | shared =>
          unfold World.stepC at h1
          dsimp only at h1
          rw [c1] at h1
          by_cases he : w0.exclusive = 1
          · rw [if_pos he] at h1; cases h1
          · rw [if_neg he] at h1
            by_cases hm : w0.shared = 2 ^ (bits - 1)
            · exact ⟨hm, .inl rfl⟩
            · rw [if_neg hm] at h1; cases h1
        | exclusive =>
          unfold World.stepC at h1
          dsimp only at h1
          rw [c2] at h1
          by_cases hn : w0.exclusive = 0 ∧ w0.shared = 0
          · rw [if_pos hn] at h1; cases h1
          · rw [if_neg hn] at h1; cases h1
        | clone =>
          unfold World.stepC at h1
          dsimp only at h1
          by_cases h0 : w0.shared = 0
          · rw [if_pos h0] at h1; cases h1
          · rw [if_neg h0, c3 h0] at h1
            by_cases hm : w0.shared = 2 ^ (bits - 1)
            · exact ⟨hm, .inr rfl⟩
            · rw [if_neg hm] at h1; cases h1
        | dropShared => cases h1
        | dropExclusive => cases h1
  exact key ops _ (initC_inv bits) h

/-! ## Examples -/

/-- Four guards are counted with three bits; the next clone is aborted, and not given as in the code. -/
example : ((World.init 3).runC [.shared, .clone, .clone, .clone, .exclusive]).map (·.shared) = some 4 ∧
    ((World.init 3).runC [.shared, .clone, .clone, .clone, .clone]).isNone = true ∧
    ((World.init 3).run [.shared, .clone, .clone, .clone, .clone, .clone, .clone, .clone, .exclusive]).exclusive = 1 := by
  decide +kernel

example : ((World.init 64).runC [.shared, .clone, .exclusive, .dropShared, .dropShared, .exclusive, .shared]).map
    (fun w => (w.exclusive, w.shared)) = some (1, 0) := by
  decide +kernel

end Musli.Access
