import Verif.Model.Access
/-!
# C80: the state of a context is not changed while it is borrowed
-/
namespace Musli.Access

/-- An exclusive guard excludes all others. -/
def World.Exclusion {bits : Nat} (w : World bits) : Prop := w.exclusive ≤ 1 ∧ (w.exclusive = 1 → w.shared = 0)

/-- The counter is the number of shared guards, negated, or one. -/
structure Inv {bits : Nat} (w : World bits) : Prop where
  excl : w.Exclusion
  state : w.exclusive = 1 ∧ w.state = 1 ∨ w.exclusive = 0 ∧ w.state = -BitVec.ofNat bits w.shared

theorem toInt_neg_ofNat {bits n : Nat} (hb : 1 < bits) (h : n < 2 ^ (bits - 1)) : (-BitVec.ofNat bits n).toInt = -n := by
  have h2 : 2 ^ bits = 2 * 2 ^ (bits - 1) := by
    obtain ⟨k, rfl⟩ : ∃ k, bits = k + 1 := ⟨bits - 1, by omega⟩
    rw [Nat.pow_succ, Nat.add_sub_cancel]; omega
  rw [BitVec.toInt_neg, BitVec.toInt_ofNat']
  have hz : Int.bmod (n : Int) (2 ^ bits) = n := by
    apply Int.bmod_eq_of_le <;> omega
  rw [hz]
  apply Int.bmod_eq_of_le <;> omega

theorem toInt_intMin' {bits : Nat} (hb : 1 < bits) : (BitVec.intMin bits).toInt = -(2 ^ (bits - 1) : Nat) := by
  rw [BitVec.toInt_intMin_of_pos (by omega)]
  norm_cast

theorem step_inv {bits : Nat} (hb : 1 < bits) {w : World bits} (h : Inv w) (op : Op) (hs : w.shared + 1 < 2 ^ (bits - 1)) :
    Inv (w.step op) := by
  have h1b : 2 ≤ 2 ^ (bits - 1) := by
    obtain ⟨k, rfl⟩ : ∃ k, bits = k + 2 := ⟨bits - 2, by omega⟩
    rw [show k + 2 - 1 = k + 1 from rfl, Nat.pow_succ]
    have := Nat.pow_pos (n := k) (show 0 < 2 by omega)
    omega
  have h2 : 2 ^ bits = 2 * 2 ^ (bits - 1) := by
    obtain ⟨k, rfl⟩ : ∃ k, bits = k + 1 := ⟨bits - 1, by omega⟩
    rw [Nat.pow_succ, Nat.add_sub_cancel]; omega
  have one : (1 : BitVec bits).toInt = 1 := by
    have : (1 : BitVec bits) = BitVec.ofNat bits 1 := rfl
    rw [this, BitVec.toInt_ofNat']
    apply Int.bmod_eq_of_le <;> omega
  have ofz : (0 : BitVec bits).toInt = 0 := BitVec.toInt_zero
  have succ (n : Nat) : (-BitVec.ofNat bits n) - 1 = -BitVec.ofNat bits (n + 1) := by
    rw [BitVec.ofNat_add, BitVec.neg_add]; rfl
  obtain ⟨⟨e1, e2⟩, hst⟩ := h
  cases op with
  | shared =>
    unfold World.step Access.shared
    rcases hst with ⟨he, hst⟩ | ⟨he, hst⟩
    · rw [hst, if_pos (by rw [one]; omega)]
      exact ⟨⟨e1, e2⟩, .inl ⟨he, rfl⟩⟩
    · have ht := toInt_neg_ofNat hb (n := w.shared) (by omega)
      rw [hst, if_neg (by rw [ht]; omega), if_neg]
      · exact ⟨⟨e1, fun h => by have : w.exclusive = 1 := h; omega⟩, .inr ⟨he, succ _⟩⟩
      · intro hm
        have := congrArg BitVec.toInt hm
        rw [ht, toInt_intMin' hb] at this
        omega
  | exclusive =>
    unfold World.step Access.exclusive
    rcases hst with ⟨he, hst⟩ | ⟨he, hst⟩
    · rw [if_pos]
      · exact ⟨⟨e1, e2⟩, .inl ⟨he, hst⟩⟩
      · intro h0
        rw [hst] at h0
        have := congrArg BitVec.toInt h0
        rw [one, ofz] at this
        omega
    · have ht := toInt_neg_ofNat hb (n := w.shared) (by omega)
      by_cases h0 : w.state ≠ 0
      · rw [if_pos h0]
        exact ⟨⟨e1, e2⟩, .inr ⟨he, hst⟩⟩
      · rw [if_neg h0, if_neg]
        · have h0' : w.state = 0 := Classical.not_not.1 h0
          have hw : w.shared = 0 := by
            have := congrArg BitVec.toInt (hst.symm.trans h0')
            rw [ht, ofz] at this
            omega
          refine ⟨⟨?_, fun _ => hw⟩, .inl ⟨?_, rfl⟩⟩
          · show w.exclusive + 1 ≤ 1; omega
          · show w.exclusive + 1 = 1; omega
        · intro hm
          have h0' : w.state = 0 := Classical.not_not.1 h0
          have := congrArg BitVec.toInt (h0'.symm.trans hm)
          rw [ofz, toInt_intMin' hb] at this
          omega
  | clone =>
    unfold World.step
    dsimp only
    by_cases h0 : w.shared = 0
    · rw [if_pos h0]; exact ⟨⟨e1, e2⟩, hst⟩
    · rw [if_neg h0]
      rcases hst with ⟨he, hst⟩ | ⟨he, hst⟩
      · exact absurd (e2 he) h0
      · refine ⟨⟨e1, fun h => ?_⟩, .inr ⟨he, ?_⟩⟩
        · have : w.exclusive = 1 := h
          omega
        · show w.state - 1 = _
          rw [hst]; exact succ _
  | dropShared =>
    unfold World.step
    dsimp only
    by_cases h0 : w.shared = 0
    · rw [if_pos h0]; exact ⟨⟨e1, e2⟩, hst⟩
    · rw [if_neg h0]
      rcases hst with ⟨he, hst⟩ | ⟨he, hst⟩
      · exact absurd (e2 he) h0
      · refine ⟨⟨e1, fun h => ?_⟩, .inr ⟨he, ?_⟩⟩
        · have : w.exclusive = 1 := h
          omega
        · show w.state + 1 = -BitVec.ofNat bits (w.shared - 1)
          obtain ⟨n, hn⟩ : ∃ n, w.shared = n + 1 := ⟨w.shared - 1, by omega⟩
          rw [hst, hn, ← succ, Nat.add_sub_cancel, BitVec.sub_add_cancel]
  | dropExclusive =>
    unfold World.step
    dsimp only
    by_cases h0 : w.exclusive = 0
    · rw [if_pos h0]; exact ⟨⟨e1, e2⟩, hst⟩
    · rw [if_neg h0]
      rcases hst with ⟨he, hst⟩ | ⟨he, hst⟩
      · refine ⟨⟨?_, fun h => ?_⟩, .inr ⟨?_, ?_⟩⟩
        · show w.exclusive - 1 ≤ 1; omega
        · exact e2 he
        · show w.exclusive - 1 = 0; omega
        · show (0 : BitVec bits) = -BitVec.ofNat bits w.shared
          rw [e2 he]
          exact (BitVec.neg_zero _).symm
      · omega

theorem init_inv (bits : Nat) : Inv (World.init bits) :=
  ⟨⟨by show (0 : Nat) ≤ 1; omega, fun _ => rfl⟩, .inr ⟨rfl, (BitVec.neg_zero _).symm⟩⟩

theorem run_inv {bits : Nat} (hb : 1 < bits) : ∀ (ops : List Op) (w : World bits), Inv w → w.shared + ops.length < 2 ^ (bits - 1) →
    Inv (w.run ops)
  | [], _, h, _ => h
  | op :: ops, w, h, hl => by
    rw [List.length_cons] at hl
    refine run_inv hb ops (w.step op) (step_inv hb h op (by omega)) ?_
    have : (w.step op).shared ≤ w.shared + 1 := by
      unfold World.step
      cases op <;> dsimp only <;> split <;> first | omega | (dsimp only; omega)
    omega

/-- **C80**, what holds: in every history of less than half the number of values of a `usize`, an exclusive guard of
the state of a context excludes all other guards; a shared guard is given if and only if there is no exclusive one, an
exclusive guard if and only if there is no guard at all. Otherwise the call panics and nothing changes. -/
theorem C80_guards_partial {bits : Nat} (hb : 1 < bits) (ops : List Op) (hl : ops.length + 1 < 2 ^ (bits - 1)) :
    ((World.init bits).run ops).Exclusion ∧
    ((Access.shared ((World.init bits).run ops).state).1 = .ok ↔ ((World.init bits).run ops).exclusive = 0) ∧
    ((Access.exclusive ((World.init bits).run ops).state).1 = .ok ↔
      ((World.init bits).run ops).exclusive = 0 ∧ ((World.init bits).run ops).shared = 0) ∧
    ((Access.shared ((World.init bits).run ops).state).1 ≠ .ok →
      (Access.shared ((World.init bits).run ops).state).1 = .panic ∧ (World.init bits).run (ops ++ [.shared]) = (World.init bits).run ops) ∧
    ((Access.exclusive ((World.init bits).run ops).state).1 ≠ .ok →
      (Access.exclusive ((World.init bits).run ops).state).1 = .panic ∧
        (World.init bits).run (ops ++ [.exclusive]) = (World.init bits).run ops) := by
  have hi := run_inv hb ops (World.init bits) (init_inv bits) (by show 0 + _ < _; omega)
  have hc : ((World.init bits).run ops).shared ≤ ops.length := by
    have : ∀ (ops : List Op) (w : World bits), (w.run ops).shared ≤ w.shared + ops.length := by
      intro ops
      induction ops with
      | nil => intro w; exact Nat.le_refl _
      | cons op ops ih =>
        intro w
        have h1 := ih (w.step op)
        have : (w.step op).shared ≤ w.shared + 1 := by
          unfold World.step
          cases op <;> dsimp only <;> split <;> first | omega | (dsimp only; omega)
        rw [List.length_cons]
        exact Nat.le_trans h1 (by omega)
    have := this ops (World.init bits)
    have h0 : (World.init bits).shared = 0 := rfl
    omega
  have hs := run_inv hb [.shared] _ hi (by simp only [List.length_cons, List.length_nil]; omega)
  have he := run_inv hb [.exclusive] _ hi (by simp only [List.length_cons, List.length_nil]; omega)
  have rs : (World.init bits).run (ops ++ [.shared]) = ((World.init bits).run ops).step .shared := by
    unfold World.run; rw [List.foldl_append]; rfl
  have re : (World.init bits).run (ops ++ [.exclusive]) = ((World.init bits).run ops).step .exclusive := by
    unfold World.run; rw [List.foldl_append]; rfl
  rw [rs, re]
  generalize (World.init bits).run ops = w at *
  have h2 : 2 ^ bits = 2 * 2 ^ (bits - 1) := by
    obtain ⟨k, rfl⟩ : ∃ k, bits = k + 1 := ⟨bits - 1, by omega⟩
    rw [Nat.pow_succ, Nat.add_sub_cancel]; omega
  have one : (1 : BitVec bits).toInt = 1 := by
    have : (1 : BitVec bits) = BitVec.ofNat bits 1 := rfl
    rw [this, BitVec.toInt_ofNat']
    apply Int.bmod_eq_of_le <;> omega
  have ofz : (0 : BitVec bits).toInt = 0 := BitVec.toInt_zero
  refine ⟨hi.excl, ?_⟩
  rcases hi.state with ⟨h1, h3⟩ | ⟨h1, h3⟩
  · have n0 : w.state ≠ 0 := by
      intro h0
      rw [h3] at h0
      have := congrArg BitVec.toInt h0
      rw [one, ofz] at this
      omega
    have es : Access.shared w.state = (.panic, w.state) := by
      unfold Access.shared; rw [if_pos (by rw [h3, one]; omega)]
    have ee : Access.exclusive w.state = (.panic, w.state) := by
      unfold Access.exclusive; rw [if_pos n0]
    unfold World.step
    dsimp only
    rw [es, ee]
    refine ⟨⟨fun h => by (cases h), fun h => by omega⟩, ⟨fun h => by (cases h), fun h => by omega⟩, fun _ => ⟨rfl, rfl⟩, fun _ => ⟨rfl, rfl⟩⟩
  · have ht := toInt_neg_ofNat hb (n := w.shared) (by omega)
    have nm : w.state ≠ BitVec.intMin bits := by
      intro hm
      rw [h3] at hm
      have := congrArg BitVec.toInt hm
      rw [ht, toInt_intMin' hb] at this
      omega
    have es : Access.shared w.state = (.ok, w.state - 1) := by
      unfold Access.shared
      rw [if_neg (by rw [h3, ht]; omega), if_neg nm]
    by_cases h0 : w.shared = 0
    · have hz : w.state = 0 := by rw [h3, h0]; exact BitVec.neg_zero _
      have ee : Access.exclusive w.state = (.ok, 1) := by
        unfold Access.exclusive; rw [if_neg (by rw [hz]; exact fun h => h rfl), if_neg nm]
      rw [es, ee]
      exact ⟨⟨fun _ => h1, fun _ => rfl⟩, ⟨fun _ => ⟨h1, h0⟩, fun _ => rfl⟩, fun h => absurd rfl h, fun h => absurd rfl h⟩
    · have hz : w.state ≠ 0 := by
        intro hz
        rw [h3] at hz
        have := congrArg BitVec.toInt hz
        rw [ht, ofz] at this
        omega
      have ee : Access.exclusive w.state = (.panic, w.state) := by
        unfold Access.exclusive; rw [if_pos hz]
      unfold World.step
      dsimp only
      rw [es, ee]
      exact ⟨⟨fun _ => h1, fun _ => rfl⟩, ⟨fun h => by (cases h), fun h => absurd h.2 h0⟩, fun h => absurd rfl h, fun _ => ⟨rfl, rfl⟩⟩

theorem clones {bits : Nat} : ∀ (n : Nat) (w : World bits), 0 < w.shared →
    w.run (List.replicate n .clone) = { w with state := w.state - BitVec.ofNat bits n, shared := w.shared + n }
  | 0, w, _ => by
    show w = _
    have : w.state - BitVec.ofNat bits 0 = w.state := BitVec.sub_zero _
    rw [this]; rfl
  | n + 1, w, h => by
    show World.run (w.step .clone) (List.replicate n .clone) = _
    have hs : w.step .clone = { w with state := w.state - 1, shared := w.shared + 1 } := by
      unfold World.step
      dsimp only
      rw [if_neg (by omega)]
      rfl
    rw [hs, clones n _ (by show 0 < w.shared + 1; omega)]
    dsimp only
    congr 1
    · rw [BitVec.ofNat_add, BitVec.add_comm (BitVec.ofNat bits n)]
      simp only [BitVec.sub_eq_add_neg, BitVec.neg_add, BitVec.add_assoc]
      rfl
    · omega

/-- **C80** is violated by histories which are longer: the clone of a guard does not check for overflow. If as many
guards are cloned and forgotten as there are values of a `usize`, the counter is zero again, and an exclusive guard is
given while there are shared ones. -/
theorem C80_violated_clone {bits : Nat} (hb : 1 < bits) :
    ∃ ops, ¬ ((World.init bits).run ops).Exclusion ∧ ((World.init bits).run ops).exclusive = 1 ∧
      ((World.init bits).run ops).shared = 2 ^ bits := by
  have hp : 2 ≤ 2 ^ (bits - 1) := by
    obtain ⟨k, rfl⟩ : ∃ k, bits = k + 2 := ⟨bits - 2, by omega⟩
    rw [show k + 2 - 1 = k + 1 from rfl, Nat.pow_succ]
    have := Nat.pow_pos (n := k) (show 0 < 2 by omega)
    omega
  have h2 : 2 ^ bits = 2 * 2 ^ (bits - 1) := by
    obtain ⟨k, rfl⟩ : ∃ k, bits = k + 1 := ⟨bits - 1, by omega⟩
    rw [Nat.pow_succ, Nat.add_sub_cancel]; omega
  have nm : (0 : BitVec bits) ≠ BitVec.intMin bits := by
    intro hm
    have := congrArg BitVec.toInt hm
    rw [toInt_intMin' hb, show (0 : BitVec bits).toInt = 0 from BitVec.toInt_zero] at this
    omega
  have h1 : (World.init bits).step .shared = ⟨0 - 1, 1, 0⟩ := by
    show (match Access.shared (0 : BitVec bits) with
      | (.ok, s) => ({ World.init bits with state := s, shared := 0 + 1 } : World bits)
      | (_, s) => { World.init bits with state := s }) = _
    unfold Access.shared
    rw [if_neg (by rw [show (0 : BitVec bits).toInt = 0 from BitVec.toInt_zero]; omega), if_neg nm]
    rfl
  have h3 : (World.init bits).run (.shared :: List.replicate (2 ^ bits - 1) .clone) = ⟨0, 2 ^ bits, 0⟩ := by
    show ((World.init bits).step .shared).run _ = _
    rw [h1, clones _ _ (by show 0 < 1; omega)]
    dsimp only
    congr 1
    · have : (1 : BitVec bits) = BitVec.ofNat bits 1 := rfl
      rw [this, show (0 : BitVec bits) - BitVec.ofNat bits 1 = -BitVec.ofNat bits 1 from BitVec.zero_sub _, ← BitVec.neg_add, ← BitVec.ofNat_add,
        show 1 + (2 ^ bits - 1) = 2 ^ bits by omega]
      rw [show BitVec.ofNat bits (2 ^ bits) = 0 from BitVec.eq_of_toNat_eq (by simp)]
      exact BitVec.neg_zero _
    · omega
  refine ⟨.shared :: List.replicate (2 ^ bits - 1) .clone ++ [.exclusive], ?_⟩
  have h4 : (World.init bits).run (.shared :: List.replicate (2 ^ bits - 1) .clone ++ [.exclusive]) = ⟨1, 2 ^ bits, 1⟩ := by
    unfold World.run at h3 ⊢
    rw [List.foldl_append, h3]
    show (match Access.exclusive (0 : BitVec bits) with
      | (.ok, s) => (⟨s, 2 ^ bits, 0 + 1⟩ : World bits)
      | (_, s) => ⟨s, 2 ^ bits, 0⟩) = _
    unfold Access.exclusive
    rw [if_neg (by exact fun h => h rfl), if_neg nm]
  rw [h4]
  refine ⟨fun h => ?_, rfl, rfl⟩
  have := h.2 rfl
  have h5 : (2 : Nat) ^ bits = 0 := this
  omega

/-- A history with both kinds of guards on a machine with 64 bits. -/
example : ((World.init 64).run [.shared, .clone, .exclusive, .dropShared, .dropShared, .exclusive, .shared]).exclusive = 1 ∧
    ((World.init 64).run [.shared, .clone, .exclusive, .dropShared, .dropShared, .exclusive, .shared]).shared = 0 := by
  decide +kernel

end Musli.Access
