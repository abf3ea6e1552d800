import Verif.Model.SkipCount
import Verif.Proofs.GrammarDesc
/-!
# Skipping with a counter of machine size
-/
set_option linter.unusedSectionVars false
namespace Musli
open Grammar

theorem addUsize_ok {b : Build} {x y : Nat} (h : x + y < 2 ^ 64) : addUsize b x y = .ok (x + y) := by
  unfold addUsize; rw [if_pos h]

theorem addUsize_checked {x y z : Nat} (h : addUsize .checked x y = .ok z) : z = x + y := by
  unfold addUsize at h
  split at h
  · cases h; rfl
  · cases h

theorem ofExcept_ok {α : Type} {x : Except Err α} {a : α} (h : x = .ok a) (s : Bytes) :
    Dec.ofExcept x s = .ok (a, s) := by subst h; rfl

theorem of_ofExcept {α : Type} {x : Except Err α} {a : α} {s s' : Bytes}
    (h : Dec.ofExcept x s = .ok (a, s')) : x = .ok a ∧ s' = s := by
  cases x with
  | error e => cases h
  | ok v => cases h; exact ⟨rfl, rfl⟩

/-- There are at least as many bytes as values. -/
theorem skipRel_length {step : Dec Nat} (hc : Consumes step) {n : Nat} {s r : Bytes}
    (h : SkipRel step n s r) : n ≤ s.length := by
  induction h with
  | zero s => omega
  | succ h1 _ ih => have := hc _ _ _ h1; omega

theorem wire_count_of_rel {b : Build} {step : Dec Nat} (hc : Consumes step) {n : Nat} {s r : Bytes}
    (h : SkipRel step n s r) : s.length < 2 ^ 64 → ∀ fuel, s.length < fuel →
    Wire.countLoop b step fuel n s = .ok ((), r) := by
  induction h with
  | zero s => intro _ fuel _; unfold Wire.countLoop; cases fuel <;> rfl
  | succ h1 h2 ih =>
    intro hl fuel hf
    cases fuel with
    | zero => omega
    | succ fuel =>
      have h3 := hc _ _ _ h1
      have h4 := skipRel_length hc h2
      unfold Wire.countLoop
      rw [Dec.bind_ok h1, Dec.bind_ok (ofExcept_ok (addUsize_ok (by omega)) _)]
      exact ih (by omega) fuel (by omega)

theorem desc_count_of_rel {b : Build} {step : Dec Nat} (hc : Consumes step) {n : Nat} {s r : Bytes}
    (h : SkipRel step n s r) : s.length < 2 ^ 64 → ∀ fuel, s.length < fuel →
    Desc.countLoop b step fuel n s = .ok ((), r) := by
  induction h with
  | zero s => intro _ fuel _; unfold Desc.countLoop; cases fuel <;> rfl
  | @succ n k s s' r h1 h2 ih =>
    intro hl fuel hf
    cases fuel with
    | zero => omega
    | succ fuel =>
      have h3 := hc _ _ _ h1
      have h4 := skipRel_length hc h2
      unfold Desc.countLoop
      rw [Dec.bind_ok h1, Dec.bind_ok (ofExcept_ok (addUsize_ok (by omega)) _),
        Dec.bind_ok (ofExcept_ok (a := n + k) (by rw [show n + 1 + k = n + k + 1 by omega]; rfl) _)]
      exact ih (by omega) fuel (by omega)

theorem rel_of_wire_count {step : Dec Nat} : ∀ (fuel n : Nat) (s r : Bytes) (u : Unit),
    Wire.countLoop .checked step fuel n s = .ok (u, r) → SkipRel step n s r := by
  intro fuel
  induction fuel with
  | zero => intro n s r u h; cases n <;> cases h; exact .zero _
  | succ fuel ih =>
    intro n s r u h
    cases n with
    | zero => cases h; exact .zero _
    | succ n =>
      obtain ⟨k, s', h1, h2⟩ := Dec.bind_eq_ok.mp h
      obtain ⟨x, s'', h3, h4⟩ := Dec.bind_eq_ok.mp h2
      obtain ⟨h5, rfl⟩ := of_ofExcept h3
      rw [addUsize_checked h5] at h4
      exact .succ h1 (ih _ _ _ _ h4)

theorem rel_of_desc_count {step : Dec Nat} : ∀ (fuel n : Nat) (s r : Bytes) (u : Unit),
    Desc.countLoop .checked step fuel n s = .ok (u, r) → SkipRel step n s r := by
  intro fuel
  induction fuel with
  | zero => intro n s r u h; cases n <;> cases h; exact .zero _
  | succ fuel ih =>
    intro n s r u h
    cases n with
    | zero => cases h; exact .zero _
    | succ n =>
      obtain ⟨k, s', h1, h2⟩ := Dec.bind_eq_ok.mp h
      obtain ⟨x, s'', h3, h4⟩ := Dec.bind_eq_ok.mp h2
      obtain ⟨h5, rfl⟩ := of_ofExcept h3
      obtain ⟨y, s''', h6, h7⟩ := Dec.bind_eq_ok.mp h4
      obtain ⟨h8, rfl⟩ := of_ofExcept h6
      rw [addUsize_checked h5, show n + 1 + k = n + k + 1 by omega] at h8
      cases h8
      exact .succ h1 (ih _ _ _ _ h7)

/-- With small numbers the counters never overflow. -/
theorem wire_count_eq {b : Build} {step : Dec Nat} (hc : Consumes step)
    (hk : ∀ s k s', step s = .ok (k, s') → k ≤ 2 ^ 33) : ∀ (fuel n : Nat) (s : Bytes),
    n + 2 ^ 33 * s.length < 2 ^ 64 → Wire.countLoop b step fuel n s = skipLoop step fuel n s := by
  intro fuel
  induction fuel with
  | zero => intro n s h; cases n <;> rfl
  | succ fuel ih =>
    intro n s h
    cases n with
    | zero => rfl
    | succ n =>
      unfold Wire.countLoop skipLoop
      cases h1 : step s with
      | error e => rw [Dec.bind_error h1, Dec.bind_error h1]
      | ok p =>
        obtain ⟨k, s'⟩ := p
        have h2 := hc _ _ _ h1
        have h3 := hk _ _ _ h1
        rw [Dec.bind_ok h1, Dec.bind_ok h1, Dec.bind_ok (ofExcept_ok (addUsize_ok (by omega)) _)]
        exact ih _ _ (by omega)

theorem desc_count_eq {b : Build} {step : Dec Nat} (hc : Consumes step)
    (hk : ∀ s k s', step s = .ok (k, s') → k ≤ 2 ^ 33) : ∀ (fuel n : Nat) (s : Bytes),
    n + 2 ^ 33 * s.length < 2 ^ 64 → Desc.countLoop b step fuel n s = skipLoop step fuel n s := by
  intro fuel
  induction fuel with
  | zero => intro n s h; cases n <;> rfl
  | succ fuel ih =>
    intro n s h
    cases n with
    | zero => rfl
    | succ n =>
      unfold Desc.countLoop skipLoop
      cases h1 : step s with
      | error e => rw [Dec.bind_error h1, Dec.bind_error h1]
      | ok p =>
        obtain ⟨k, s'⟩ := p
        have h2 := hc _ _ _ h1
        have h3 := hk _ _ _ h1
        rw [Dec.bind_ok h1, Dec.bind_ok h1, Dec.bind_ok (ofExcept_ok (addUsize_ok (by omega)) _),
          Dec.bind_ok (ofExcept_ok (a := n + k) (by rw [show n + 1 + k = n + k + 1 by omega]; rfl) _)]
        exact ih _ _ (by omega)

section
variable [Host] (o : Options)

/-- Lengths have at most 32 bits. -/
def narrow : Width → Bool
  | .u8 | .u16 | .u32 => true
  | _ => false

theorem decLen_narrow (h : narrow (Opt.length o) = true) {s s' : Bytes} {n : Nat}
    (hd : decLen o s = .ok (n, s')) : n < 2 ^ 32 := by
  obtain ⟨v, s1, h1, h2⟩ := Dec.bind_eq_ok.mp hd
  cases h2
  unfold Int'.decodeUsize at h1
  cases hw : Opt.length o <;> rw [hw] at h h1 <;> simp only [narrow] at h <;> try contradiction
  all_goals
    obtain ⟨v, s2, h3, h4⟩ := Dec.bind_eq_ok.mp h1
    cases h4
    have := v.isLt
    rw [BitVec.toNat_setWidth]
    simp only [Int'.widthBits] at this ⊢
    omega

theorem Wire.tagLen_narrow (h : narrow (Opt.length o) = true) {t : Byte} {s s' : Bytes} {n : Nat}
    (hd : Wire.tagLen o t s = .ok (n, s')) : n < 2 ^ 32 := by
  unfold Wire.tagLen at hd
  cases h1 : Wire.data t with
  | some d => rw [h1] at hd; cases hd; have := d.isLt; omega
  | none => rw [h1] at hd; exact decLen_narrow o h hd

theorem Desc.tagLen_narrow (h : narrow (Opt.length o) = true) {t : Byte} {s s' : Bytes} {n : Nat}
    (hd : Desc.tagLen o t s = .ok (n, s')) : n < 2 ^ 32 := by
  unfold Desc.tagLen at hd
  cases h1 : Desc.data t with
  | some d => rw [h1] at hd; cases hd; have := d.isLt; omega
  | none => rw [h1] at hd; exact decLen_narrow o h hd

theorem Wire.step_narrow (h : narrow (Opt.length o) = true) (s : Bytes) (k : Nat) (s' : Bytes)
    (hd : Wire.step o s = .ok (k, s')) : k ≤ 2 ^ 33 := by
  obtain ⟨t, s1, _, hd⟩ := Dec.bind_eq_ok.mp hd
  split at hd
  · obtain ⟨_, _, _, hd⟩ := Dec.bind_eq_ok.mp hd
    obtain ⟨_, _, _, hd⟩ := Dec.bind_eq_ok.mp hd
    cases hd; omega
  split at hd
  · have := Wire.tagLen_narrow o h hd; omega
  split at hd
  · cases h1 : Wire.data t with
    | some d => rw [h1] at hd; cases hd; omega
    | none =>
      rw [h1] at hd
      obtain ⟨_, _, _, hd⟩ := Dec.bind_eq_ok.mp hd
      cases hd; omega
  · cases hd

theorem Desc.step_narrow (h : narrow (Opt.length o) = true) (s : Bytes) (k : Nat) (s' : Bytes)
    (hd : Desc.step o s = .ok (k, s')) : k ≤ 2 ^ 33 := by
  obtain ⟨t, s1, _, hd⟩ := Dec.bind_eq_ok.mp hd
  split at hd
  · obtain ⟨_, _, _, hd⟩ := Dec.bind_eq_ok.mp hd
    cases hd; omega
  split at hd
  · split at hd
    · cases hd; omega
    split at hd
    · cases hd; omega
    split at hd
    · obtain ⟨_, _, _, hd⟩ := Dec.bind_eq_ok.mp hd
      cases hd; omega
    · cases hd; omega
  split at hd
  · obtain ⟨_, _, _, hd⟩ := Dec.bind_eq_ok.mp hd
    obtain ⟨_, _, _, hd⟩ := Dec.bind_eq_ok.mp hd
    cases hd; omega
  split at hd
  · have := Desc.tagLen_narrow o h hd; omega
  split at hd
  · obtain ⟨n, _, h1, hd⟩ := Dec.bind_eq_ok.mp hd
    cases hd
    have := Desc.tagLen_narrow o h h1; omega
  · cases hd

/-! ## Panics -/

/-- Never panics. -/
def Quiet {α : Type} (d : Dec α) : Prop := ∀ s, d s ≠ .error .panic

theorem quiet_pure {α : Type} (a : α) : Quiet (pure a : Dec α) := fun _ h => nomatch h

theorem quiet_bind {α β : Type} {d : Dec α} {f : α → Dec β} (hd : Quiet d) (hf : ∀ a, Quiet (f a)) :
    Quiet (d >>= f) := by
  intro s h
  rw [Dec.bind_apply] at h
  cases h1 : d s with
  | error e => rw [h1] at h; cases h; exact hd s h1
  | ok p => rw [h1] at h; exact hf _ _ h

theorem quiet_readByte : Quiet Dec.readByte := by
  intro s h; cases s <;> cases h

theorem quiet_skip (n : Nat) : Quiet (Dec.skip n) := by
  intro s h; unfold Dec.skip at h; split at h <;> cases h

theorem quiet_readBytes (n : Nat) : Quiet (Dec.readBytes n) := by
  intro s h; unfold Dec.readBytes at h; split at h <;> cases h

theorem decodeLoop_quiet {w : Nat} : ∀ (s : Bytes) (b : Byte) (v : BitVec w) (i : Nat),
    Varint.decodeLoop b v i s ≠ .error .panic
  | [], b, v, i, h => by unfold Varint.decodeLoop at h; repeat' split at h <;> try cases h
  | c :: s, b, v, i, h => by
    unfold Varint.decodeLoop at h
    split at h
    · split at h
      · cases h
      · exact decodeLoop_quiet s _ _ _ h
    · cases h

theorem quiet_varint (w : Nat) : Quiet (Varint.decode w) := by
  intro s h
  unfold Varint.decode at h
  cases s with
  | nil => cases h
  | cons b s =>
    dsimp only at h
    split at h
    · cases h
    · exact decodeLoop_quiet _ _ _ _ h

theorem quiet_fail {α : Type} {e : Err} (h : e ≠ .panic) : Quiet (Dec.fail e : Dec α) := by
  intro s h'; cases h'; exact h rfl

theorem quiet_decLen : Quiet (decLen o) := by
  refine quiet_bind ?_ fun _ => quiet_pure _
  unfold Int'.decodeUsize
  split
  · exact quiet_varint _
  · refine quiet_bind ?_ fun _ => quiet_pure _
    unfold Fixed.readBytes
    exact quiet_bind (quiet_readBytes _) fun _ => quiet_pure _

theorem quiet_wire_step : Quiet (Wire.step o) := by
  have hl : ∀ t, Quiet (Wire.tagLen o t) := by
    intro t; unfold Wire.tagLen
    cases Wire.data t with
    | some d => exact quiet_pure _
    | none => exact quiet_decLen o
  refine quiet_bind quiet_readByte fun t => ?_
  split
  · exact quiet_bind (hl _) fun _ => quiet_bind (quiet_skip _) fun _ => quiet_pure _
  split
  · exact hl _
  split
  · cases Wire.data t with
    | some d => exact quiet_pure _
    | none => exact quiet_bind (quiet_varint _) fun _ => quiet_pure _
  · exact quiet_fail (by decide)

theorem quiet_desc_step : Quiet (Desc.step o) := by
  have hl : ∀ t, Quiet (Desc.tagLen o t) := by
    intro t; unfold Desc.tagLen
    cases Desc.data t with
    | some d => exact quiet_pure _
    | none => exact quiet_decLen o
  refine quiet_bind quiet_readByte fun t => ?_
  split
  · exact quiet_bind (quiet_varint _) fun _ => quiet_pure _
  split
  · split
    · exact quiet_pure _
    split
    · exact quiet_pure _
    split
    · exact quiet_bind (quiet_varint _) fun _ => quiet_pure _
    · exact quiet_pure _
  split
  · exact quiet_bind (hl _) fun _ => quiet_bind (quiet_skip _) fun _ => quiet_pure _
  split
  · exact hl _
  split
  · exact quiet_bind (hl _) fun _ => quiet_pure _
  · exact quiet_fail (by decide)

theorem quiet_skipLoop {step : Dec Nat} (h : Quiet step) : ∀ fuel n, Quiet (skipLoop step fuel n)
  | fuel, 0 => by cases fuel <;> exact quiet_pure _
  | 0, n + 1 => quiet_fail (by decide)
  | fuel + 1, n + 1 => quiet_bind h fun _ => quiet_skipLoop h _ _

end
end Musli
