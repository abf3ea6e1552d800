import Verif.Proofs.Value.JsonBuffer
/-!
# Different documents are different values
-/
set_option linter.unusedSectionVars false
namespace Musli.Json
open Musli Spec

theorem uint_inj {w w' : IW} {a : BitVec w.bits} {b : BitVec w'.bits}
    (h : Musli.Number.uint w a = .uint w' b) : a.toNat = b.toNat := by
  cases h; rfl

theorem sint_inj {w w' : IW} {a : BitVec w.bits} {b : BitVec w'.bits}
    (h : Musli.Number.sint w a = .sint w' b) : a.toInt = b.toInt := by
  cases h; rfl

theorem toNumber_inj {neg neg' : Bool} {n n' : Nat} (h : (Doc.num neg n).small)
    (h' : (Doc.num neg' n').small) (he : toNumber neg n = toNumber neg' n') : neg = neg' ∧ n = n' := by
  have hf := narrowest_fits h
  have hf' := narrowest_fits h'
  revert he hf hf'
  generalize hw : narrowest neg n = w
  generalize hw' : narrowest neg' n' = w'
  intro he hf hf'
  cases neg <;> cases neg' <;> unfold toNumber at he <;> simp only [if_true, Bool.false_eq_true, if_false] at he
  · refine ⟨rfl, ?_⟩
    have := uint_inj he
    rw [hw, hw'] at this
    unfold Fits at hf hf'
    simp only [Bool.false_eq_true, if_false] at hf hf'
    rw [BitVec.toNat_ofNat, BitVec.toNat_ofNat, Nat.mod_eq_of_lt hf, Nat.mod_eq_of_lt hf'] at this
    exact this
  · cases he
  · cases he
  · refine ⟨rfl, ?_⟩
    have := sint_inj he
    rw [hw, hw'] at this
    unfold Fits at hf hf'
    simp only [if_true] at hf hf'
    have e : ∀ (w : IW) (n : Nat), n ≤ 2 ^ (w.bits - 1) → (BitVec.ofInt w.bits (-(n : Int))).toInt = -(n : Int) := by
      intro w n h
      rw [BitVec.toInt_ofInt]
      have h2 : (2 : Nat) ^ w.bits = 2 * 2 ^ (w.bits - 1) := by cases w <;> rfl
      have h3 := Nat.two_pow_pos (w.bits - 1)
      generalize 2 ^ (w.bits - 1) = k at h h2 h3
      rw [h2]
      apply Int.bmod_eq_of_le <;> omega
    rw [e w n hf, e w' n' hf'] at this
    omega

mutual

theorem toValue_inj : ∀ (d : Doc), d.small → ∀ (e : Doc), e.small → d.toValue = e.toValue → d = e
  | .null, _, e, _, h => by
    cases e <;> simp only [Doc.toValue] at h <;> first | rfl | cases h
  | .bool _, _, e, _, h => by
    cases e <;> simp only [Doc.toValue] at h <;> first | cases h; rfl | cases h
  | .num neg n, hd, e, he, h => by
    cases e with
    | num neg' n' =>
      simp only [Doc.toValue, Value.number.injEq] at h
      obtain ⟨rfl, rfl⟩ := toNumber_inj hd he h
      rfl
    | _ => simp only [Doc.toValue] at h; cases h
  | .str _, _, e, _, h => by
    cases e <;> simp only [Doc.toValue] at h <;> first | cases h; rfl | cases h
  | .arr l, hd, e, he, h => by
    cases e with
    | arr m =>
      simp only [Doc.toValue, Value.seq.injEq] at h
      simp only [Doc.small] at hd he
      rw [toValues_inj l hd m he h]
    | _ => simp only [Doc.toValue] at h; cases h
  | .obj l, hd, e, he, h => by
    cases e with
    | obj m =>
      simp only [Doc.toValue, Value.map.injEq] at h
      simp only [Doc.small] at hd he
      rw [toPairs_inj l hd m he h]
    | _ => simp only [Doc.toValue] at h; cases h

theorem toValues_inj : ∀ (l : List Doc), smalls l → ∀ (m : List Doc), smalls m → toValues l = toValues m → l = m
  | [], _, m, _, h => by
    cases m with
    | nil => rfl
    | cons d m => simp only [toValues] at h; cases h
  | d :: l, hl, m, hm, h => by
    cases m with
    | nil => simp only [toValues] at h; cases h
    | cons e m =>
      simp only [toValues, List.cons.injEq] at h
      simp only [smalls] at hl hm
      rw [toValue_inj d hl.1 e hm.1 h.1, toValues_inj l hl.2 m hm.2 h.2]

theorem toPairs_inj : ∀ (l : List (Str × Doc)), smallMembers l → ∀ (m : List (Str × Doc)), smallMembers m →
    toPairs l = toPairs m → l = m
  | [], _, m, _, h => by
    cases m with
    | nil => rfl
    | cons d m => simp only [toPairs] at h; cases h
  | d :: l, hl, m, hm, h => by
    cases m with
    | nil => simp only [toPairs] at h; cases h
    | cons e m =>
      simp only [toPairs, List.cons.injEq] at h
      simp only [smallMembers] at hl hm
      rw [toPair_inj d hl.1 e hm.1 h.1, toPairs_inj l hl.2 m hm.2 h.2]

theorem toPair_inj : ∀ (p : Str × Doc), smallMember p → ∀ (q : Str × Doc), smallMember q →
    toPair p = toPair q → p = q
  | (k, d), hp, (k', d'), hq, h => by
    simp only [toPair, Prod.mk.injEq, Value.string.injEq] at h
    simp only [smallMember] at hp hq
    rw [h.1, toValue_inj d hp d' hq h.2]

end

end Musli.Json
