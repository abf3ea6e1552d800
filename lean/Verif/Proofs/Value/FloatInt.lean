import Verif.Spec.FloatInt
import Verif.Proofs.Value.Ints
/-!
# Proofs about reading floats of a `Value` as integers
-/
set_option linter.unusedSectionVars false
namespace Musli
open Spec.Float

theorem kind_least (t : IntTy) : t.Least t.kind.min := by
  unfold IntTy.Least IntTy.fits IntTy.inRange IntTy.kind IntKind.min
  have h1 : (0 : Int) < 2 ^ t.bits := by positivity
  have h2 : (0 : Int) < 2 ^ (t.bits - 1) := by positivity
  cases t.signed
  · simp only [Bool.false_eq_true, if_false]
    exact ⟨⟨le_refl _, h1⟩, fun j h => h.1⟩
  · simp only [if_true]
    exact ⟨⟨le_refl _, by omega⟩, fun j h => h.1⟩

theorem kind_greatest (t : IntTy) : t.Greatest t.kind.max := by
  unfold IntTy.Greatest IntTy.fits IntTy.inRange IntTy.kind IntKind.max
  have h1 : (0 : Int) < 2 ^ t.bits := by positivity
  have h2 : (0 : Int) < 2 ^ (t.bits - 1) := by positivity
  cases t.signed
  · simp only [Bool.false_eq_true, if_false]
    exact ⟨⟨by omega, by omega⟩, fun j h => by omega⟩
  · simp only [if_true]
    exact ⟨⟨by omega, by omega⟩, fun j h => by omega⟩

theorem fits_iff (t : IntTy) (i : Int) : t.fits i ↔ t.kind.min ≤ i ∧ i ≤ t.kind.max := by
  unfold IntTy.fits IntTy.kind IntKind.min IntKind.max IntTy.inRange
  cases t.signed <;> simp <;> omega

theorem zero_fits (t : IntTy) : t.fits 0 := by
  unfold IntTy.fits IntTy.inRange
  have h1 : (0 : Int) < 2 ^ t.bits := by positivity
  have h2 : (0 : Int) < 2 ^ (t.bits - 1) := by positivity
  cases t.signed
  · exact ⟨le_refl _, h1⟩
  · exact ⟨by omega, h2⟩

theorem cast_saturate (t : IntTy) {q : ℚ} {n : Int} (h : TowardsZero q n) :
    t.Cast (.num q) (saturate t.kind n) := by
  unfold saturate
  split
  · rename_i h1; exact .low h (kind_least t) h1
  · split
    · rename_i h1; exact .high h (kind_greatest t) h1
    · exact .exact h ((fits_iff t n).2 ⟨by omega, by omega⟩)

theorem cast_fits {t : IntTy} {x : Meaning} {i : Int} (h : t.Cast x i) : t.fits i := by
  cases h with
  | nan => exact zero_fits t
  | negInf h => exact h.1
  | posInf h => exact h.1
  | exact _ h => exact h
  | low _ h _ => exact h.1
  | high _ h _ => exact h.1

/-- The magnitude, as `floatAs` has it. -/
theorem mag_value (F : Format) (a : Nat) :
    let full := if a / 2 ^ F.mant = 0 then a % 2 ^ F.mant else a % 2 ^ F.mant + 2 ^ F.mant
    let shift : Int := (if a / 2 ^ F.mant = 0 then 1 else ((a / 2 ^ F.mant : Nat) : Int)) - F.bias - F.mant
    F.value a = full * (2 : ℚ) ^ shift := by
  unfold Format.value
  dsimp only
  split
  · rfl
  · push_cast
    ring

theorem mag_trunc (full : Nat) (shift : Int) :
    let mag : Int := if 0 ≤ shift then full * 2 ^ shift.toNat else full / 2 ^ (-shift).toNat
    0 ≤ mag ∧ (mag : ℚ) ≤ full * (2 : ℚ) ^ shift ∧ full * (2 : ℚ) ^ shift < mag + 1 := by
  dsimp only
  split
  · rename_i h
    obtain ⟨k, rfl⟩ := Int.eq_ofNat_of_zero_le h
    simp only [Int.toNat_natCast, zpow_natCast]
    push_cast
    exact ⟨by positivity, le_refl _, by linarith⟩
  · rename_i h
    obtain ⟨k, hk⟩ := Int.eq_ofNat_of_zero_le (a := -shift) (by omega)
    have hs : shift = -(k : Int) := by omega
    subst hs
    simp only [neg_neg, Int.toNat_natCast, zpow_neg, zpow_natCast]
    have hp : (0 : ℚ) < 2 ^ k := by positivity
    have e : ((full : Int) / 2 ^ k : Int) = ((full / 2 ^ k : Nat) : Int) := by push_cast; rfl
    rw [e]
    have h1 : full / 2 ^ k * 2 ^ k ≤ full := Nat.div_mul_le_self _ _
    have h2 : full < (full / 2 ^ k + 1) * 2 ^ k := by
      have := Nat.div_add_mod full (2 ^ k)
      have := Nat.mod_lt full (Nat.two_pow_pos k)
      rw [Nat.add_mul, Nat.mul_comm]
      omega
    refine ⟨Int.natCast_nonneg _, ?_, ?_⟩
    · rw [← div_eq_mul_inv, le_div_iff₀ hp]
      exact_mod_cast h1
    · rw [← div_eq_mul_inv, div_lt_iff₀ hp]
      exact_mod_cast h2

theorem floatAs_cast (F : Format) (t : IntTy) (hm : 0 < F.mant) (v : BitVec (F.expBits + F.mant + 1)) :
    t.Cast (F.meaning v.toNat) (floatAs F.expBits F.mant v t.kind) := by
  obtain ⟨m, e⟩ := F
  dsimp only at v hm
  show t.Cast ((⟨m, e⟩ : Format).meaning v.toNat) (floatAs e m v t.kind)
  generalize hF : (⟨m, e⟩ : Format) = F
  have hFm : F.mant = m := by rw [← hF]
  have hFe : F.expBits = e := by rw [← hF]
  have hsign : F.sign = 2 ^ (m + e) := by unfold Format.sign; rw [hFm, hFe, Nat.add_comm]
  have hneg : v.msb = decide (F.sign ≤ v.toNat) := by
    rw [BitVec.msb_eq_decide, hsign, Nat.add_sub_cancel, show 2 ^ (e + m) = 2 ^ (m + e) by rw [Nat.add_comm]]
  have hmant : v.toNat % 2 ^ m = v.toNat % F.sign % 2 ^ m := by
    rw [hsign, Nat.mod_mod_of_dvd]
    exact Nat.pow_dvd_pow 2 (by omega)
  have hexp : v.toNat / 2 ^ m % 2 ^ e = v.toNat % F.sign / 2 ^ m := by
    rw [hsign, Nat.pow_add, Nat.mod_mul_right_div_self]
  have ha : v.toNat % F.sign < 2 ^ m * 2 ^ e := by
    rw [← Nat.pow_add, ← hsign]
    exact Nat.mod_lt _ (by rw [hsign]; exact Nat.two_pow_pos _)
  have hinf : F.inf = (2 ^ e - 1) * 2 ^ m := by unfold Format.inf; rw [hFm, hFe]
  have hbias : F.bias = 2 ^ (e - 1) - 1 := by unfold Format.bias; rw [hFe]
  have hdm : 2 ^ m * (v.toNat % F.sign / 2 ^ m) + v.toNat % F.sign % 2 ^ m = v.toNat % F.sign :=
    Nat.div_add_mod _ _
  have hml : v.toNat % F.sign % 2 ^ m < 2 ^ m := Nat.mod_lt _ (Nat.two_pow_pos m)
  have hel : v.toNat % F.sign / 2 ^ m < 2 ^ e := Nat.div_lt_of_lt_mul ha
  unfold floatAs Format.meaning
  rw [hmant, hexp, hneg]
  generalize v.toNat % F.sign = a at *
  generalize decide (F.sign ≤ v.toNat) = neg at *
  have hspecial : a / 2 ^ m = 2 ^ e - 1 ↔ F.inf ≤ a := by
    rw [hinf]
    constructor
    · intro h
      rw [h, Nat.mul_comm] at hdm
      omega
    · intro h
      have := (Nat.le_div_iff_mul_le (Nat.two_pow_pos m)).2 h
      omega
  dsimp only
  by_cases hs : a / 2 ^ m = 2 ^ e - 1
  · rw [if_pos hs]
    have hge := hspecial.1 hs
    have hsum : F.inf + a % 2 ^ m = a := by
      rw [hs, Nat.mul_comm, ← hinf] at hdm
      exact hdm
    by_cases h0 : a % 2 ^ m = 0
    · rw [if_pos h0, if_neg (by omega), if_pos (by omega)]
      cases neg
      · exact .posInf (kind_greatest t)
      · exact .negInf (kind_least t)
    · rw [if_neg h0, if_pos (by omega)]
      exact .nan
  · have hlt : a < F.inf := by
      have := mt hspecial.2 hs
      omega
    rw [if_neg hs, if_neg (by omega), if_neg (by omega)]
    refine cast_saturate t ?_
    have hv := mag_value F a
    rw [hFm, hbias] at hv
    dsimp only at hv
    obtain ⟨h0, h1, h2⟩ := mag_trunc (if a / 2 ^ m = 0 then a % 2 ^ m else a % 2 ^ m + 2 ^ m)
      ((if a / 2 ^ m = 0 then 1 else ((a / 2 ^ m : Nat) : Int)) - (2 ^ (e - 1) - 1) - m)
    rw [← hv] at h1 h2
    generalize F.value a = q at h1 h2 ⊢
    generalize (if 0 ≤ (if a / 2 ^ m = 0 then 1 else ((a / 2 ^ m : Nat) : Int)) - (2 ^ (e - 1) - 1) - m then _ else _ : Int) = n at h0 h1 h2 ⊢
    have hn : (0 : ℚ) ≤ n := by exact_mod_cast h0
    unfold TowardsZero
    cases neg
    · simp only [Bool.false_eq_true, if_false]
      exact ⟨fun _ => ⟨h1, h2⟩, fun h => ⟨by linarith, by linarith⟩⟩
    · simp only [if_true]
      push_cast
      exact ⟨fun h => ⟨by linarith, by linarith⟩, fun h => ⟨by linarith, by linarith⟩⟩

theorem readPrim_cast (o : Options) (key : Bool) (t : IntTy) (x : Value) (i : Int)
    (h : readInt o key t.kind x = .ok i) (hf : t.fits i) :
    ∃ u, readPrim o key t.prim x = .ok u ∧ t.toInt u = i := by
  obtain ⟨u, h1, h2⟩ := toInt_ofInt t i hf
  refine ⟨u, ?_, h1⟩
  have := h2 _ h
  cases t <;> exact this

theorem trunc_int {q : ℚ} {n k : Int} (h : TowardsZero q n) (hq : q = k) : n = k := by
  subst hq
  obtain ⟨h1, h2⟩ := h
  rcases le_total (0 : ℚ) k with h | h
  · have a := (h1 h).1
    have b := (h1 h).2
    have a' : n ≤ k := by exact_mod_cast a
    have b' : k < n + 1 := by exact_mod_cast b
    omega
  · have a := (h2 h).1
    have b := (h2 h).2
    have a' : n - 1 < k := by exact_mod_cast a
    have b' : k ≤ n := by exact_mod_cast b
    omega

end Musli
