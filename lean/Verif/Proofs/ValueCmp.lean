import Verif.Model.Value.Cmp
import Verif.Spec.ValueCmp
import Verif.Proofs.Text
import Verif.Proofs.Float.Round
/-!
# Proofs about the comparison of values
-/
set_option linter.unusedSectionVars false
namespace Musli
open Musli Musli.Spec

/-- Induction over values. -/
theorem Value.ind {P : Value → Prop} (unit : P .unit) (bool : ∀ b, P (.bool b)) (char : ∀ c, P (.char c))
    (number : ∀ n, P (.number n)) (bytes : ∀ b, P (.bytes b)) (string : ∀ s, P (.string s))
    (seq : ∀ l, (∀ v ∈ l, P v) → P (.seq l))
    (map : ∀ l : List (Value × Value), (∀ p ∈ l, P p.1 ∧ P p.2) → P (.map l))
    (variant : ∀ t d, P t → P d → P (.variant t d)) (none : P .none) (some : ∀ v, P v → P (.some v)) :
    ∀ v, P v :=
  Value.rec (motive_1 := P) (motive_2 := fun l => ∀ v ∈ l, P v)
    (motive_3 := fun l => ∀ p ∈ l, P p.1 ∧ P p.2) (motive_4 := fun p => P p.1 ∧ P p.2)
    unit bool char number bytes string seq map variant none some
    (fun _ h => nomatch h)
    (fun a l ha hl v hv => by
      rcases List.mem_cons.mp hv with rfl | h
      · exact ha
      · exact hl v h)
    (fun _ h => nomatch h)
    (fun a l ha hl v hv => by
      rcases List.mem_cons.mp hv with rfl | h
      · exact ha
      · exact hl v h)
    (fun a b ha hb => ⟨ha, hb⟩)

/-! ## Integers, bytes and texts -/

theorem cmpInt_lt (a b : Int) : cmpInt a b = .lt ↔ a < b := by
  unfold cmpInt; split
  · simp_all
  · split <;> simp_all
theorem cmpInt_eq (a b : Int) : cmpInt a b = .eq ↔ a = b := by
  unfold cmpInt; split
  · simp_all; omega
  · split
    · simp_all; omega
    · simp_all; omega
theorem cmpInt_swap (a b : Int) : cmpInt b a = (cmpInt a b).swap := by
  unfold cmpInt
  split
  · rw [if_neg (by omega)]; rfl
  · split <;> rfl

theorem cmpBytes_lt_iff : ∀ s t : Bytes, Text.cmpBytes s t = .lt ↔ LessBytes s t
  | [], [] => ⟨fun h => (nomatch h), fun h => (nomatch h)⟩
  | [], b :: t => ⟨fun _ => .nil b t, fun _ => rfl⟩
  | _ :: _, [] => ⟨fun h => (nomatch h), fun h => (nomatch h)⟩
  | a :: s, b :: t => by
    unfold Text.cmpBytes
    have ih := cmpBytes_lt_iff s t
    split
    · rename_i h; exact ⟨fun _ => .head s t h, fun _ => rfl⟩
    · rename_i h
      split
      · rename_i h'
        constructor
        · intro x; cases x
        · intro x
          cases x with
          | head _ _ h'' => omega
          | tail _ _ => omega
      · have e : a = b := BitVec.eq_of_toNat_eq (by omega)
        subst e
        rw [ih]
        constructor
        · exact .tail a
        · intro x
          cases x with
          | head _ _ h'' => omega
          | tail _ x => exact x

theorem cmpChars_lt_iff : ∀ s t : List Char, Text.cmpChars s t = .lt ↔ LessChars s t
  | [], [] => ⟨fun h => (nomatch h), fun h => (nomatch h)⟩
  | [], b :: t => ⟨fun _ => .nil b t, fun _ => rfl⟩
  | _ :: _, [] => ⟨fun h => (nomatch h), fun h => (nomatch h)⟩
  | a :: s, b :: t => by
    unfold Text.cmpChars
    have ih := cmpChars_lt_iff s t
    split
    · rename_i h; exact ⟨fun _ => .head s t h, fun _ => rfl⟩
    · rename_i h
      split
      · rename_i h'
        constructor
        · intro x; cases x
        · intro x
          cases x with
          | head _ _ h'' => omega
          | tail _ _ => omega
      · have e : a = b := Char.toNat_inj.mp (by omega)
        subst e
        rw [ih]
        constructor
        · exact .tail a
        · intro x
          cases x with
          | head _ _ h'' => omega
          | tail _ x => exact x

/-! ## Floats -/

section
variable (F : Float.Format)

/-- The number at a place. -/
def placed (k : Int) : ℚ := if 0 ≤ k then F.value k.toNat else - F.value (-k).toNat

theorem placed_lt {a b : Int} (h : a < b) : placed F a < placed F b := by
  unfold placed
  split <;> split
  · exact F.value_strictMono (by omega)
  · omega
  · rename_i h1 h2
    have := F.value_strictMono (a := 0) (b := (-a).toNat) (by omega)
    rw [F.value_zero] at this
    have := F.value_nonneg b.toNat
    linarith
  · rename_i h1 h2
    have := F.value_strictMono (a := (-b).toNat) (b := (-a).toNat) (by omega)
    linarith

theorem placed_lt_iff {a b : Int} : placed F a < placed F b ↔ a < b := by
  constructor
  · intro h
    rcases Int.lt_trichotomy a b with h' | h' | h'
    · exact h'
    · subst h'; exact absurd h (lt_irrefl _)
    · exact absurd h (not_lt.mpr (le_of_lt (placed_lt F h')))
  · exact placed_lt F

theorem placed_eq_iff {a b : Int} : placed F a = placed F b ↔ a = b := by
  constructor
  · intro h
    rcases Int.lt_trichotomy a b with h' | h' | h'
    · exact absurd h (ne_of_lt (placed_lt F h'))
    · exact h'
    · exact absurd h.symm (ne_of_lt (placed_lt F h'))
  · rintro rfl; rfl

theorem floatKey_spec (bits : Nat) (hb : bits < 2 * F.sign) :
    (F.IsNaN bits ∧ floatKey F.expBits F.mant bits = none) ∨
    (¬ F.IsNaN bits ∧ ∃ k, floatKey F.expBits F.mant bits = some k ∧ placed F k = F.signed bits) := by
  have hS : 0 < F.sign := Nat.pow_pos (by decide)
  unfold floatKey Float.Format.IsNaN
  dsimp only
  change _ ∧ (if F.inf < bits % F.sign then _ else _) = _ ∨ _ ∧ ∃ k, (if F.inf < bits % F.sign then _ else
    some (if F.sign ≤ bits then (-((bits % F.sign : Nat) : Int)) else ((bits % F.sign : Nat) : Int))) = _ ∧ _
  split
  · rename_i h; exact .inl ⟨h, rfl⟩
  · rename_i h
    refine .inr ⟨h, _, rfl, ?_⟩
    unfold Float.Format.signed
    split
    · rename_i hs
      rw [if_neg (by omega), show bits % F.sign = bits - F.sign from by
        rw [Nat.mod_eq_sub_mod hs, Nat.mod_eq_of_lt (by omega)]]
      unfold placed
      split
      · rename_i h0
        have : bits - F.sign = 0 := by omega
        rw [this]
        show F.value 0 = - F.value 0
        rw [F.value_zero]; simp
      · congr 2; omega
    · rename_i hs
      rw [if_pos (by omega), Nat.mod_eq_of_lt (by omega)]
      unfold placed
      rw [if_pos (by omega)]
      congr 1
end

/-! ## Numbers -/

theorem disc_rank (a : Number) : a.disc = (rank a : Int) := by
  cases a with
  | uint w v => cases w <;> rfl
  | sint w v => cases w <;> rfl
  | _ => rfl

theorem cmpKey_lt {x y : Option Int} : cmpKey x y = some .lt ↔ ∃ a b, x = some a ∧ y = some b ∧ a < b := by
  cases x <;> cases y <;> simp [cmpKey, cmpInt_lt]

theorem cmpKey_eq {x y : Option Int} : cmpKey x y = some .eq ↔ ∃ a, x = some a ∧ y = some a := by
  cases x with
  | none => cases y <;> simp [cmpKey]
  | some x =>
    cases y with
    | none => simp [cmpKey]
    | some y =>
      simp only [cmpKey, Option.some.injEq, cmpInt_eq]
      constructor
      · rintro rfl; exact ⟨x, rfl, rfl⟩
      · rintro ⟨a, rfl, rfl⟩; rfl

theorem cmpKey_swap (x y : Option Int) : cmpKey y x = (cmpKey x y).map Ordering.swap := by
  cases x <;> cases y <;> simp [cmpKey]
  exact cmpInt_swap _ _

theorem floatKey_lt (F : Float.Format) {a b : Nat} (ha : a < 2 * F.sign) (hb : b < 2 * F.sign) :
    (∃ x y, floatKey F.expBits F.mant a = some x ∧ floatKey F.expBits F.mant b = some y ∧ x < y) ↔
    ¬ F.IsNaN a ∧ ¬ F.IsNaN b ∧ F.signed a < F.signed b := by
  rcases floatKey_spec F a ha with ⟨n, e⟩ | ⟨n, k, e, p⟩
  · rw [e]; constructor
    · rintro ⟨x, y, h, _⟩; cases h
    · rintro ⟨h, _⟩; exact absurd n h
  · rcases floatKey_spec F b hb with ⟨n', e'⟩ | ⟨n', k', e', p'⟩
    · rw [e']; constructor
      · rintro ⟨x, y, _, h, _⟩; cases h
      · rintro ⟨_, h, _⟩; exact absurd n' h
    · rw [e, e', ← p, ← p', placed_lt_iff]
      constructor
      · rintro ⟨x, y, h1, h2, h⟩; cases h1; cases h2; exact ⟨n, n', h⟩
      · rintro ⟨_, _, h⟩; exact ⟨_, _, rfl, rfl, h⟩

theorem floatKey_eq (F : Float.Format) {a b : Nat} (ha : a < 2 * F.sign) (hb : b < 2 * F.sign) :
    (∃ x, floatKey F.expBits F.mant a = some x ∧ floatKey F.expBits F.mant b = some x) ↔
    ¬ F.IsNaN a ∧ ¬ F.IsNaN b ∧ F.signed a = F.signed b := by
  rcases floatKey_spec F a ha with ⟨n, e⟩ | ⟨n, k, e, p⟩
  · rw [e]; constructor
    · rintro ⟨x, h, _⟩; cases h
    · rintro ⟨h, _⟩; exact absurd n h
  · rcases floatKey_spec F b hb with ⟨n', e'⟩ | ⟨n', k', e', p'⟩
    · rw [e']; constructor
      · rintro ⟨x, _, h⟩; cases h
      · rintro ⟨_, h, _⟩; exact absurd n' h
    · rw [e, e', ← p, ← p', placed_eq_iff]
      constructor
      · rintro ⟨x, h1, h2⟩; cases h1; cases h2; exact ⟨n, n', rfl⟩
      · rintro ⟨_, _, rfl⟩; exact ⟨_, rfl, rfl⟩

theorem f32_bits (v : BitVec 32) : v.toNat < 2 * Float.f32.sign := v.isLt
theorem f64_bits (v : BitVec 64) : v.toNat < 2 * Float.f64.sign := v.isLt

theorem disc_uint {w w' : IW} {v v'} (h : (Number.uint w v).disc = (Number.uint w' v').disc) : w = w' := by
  cases w <;> cases w' <;> first | rfl | (simp [Number.disc] at h)

theorem disc_sint {w w' : IW} {v v'} (h : (Number.sint w v).disc = (Number.sint w' v').disc) : w = w' := by
  cases w <;> cases w' <;> first | rfl | (simp [Number.disc] at h)

/-- Numbers of the same type. -/
inductive Alike : Number → Number → Prop
  | uint {w} (a b : BitVec w.bits) : Alike (.uint w a) (.uint w b)
  | sint {w} (a b : BitVec w.bits) : Alike (.sint w a) (.sint w b)
  | usize (a b : BitVec 64) : Alike (.usize a) (.usize b)
  | isize (a b : BitVec 64) : Alike (.isize a) (.isize b)
  | f32 (a b : BitVec 32) : Alike (.f32 a) (.f32 b)
  | f64 (a b : BitVec 64) : Alike (.f64 a) (.f64 b)

theorem alike_iff (a b : Number) : a.disc = b.disc ↔ Alike a b := by
  constructor
  · intro h
    cases a with
    | uint w v =>
      cases b with
      | uint w' v' => cases disc_uint h; exact .uint v v'
      | sint w' v' => cases w <;> cases w' <;> simp [Number.disc] at h
      | _ => cases w <;> simp [Number.disc] at h
    | sint w v =>
      cases b with
      | sint w' v' => cases disc_sint h; exact .sint v v'
      | uint w' v' => cases w <;> cases w' <;> simp [Number.disc] at h
      | _ => cases w <;> simp [Number.disc] at h
    | usize v =>
      cases b with
      | usize v' => exact .usize v v'
      | uint w _ => cases w <;> simp [Number.disc] at h
      | sint w _ => cases w <;> simp [Number.disc] at h
      | _ => simp [Number.disc] at h
    | isize v =>
      cases b with
      | isize v' => exact .isize v v'
      | uint w _ => cases w <;> simp [Number.disc] at h
      | sint w _ => cases w <;> simp [Number.disc] at h
      | _ => simp [Number.disc] at h
    | f32 v =>
      cases b with
      | f32 v' => exact .f32 v v'
      | uint w _ => cases w <;> simp [Number.disc] at h
      | sint w _ => cases w <;> simp [Number.disc] at h
      | _ => simp [Number.disc] at h
    | f64 v =>
      cases b with
      | f64 v' => exact .f64 v v'
      | uint w _ => cases w <;> simp [Number.disc] at h
      | sint w _ => cases w <;> simp [Number.disc] at h
      | _ => simp [Number.disc] at h
  · intro h
    cases h with
    | @uint w a b => cases w <;> rfl
    | @sint w a b => cases w <;> rfl
    | _ => rfl

theorem same_alike {a b : Number} (h : SameNumber a b) : Alike a b := by
  cases h <;> constructor

theorem someLt {x y : Int} : (∃ a b, some x = some a ∧ some y = some b ∧ a < b) ↔ x < y := by
  constructor
  · rintro ⟨a, b, h1, h2, h⟩; cases h1; cases h2; exact h
  · intro h; exact ⟨_, _, rfl, rfl, h⟩

theorem someEq {x y : Int} : (∃ a, some x = some a ∧ some y = some a) ↔ x = y := by
  constructor
  · rintro ⟨a, h1, h2⟩; cases h1; cases h2; rfl
  · rintro rfl; exact ⟨_, rfl, rfl⟩

theorem numberKey_lt {a b : Number} (h : Alike a b) :
    cmpKey a.key b.key = some .lt ↔ LessNumber a b := by
  have hr : ¬ rank a < rank b := by
    have := (alike_iff a b).mpr h
    rw [disc_rank, disc_rank] at this
    omega
  rw [cmpKey_lt]
  cases h with
  | @uint w a b =>
    simp only [Number.key]
    rw [someLt]
    constructor
    · intro h; exact .uint (by omega)
    · intro h
      cases h with
      | uint h => omega
      | rank h => exact absurd h hr
  | @sint w a b =>
    simp only [Number.key]
    rw [someLt]
    constructor
    · intro h; exact .sint h
    · intro h
      cases h with
      | sint h => exact h
      | rank h => exact absurd h hr
  | usize a b =>
    simp only [Number.key]
    rw [someLt]
    constructor
    · intro h; exact .usize (by omega)
    · intro h
      cases h with
      | usize h => omega
      | rank h => exact absurd h hr
  | isize a b =>
    simp only [Number.key]
    rw [someLt]
    constructor
    · intro h; exact .isize h
    · intro h
      cases h with
      | isize h => exact h
      | rank h => exact absurd h hr
  | f32 a b =>
    refine (floatKey_lt Float.f32 (f32_bits a) (f32_bits b)).trans ?_
    constructor
    · rintro ⟨h1, h2, h3⟩; exact .f32 h1 h2 h3
    · intro h
      cases h with
      | f32 h1 h2 h3 => exact ⟨h1, h2, h3⟩
      | rank h => exact absurd h hr
  | f64 a b =>
    refine (floatKey_lt Float.f64 (f64_bits a) (f64_bits b)).trans ?_
    constructor
    · rintro ⟨h1, h2, h3⟩; exact .f64 h1 h2 h3
    · intro h
      cases h with
      | f64 h1 h2 h3 => exact ⟨h1, h2, h3⟩
      | rank h => exact absurd h hr

theorem numberKey_eq {a b : Number} (h : Alike a b) :
    cmpKey a.key b.key = some .eq ↔ SameNumber a b := by
  rw [cmpKey_eq]
  cases h with
  | @uint w a b =>
    simp only [Number.key]
    rw [someEq]
    constructor
    · intro h
      have : a = b := BitVec.eq_of_toNat_eq (by omega)
      subst this; exact .uint a
    · intro h; cases h; rfl
  | @sint w a b =>
    simp only [Number.key]
    rw [someEq]
    constructor
    · intro h
      have : a = b := BitVec.eq_of_toInt_eq h
      subst this; exact .sint a
    · intro h; cases h; rfl
  | usize a b =>
    simp only [Number.key]
    rw [someEq]
    constructor
    · intro h
      have : a = b := BitVec.eq_of_toNat_eq (by omega)
      subst this; exact .usize a
    · intro h; cases h; rfl
  | isize a b =>
    simp only [Number.key]
    rw [someEq]
    constructor
    · intro h
      have : a = b := BitVec.eq_of_toInt_eq h
      subst this; exact .isize a
    · intro h; cases h; rfl
  | f32 a b =>
    refine (floatKey_eq Float.f32 (f32_bits a) (f32_bits b)).trans ?_
    constructor
    · rintro ⟨h1, h2, h3⟩; exact .f32 h1 h2 h3
    · intro h; cases h with
      | f32 h1 h2 h3 => exact ⟨h1, h2, h3⟩
  | f64 a b =>
    refine (floatKey_eq Float.f64 (f64_bits a) (f64_bits b)).trans ?_
    constructor
    · rintro ⟨h1, h2, h3⟩; exact .f64 h1 h2 h3
    · intro h; cases h with
      | f64 h1 h2 h3 => exact ⟨h1, h2, h3⟩

theorem less_alike {a b : Number} (h : LessNumber a b) : Alike a b ∨ rank a < rank b := by
  cases h with
  | rank h => exact .inr h
  | uint _ => exact .inl (.uint ..)
  | sint _ => exact .inl (.sint ..)
  | usize _ => exact .inl (.usize ..)
  | isize _ => exact .inl (.isize ..)
  | f32 _ _ _ => exact .inl (.f32 ..)
  | f64 _ _ _ => exact .inl (.f64 ..)

theorem number_lt (a b : Number) : a.cmp b = some .lt ↔ LessNumber a b := by
  unfold Number.cmp
  split
  · rename_i h; exact numberKey_lt ((alike_iff a b).mp h)
  · rename_i h
    rw [Option.some.injEq, cmpInt_lt, disc_rank, disc_rank]
    constructor
    · intro h'; exact .rank (by omega)
    · intro h'
      rcases less_alike h' with h' | h'
      · exact absurd ((alike_iff a b).mpr h') h
      · omega

theorem number_eq (a b : Number) : a.cmp b = some .eq ↔ SameNumber a b := by
  unfold Number.cmp
  split
  · rename_i h; exact numberKey_eq ((alike_iff a b).mp h)
  · rename_i h
    rw [Option.some.injEq, cmpInt_eq]
    constructor
    · intro h'; exact absurd h' h
    · intro h'; exact absurd ((alike_iff a b).mpr (same_alike h')) h

theorem number_swap (a b : Number) : b.cmp a = (a.cmp b).map Ordering.swap := by
  unfold Number.cmp
  by_cases h : a.disc = b.disc
  · rw [if_pos h, if_pos h.symm]; exact cmpKey_swap _ _
  · rw [if_neg h, if_neg (fun e => h e.symm)]
    exact congrArg some (cmpInt_swap _ _)

theorem number_eqb (a b : Number) : a.eq b = true ↔ a.cmp b = some .eq := by
  unfold Number.eq Number.cmp
  split
  · cases a.key <;> cases b.key <;> simp [cmpKey, cmpInt_eq]
  · rename_i h
    simp only [Bool.false_eq_true, false_iff, Option.some.injEq, cmpInt_eq]
    exact h

end Musli
