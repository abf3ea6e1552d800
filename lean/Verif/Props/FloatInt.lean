import Verif.Proofs.Value.FloatInt
import Verif.Props.Samples
/-!
# C110: floats and integers of a `Value`
-/
namespace Musli
open Spec.Float

section
variable [Host] (o : Options) (env : Env)

/-- The float types. -/
inductive FloatTy where
  | f32
  | f64

/-- The format of a float type. -/
def FloatTy.format : FloatTy → Format
  | .f32 => Spec.Float.f32
  | .f64 => Spec.Float.f64

/-- The type as a primitive type of the model. -/
@[reducible] def FloatTy.prim : FloatTy → Prim
  | .f32 => .f32
  | .f64 => .f64

/-- What a float stands for. -/
def FloatTy.meaning : (f : FloatTy) → f.prim.Val → Meaning
  | .f32, v => Spec.Float.f32.meaning (BitVec.toNat v)
  | .f64, v => Spec.Float.f64.meaning (BitVec.toNat v)

/-- **C110**, the full statement: a float which was made a `Value` and is read as an integer
is that integer. -/
def C110Full : Prop :=
  ∀ (f : FloatTy) (v : f.prim.Val) (x : Value) (t : IntTy) (u : t.prim.Val),
    toValue o env (.prim f.prim) v = .ok x → fromValue o env (.prim t.prim) x = .ok u →
      f.meaning v = .num (t.toInt u)

private theorem fromValue_prim (p : Prim) (y : Value) :
    fromValue o env (.prim p) y = readPrim o false p y := by
  unfold fromValue; rw [decV]

private theorem toValue_prim (p : Prim) (v : p.Val) :
    toValue o env (.prim p) v = .ok (primV p v) := by
  unfold toValue; rw [encV]; rfl

/-- **C110 (partial).** A float which was made a `Value` can be read as any integer type. It is
the number without its fraction, or the end of the range if that is out of range, and zero
if it is NaN: no error is ever reported. -/
theorem C110_float_as_integer_partial (f : FloatTy) (v : f.prim.Val) (x : Value) (t : IntTy)
    (hx : toValue o env (.prim f.prim) v = .ok x) :
    ∃ u, fromValue o env (.prim t.prim) x = .ok u ∧ t.Cast (f.meaning v) (t.toInt u) := by
  rw [toValue_prim] at hx
  cases hx
  rw [fromValue_prim]
  cases f with
  | f32 =>
    have h := floatAs_cast Spec.Float.f32 t (by decide) v
    obtain ⟨u, h1, h2⟩ := readPrim_cast o false t (primV .f32 v) _ rfl (cast_fits h)
    exact ⟨u, h1, by rw [h2]; exact h⟩
  | f64 =>
    have h := floatAs_cast Spec.Float.f64 t (by decide) v
    obtain ⟨u, h1, h2⟩ := readPrim_cast o false t (primV .f64 v) _ rfl (cast_fits h)
    exact ⟨u, h1, by rw [h2]; exact h⟩

/-- **C110 (partial).** So the full statement holds where the float is an integer in the range
of the type. -/
theorem C110_exact_partial (f : FloatTy) (v : f.prim.Val) (x : Value) (t : IntTy) (n : Int)
    (hx : toValue o env (.prim f.prim) v = .ok x) (hv : f.meaning v = .num n) (hn : t.fits n) :
    ∃ u, fromValue o env (.prim t.prim) x = .ok u ∧ t.toInt u = n := by
  obtain ⟨u, h1, h2⟩ := C110_float_as_integer_partial o env f v x t hx
  refine ⟨u, h1, ?_⟩
  rw [hv] at h2
  generalize t.toInt u = i at h2
  generalize hq : (n : ℚ) = q at h2
  cases h2 with
  | exact h _ => exact trunc_int h hq.symm
  | low h h3 h4 =>
    have := trunc_int h hq.symm
    have := h3.2 n hn
    omega
  | high h h3 h4 =>
    have := trunc_int h hq.symm
    have := h3.2 n hn
    omega

/-- **C110.** A `Value` is read as a float only if it is a float of that type, and is that
float, bit by bit. -/
theorem C110_float (x : Value) :
    (∀ v, fromValue o env (.prim .f32) x = .ok v ↔ x = .number (.f32 v)) ∧
    (∀ v, fromValue o env (.prim .f64) x = .ok v ↔ x = .number (.f64 v)) := by
  constructor
  · intro v
    rw [fromValue_prim]
    show readF32 x = _ ↔ _
    unfold readF32
    split
    · simp
    · constructor
      · intro h; cases h
      · intro h; rename_i h'; exact absurd h (h' v)
  · intro v
    rw [fromValue_prim]
    show readF64 x = _ ↔ _
    unfold readF64
    split
    · simp
    · constructor
      · intro h; cases h
      · intro h; rename_i h'; exact absurd h (h' v)

/-- **C110**, violated: no integer can be read as a float, though every float can be read as
an integer. -/
theorem C110_violated_integer_as_float (s : IntTy) (v : s.prim.Val) (x : Value) (f : FloatTy)
    (hx : toValue o env (.prim s.prim) v = .ok x) :
    fromValue o env (.prim f.prim) x = .error .invalid := by
  rw [toValue_prim] at hx
  cases hx
  rw [fromValue_prim]
  cases f <;> cases s <;> rfl

end

section
open Sample
attribute [local instance] Sample.host

/-- **C110**, violated: 1.5 is read as the integer 1, NaN as 0, infinity as 255 and -1.0 as
0. -/
theorem C110_violated :
    fromValue varOpts env (.prim (.uint .w8)) (.number (.f64 0x3FF8000000000000#64)) = .ok 1#8 ∧
    fromValue varOpts env (.prim (.uint .w8)) (.number (.f64 0x7FF8000000000000#64)) = .ok 0#8 ∧
    fromValue varOpts env (.prim (.uint .w8)) (.number (.f64 0x7FF0000000000000#64)) = .ok 255#8 ∧
    fromValue varOpts env (.prim (.uint .w8)) (.number (.f64 0xBFF0000000000000#64)) = .ok 0#8 := by
  refine ⟨?_, ?_, ?_, ?_⟩ <;> rfl

theorem C110_full_statement_false : ¬C110Full varOpts env := by
  intro h
  have := h .f64 0x7FF8000000000000#64 _ (.uint .w8) _ rfl C110_violated.2.1
  have e : FloatTy.meaning .f64 0x7FF8000000000000#64 = .nan := by
    unfold FloatTy.meaning Format.meaning
    dsimp only
    rw [if_pos (by decide)]
  rw [e] at this
  cases this

/-- -70000.75 as an `i32` and as an `i16`. -/
example : fromValue varOpts env (.prim (.sint .w32)) (.number (.f32 0xC788B860#32)) = .ok (-70000#32) ∧
    fromValue varOpts env (.prim (.sint .w16)) (.number (.f32 0xC788B860#32)) = .ok (-32768#16) := by
  exact ⟨rfl, rfl⟩

/-- The hypotheses of `C110_exact_partial`: 3.0 is 3. -/
example : FloatTy.meaning .f64 0x4008000000000000#64 = .num ((3 : Int) : ℚ) ∧
    (IntTy.uint .w8).fits 3 := by
  constructor
  · unfold FloatTy.meaning Format.meaning
    dsimp only
    rw [if_neg (by decide), if_neg (by decide)]
    unfold Format.value
    have h1 : (0x4008000000000000#64).toNat % Spec.Float.f64.sign / 2 ^ Spec.Float.f64.mant = 1024 := by decide
    have h2 : (0x4008000000000000#64).toNat % Spec.Float.f64.sign % 2 ^ Spec.Float.f64.mant = 2 ^ 51 := by decide
    have h3 : decide (Spec.Float.f64.sign ≤ (0x4008000000000000#64).toNat) = false := by decide
    rw [h1, h2, h3]
    norm_num [Spec.Float.f64, Format.bias]
  · constructor <;> decide

end
end Musli
