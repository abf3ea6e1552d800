import Verif.Proofs.Fits
import Verif.Props.Binary
import Verif.Proofs.Utf8
/-!
# C102: when encoding fails
-/
namespace Musli

section
variable [Host] (o : Options) (env : Env)

/-- **C102.** Encoding succeeds exactly if every length, and outside of descriptive every `usize` and `isize`,
fits in the configured width. There is no other reason to fail. -/
theorem C102_succeeds_iff (m : Mode) (t : Ty) (v : t.Val) :
    (∃ bs, encode o env m t v = .ok bs) ↔ t.Fits o env m v :=
  (t.okIff o env m v).1

/-- **C102.** And then the error is an overflow. -/
theorem C102_error_is_overflow (m : Mode) (t : Ty) (v : t.Val) (e : Err)
    (h : encode o env m t v = .error e) : e = .overflow :=
  (t.okIff o env m v).2 e h

/-- The formats which are meant to be stored or sent. -/
def Mode.Portable (m : Mode) : Prop := m = .storage ∨ m = .wire ∨ m = .descriptive

/-- **C102.** With the default options of storage, wire and descriptive, every value of every type which the
derive accepts is encoded and read back. -/
theorem C102_default_roundtrip (m : Mode) (hm : m.Portable) (t : Ty) (ht : WellFormedTy m t = true)
    (henv : t.envOk env) (v : t.Val) (hv : t.Fits Opt.new env m v) :
    ∃ bs, encode Opt.new env m t v = .ok bs ∧ ∀ rest, decode Opt.new env m t (bs ++ rest) = .ok (v, rest) := by
  obtain ⟨bs, hb⟩ := (C102_succeeds_iff Opt.new env m t v).mpr hv
  refine ⟨bs, hb, fun rest => ?_⟩
  refine rtD Opt.new env t m false ?_ henv v bs rest hb (by simp)
  have hn : Opt.isNativeFixed Opt.new = false := by decide
  rw [hn, ok_host _ false]
  exact ht

/-- Under the default options the limit is that of the address space. -/
theorem C102_default_limit : limit Opt.new = 2 ^ 64 := by decide

end

section
open Sample
attribute [local instance] Sample.host

/-- A string of `n` times `a`. -/
def manyA (n : Nat) : Str := ⟨List.replicate n 0x61#8, by
  induction n with
  | zero => rfl
  | succ n ih => rw [List.replicate_succ, Musli.Utf8.valid_cons1 _ (by decide)]; exact ih⟩

example : (Ty.option .string).Fits (Opt.setPointer Opt.new .u8) env .wire (some (manyA 255)) := by
  simp only [Ty.Fits]
  intro x hx
  cases hx
  right
  show (List.replicate 255 _).length < _
  rw [List.length_replicate]
  decide

example : ¬(Ty.option .string).Fits (Opt.setPointer Opt.new .u8) env .wire (some (manyA 256)) := by
  simp only [Ty.Fits]
  intro h
  rcases h _ rfl with ⟨h, _⟩ | h
  · revert h; decide
  · revert h
    show ¬(List.replicate 256 _).length < _
    rw [List.length_replicate]
    decide

example : person.Fits varOpts env .storage bob := by
  rw [← C102_succeeds_iff]
  exact ⟨_, rfl⟩

/-- A value of type `usize` is limited, too: 300 is not encoded by storage with lengths of one byte, but it is by
descriptive. -/
example : encode (Opt.setPointer Opt.new .u8) env .storage (.prim .usize) 300#64 = .error .overflow ∧
    ∃ bs, encode (Opt.setPointer Opt.new .u8) env .descriptive (.prim .usize) 300#64 = .ok bs :=
  ⟨by decide, _, rfl⟩

end
end Musli
