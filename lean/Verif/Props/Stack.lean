import Verif.Proofs.Json.Stack
import Verif.Props.Samples
/-!
# C106: the stack while decoding
-/
namespace Musli

section
variable [Host] (o : Options) (env : Env)

/-- **C106 (partial).** Binary formats, decoding to a type: no input whatever makes calls nest deeper
than the type does. With room for that many calls, decoding does what it does with unlimited
room. Missing: JSON and `Value`, where it is false. -/
theorem C106_binary_partial (m : Mode) (t : Ty) (k : Nat) (hk : t.depth ≤ k) (s : Bytes) :
    decS o env k t m s = decode o env m t s := by
  rw [decS_eq o env t k m hk]; rfl

/-- **C106 (partial).** JSON: skipping a value nests calls no deeper than there are brackets in the
input; in particular not deeper than the input is long. -/
theorem C106_json_skip_partial (k : Nat) (s : Bytes) (hk : Json.opens s < k) :
    Json.skipS k s = Json.skip s :=
  Json.skipS_eq hk

/-- **C106, violated.** JSON: skipping is recursive. However large the stack, there is a document of
nested brackets which a type as simple as `()` accepts when there is room, and which overflows the
stack; it needs two bytes for each call. Every unknown field of a struct is skipped like this. -/
theorem C106_violated_json (full : Bool) (k : Nat) : ∃ s : Bytes, s.length = 2 * (k + 1) ∧
    Json.decJ full env .unit s = .ok ((), []) ∧ ∃ s', Json.skipS k s = .error (.panic, s') := by
  refine ⟨Json.nest (k + 1), Json.nest_length _, ?_, ?_⟩
  · have h := Json.skipVal_nest k (Json.skipFuel (Json.nest (k + 1)))
      (by unfold Json.skipFuel; rw [Json.nest_length]; omega) []
    rw [List.append_nil] at h
    exact h
  · have h := Json.skipValS_nest k k (Json.skipFuel (Json.nest (k + 1))) (Nat.le_refl k)
      (by unfold Json.skipFuel; rw [Json.nest_length]; omega) []
    rw [List.append_nil] at h
    exact h

/-- **C106, violated.** JSON: so it is for decoding a `Value`, where `anyJ flt k` is the decoder with
room for `k` nested calls. -/
theorem C106_violated_json_value (flt : Bool → Json.Parts 128 → BitVec 64) (k : Nat) :
    ∃ (s : Bytes) (v : Value), s.length = 2 * (k + 1) ∧ Json.readValue flt s = .ok (v, []) ∧
      ∃ s', Json.anyJ flt k s = .error (.fuel, s') := by
  refine ⟨Json.nest (k + 1), _, Json.nest_length _, Json.readValue_nest flt k, ?_⟩
  have h := Json.anyJ_nest flt k k (Nat.le_refl k) []
  rwa [List.append_nil] at h

/-- **C106, violated.** Descriptive: and for a `Value` there, a byte for each call. -/
theorem C106_violated_descriptive_value (k : Nat) :
    ∃ (s : Bytes) (v : Value), s.length = k + 1 ∧ Desc.readValue o s = .ok (v, []) ∧
      Desc.anyV o k s = .error .fuel := by
  refine ⟨Desc.bytesNest k, _, ?_, Desc.readValue_seqNest o k, ?_⟩
  · induction k with
    | zero => rfl
    | succ k ih => rw [Desc.bytesNest, List.length_cons, ih]
  · have h := Desc.anyV_nest o k k (Nat.le_refl k) []
    rwa [List.append_nil] at h

/-- The bound of `C106_binary_partial` is not an artefact of a stack that is never used: boxes
nested one deeper than there is room for overflow it, on every input. -/
example (m : Mode) (k : Nat) (s : Bytes) :
    decS o env k (boxes .string k) m s = .error .panic ∧ (boxes .string k).depth = k + 1 := by
  refine ⟨decS_boxes o env .string rfl m s k k (Nat.le_refl k), ?_⟩
  induction k with
  | zero => rfl
  | succ k ih => rw [boxes, Ty.depth, ih]

end

attribute [local instance] Sample.host in
example : Sample.person.depth ≤ 5 := by decide

attribute [local instance] Sample.host in
/-- The calls needed by a struct with a vector in it do not depend on the input. -/
example (s : Bytes) : decS Sample.varOpts Sample.env 5 Sample.person .wire s =
    decode Sample.varOpts Sample.env .wire Sample.person s :=
  C106_binary_partial _ _ _ _ _ (by decide) s

example : Json.skipS 3 (utf8% "[{\"a\":[]},1]") = .ok ((), []) := by decide +kernel
example : ∃ s, Json.skipS 2 (utf8% "[{\"a\":[]},1]") = .error (.panic, s) := ⟨utf8% "\"a\":[]},1]", by decide +kernel⟩

end Musli
