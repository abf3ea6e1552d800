import Verif.Proofs.Value.ReprFixed
import Verif.Props.Value
/-!
# C63 with a correction: an encoder of `musli::value` that writes units
-/
namespace Musli

section
variable [Host] (o : Options) (env : Env)

/-- **C63 of the corrected encoder.** If `encode_empty` writes `Value::Unit`, then
`value::decode(&value::encode(&v)?)? == v` for every type `C63Full` speaks of, whatever units it
contains; the decoder is the one of the code. -/
theorem C63_corrected (t : Ty) (ht : Supported o .descriptive t = true) (henv : t.envOk env)
    (v : t.Val) (x : Value) (hx : toValueC o env t v = .ok x) : fromValue o env t x = .ok v := by
  rw [toValueC_eq] at hx
  exact decV_reprV _ env t false ht henv false v x hx

/-- The correction changes nothing for the types on which the code is right. -/
theorem C63_corrected_same (t : Ty) (hu : t.unitFree = true) (v : t.Val) :
    toValueC o env t v = toValue o env t v := by
  rw [toValueC_eq, toValue_eq o env t v hu]

end

section
open Sample
attribute [local instance] Sample.host

/-- The values that the code loses. -/
example : toValueC varOpts env (.option .unit) (some ()) = .ok (.some .unit) ∧
    fromValue varOpts env (.option .unit) (.some .unit) = .ok (some ()) := ⟨rfl, rfl⟩
example : toValueC varOpts env (.vec .unit) [(), ()] = .ok (.seq [.unit, .unit]) ∧
    fromValue varOpts env (.vec .unit) (.seq [.unit, .unit]) = .ok [(), ()] := ⟨rfl, rfl⟩
example :
    let t : Ty := .tuple (.cons .unit (.cons (.prim (.uint .w8)) .nil))
    Supported varOpts .descriptive t = true ∧
    toValueC varOpts env t ((), 5#8, ()) = .ok (.seq [.unit, .number (.uint .w8 5#8)]) ∧
    fromValue varOpts env t (.seq [.unit, .number (.uint .w8 5#8)]) = .ok ((), 5#8, ()) :=
  ⟨by decide, rfl, rfl⟩
example : (toValueC varOpts env person bob).toOption.isSome = true := by decide

end
end Musli
