import Verif.Model.Json.Tagged
import Verif.Model.Tagged
/-!
# Untagged enums with a correction

This is not the code: it is `decUntagged` of `Model/Tagged.lean` and `decUntaggedJ` of `Model/Json/Tagged.lean` with a correction, to
tell that nothing else is wrong with them. When a variant has been decoded from the clone, the decoder is replaced by the clone.
-/
namespace Musli

section
variable [Host] (o : Options) (env : Env)

/-- `decode_untagged_enum`, `musli-macros/src/de.rs:270-365`, with the correction. -/
def decUntaggedC : (vs : Variants) → Mode → Dec vs.Val
  | .nil, _ => Dec.fail .unknown
  | .cons _ t vs, m => fun s =>
    match decD o env t m s with
    | .ok (x, s') => .ok (.inl x, s')
    | .error _ =>
      if vs.isNil then .error .unknown
      else
        match decUntaggedC vs m s with
        | .ok (x, s') => .ok (.inr x, s')
        | .error e => .error e

end

namespace Json
variable (env : Env) (full : Bool)

/-- `decode_untagged_enum`, `musli-macros/src/de.rs:273-362`, with the correction, for parsers which can be cloned. -/
def decUntaggedCJ : (vs : Variants) → P vs.Val
  | .nil => P.fail .unknown
  | .cons _ t vs => fun s =>
    match decJ full env t s with
    | .ok (x, s') => .ok (.inl x, s')
    | .error (_, s') =>
      if vs.isNil then .error (.unknown, s')
      else
        match decUntaggedCJ vs s with
        | .ok (x, s') => .ok (.inr x, s')
        | .error e => .error e

end Json
end Musli
