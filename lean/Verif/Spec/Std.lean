import Verif.Model.Std
import Verif.Spec.Supported
/-!
# Specification: types of the standard library
-/
namespace Musli.Std

/-- What the standard library promises about the text of addresses. The text of a
`SocketAddrV6` has no flow information: it is zero after parsing. -/
structure NetText.Lawful (T : NetText) : Prop where
  v4 : ∀ a, T.v4.parse (T.v4.disp a) = some a
  v6 : ∀ a, T.v6.parse (T.v6.disp a) = some a
  s4 : ∀ a, T.s4.parse (T.s4.disp a) = some a
  s6 : ∀ a p w s, T.s6.parse (T.s6.disp (a, p, w, s)) = some (a, p, 0#32, s)
  noFlow : ∀ a p w w' s, T.s6.disp (a, p, w, s) = T.s6.disp (a, p, w', s)

/-- The types and formats which round-trip. -/
def StdTy.ok [Host] (o : Options) (m : Mode) : StdTy → Bool
  | .range t => Supported o m (.tuple (.cons t (.cons t .nil)))
  | .rangeInclusive t => Supported o m (.tuple (.cons t (.cons t .nil)))
  | .rangeFrom t => Supported o m (.tuple (.cons t .nil))
  | .rangeTo t => Supported o m (.tuple (.cons t .nil))
  | .rangeToInclusive t => Supported o m (.tuple (.cons t .nil))
  | .rangeFull => !(m.fast (Opt.isNativeFixed o))
  | .unixPath _ => (m == .storage || m == .packed) && (!Opt.isNativeFixed o || hostOrder o)
  | _ => true

/-- The type of the bounds of a range. -/
def StdTy.bound : StdTy → Option Ty
  | .range t => some t
  | .rangeInclusive t => some t
  | .rangeFrom t => some t
  | .rangeTo t => some t
  | .rangeToInclusive t => some t
  | _ => none

/-- The functions of the attributes of the type of bounds. -/
def StdTy.envOk (env : Env) : StdTy → Prop
  | .range t => t.envOk env
  | .rangeInclusive t => t.envOk env
  | .rangeFrom t => t.envOk env
  | .rangeTo t => t.envOk env
  | .rangeToInclusive t => t.envOk env
  | _ => True

/-- The values which round-trip: inclusive ranges which have not been iterated to
their end, and in the text mode IPv6 socket addresses without flow information. -/
def StdTy.valOk : (s : StdTy) → s.Val → Prop
  | .rangeInclusive _, v => v.2.2 = false
  | .sockV6 .text, v => v.2.2.1 = 0#32
  | .sockAddr .text, .inr v => v.2.2.1 = 0#32
  | _, _ => True

end Musli.Std
