import Verif.Model.Access
/-!
# Guards of the state of contexts with a correction

This is not the code: it is `Model/Access.lean` with a correction, to tell that nothing else is wrong with it. A shared guard is cloned as
it is acquired, with a check for overflow.
-/
namespace Musli.Access

/-- `Shared::clone`, `access.rs:61-71`, with the check of `Access::shared`, `access.rs:24-26`. -/
def cloneSharedC {bits : Nat} (state : BitVec bits) : Outcome × BitVec bits :=
  if state = BitVec.intMin bits then (.abort, state) else (.ok, state - 1)

/-- The effect on the world, which ends (`none`) with an abort. Calls which panic leave the world as it is. -/
def World.stepC {bits : Nat} (w : World bits) : Op → Option (World bits)
  | .shared => match Access.shared w.state with
    | (.ok, s) => some { w with state := s, shared := w.shared + 1 }
    | (.panic, s) => some { w with state := s }
    | (.abort, _) => none
  | .exclusive => match Access.exclusive w.state with
    | (.ok, s) => some { w with state := s, exclusive := w.exclusive + 1 }
    | (.panic, s) => some { w with state := s }
    | (.abort, _) => none
  | .clone =>
    if w.shared = 0 then some w
    else match cloneSharedC w.state with
      | (.ok, s) => some { w with state := s, shared := w.shared + 1 }
      | (_, _) => none
  | .dropShared => some (w.step .dropShared)
  | .dropExclusive => some (w.step .dropExclusive)

/-- The world after a history, if it did not end. -/
def World.runC {bits : Nat} : World bits → List Op → Option (World bits)
  | w, [] => some w
  | w, op :: ops => match w.stepC op with
    | some w' => w'.runC ops
    | none => none

end Musli.Access
