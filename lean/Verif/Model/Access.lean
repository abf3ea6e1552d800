import Verif.Basic
/-!
# Guards of the state of contexts, `crates/musli/src/context/access.rs`

`isize` has `bits` bits. Arithmetic wraps, as in release builds.
-/
namespace Musli.Access

/-- What a call does. -/
inductive Outcome where
  /-- the call returned -/
  | ok
  | panic
  | abort
deriving DecidableEq, Repr

section
variable {bits : Nat}

/-- `Access::new`, `access.rs:9-14`. -/
def new : BitVec bits := 0

/-- `Access::shared`, `access.rs:16-30`. -/
def shared (state : BitVec bits) : Outcome × BitVec bits :=
  if state.toInt > 0 then (.panic, state)
  else if state = BitVec.intMin bits then (.abort, state)
  else (.ok, state - 1)

/-- `Access::exclusive`, `access.rs:32-46`. -/
def exclusive (state : BitVec bits) : Outcome × BitVec bits :=
  if state ≠ 0 then (.panic, state)
  else if state = BitVec.intMin bits then (.abort, state)
  else (.ok, 1)

/-- `Shared::drop`, `access.rs:54-59`. -/
def dropShared (state : BitVec bits) : BitVec bits := state + 1

/-- `Shared::clone`, `access.rs:61-71`. -/
def cloneShared (state : BitVec bits) : BitVec bits := state - 1

/-- `Exlusive::drop`, `access.rs:78-82`. -/
def dropExclusive (_ : BitVec bits) : BitVec bits := 0

end

/-- The counter, and the guards which exist; those which are forgotten with `mem::forget` exist forever. -/
structure World (bits : Nat) where
  state : BitVec bits
  shared : Nat
  exclusive : Nat

/-- What a program may do. Guards can only be cloned or dropped if they exist. -/
inductive Op where
  | shared
  | exclusive
  | clone
  | dropShared
  | dropExclusive
deriving DecidableEq

/-- The effect on the world. Calls which panic or which the program cannot make leave it as it is. -/
def World.step {bits : Nat} (w : World bits) : Op → World bits
  | .shared => match Access.shared w.state with
    | (.ok, s) => { w with state := s, shared := w.shared + 1 }
    | (_, s) => { w with state := s }
  | .exclusive => match Access.exclusive w.state with
    | (.ok, s) => { w with state := s, exclusive := w.exclusive + 1 }
    | (_, s) => { w with state := s }
  | .clone => if w.shared = 0 then w else { w with state := cloneShared w.state, shared := w.shared + 1 }
  | .dropShared => if w.shared = 0 then w else { w with state := Access.dropShared w.state, shared := w.shared - 1 }
  | .dropExclusive =>
    if w.exclusive = 0 then w else { w with state := Access.dropExclusive w.state, exclusive := w.exclusive - 1 }

/-- A context with no guards. -/
def World.init (bits : Nat) : World bits := ⟨new, 0, 0⟩

/-- The world after a history. -/
def World.run {bits : Nat} (w : World bits) (ops : List Op) : World bits := ops.foldl World.step w

end Musli.Access
