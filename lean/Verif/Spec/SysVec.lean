import Verif.Model.Alloc.System
/-!
# What a program expects of vectors and boxes

The lists which a program has in its vectors and boxes, by its own account: what it has
put in, and what it was told (`Out`). `given` are the values it has moved into calls,
`returned` those it got back.
-/
namespace Musli.Sys

/-- The contents of vectors (`false`) and boxes (`true`), by number. -/
abbrev Contents := List (Nat × (Bool × List Tok))

namespace Contents

def get (c : Contents) (h : Nat) : Option (Bool × List Tok) := (c.find? (·.1 == h)).map (·.2)
def del (c : Contents) (h : Nat) : Contents := c.filter (·.1 != h)
def put (c : Contents) (h : Nat) (x : Bool × List Tok) : Contents := (h, x) :: c.del h

/-- The elements of a vector or box. -/
def list (c : Contents) (h : Nat) : List Tok :=
  match c.get h with
  | some (_, l) => l
  | none => []

/-- All elements. -/
def live (c : Contents) : List Tok := c.flatMap (·.2.2)

end Contents

/-- What the program keeps account of. -/
structure World where
  objs : Contents
  given : List Tok
  returned : List Tok

def World.init : World := ⟨[], [], []⟩

/-- What the type of elements is in Rust: a size and an alignment for which there is a
layout. -/
structure Elem.Valid (E : Elem) : Prop where
  align : 0 < E.align
  size : E.size ≤ maxBytes E.align

/-- Which calls a program can make: those which type check. Values of size zero are
indistinguishable; a vector from `std` has memory for its elements, and no vector has more
than `2 ^ 64 - 1` elements. -/
def Op.Possible (E : Elem) (w : World) : Op → Prop
  | .new h => w.objs.get h = none
  | .withCapacity h n _ => w.objs.get h = none ∧ n < 2 ^ 64
  | .reserve h n _ => (∃ l, w.objs.get h = some (false, l)) ∧ n < 2 ^ 64
  | .push h v _ => (∃ l, w.objs.get h = some (false, l)) ∧ (E.size = 0 → v = 0)
  | .pop h => ∃ l, w.objs.get h = some (false, l)
  | .clear h => ∃ l, w.objs.get h = some (false, l)
  | .read h => ∃ b l, w.objs.get h = some (b, l)
  | .extendFromSlice h vs _ => (∃ l, w.objs.get h = some (false, l)) ∧ E.copy = true ∧
      (E.size = 0 → ∀ v ∈ vs, v = 0)
  | .extend h o _ => (∃ l, w.objs.get h = some (false, l)) ∧ (∃ l, w.objs.get o = some (false, l)) ∧
      h ≠ o ∧ E.copy = true
  | .intoStd h => ∃ l, w.objs.get h = some (false, l)
  | .fromStd h vs cap => w.objs.get h = none ∧ (E.size = 0 → ∀ v ∈ vs, v = 0) ∧
      (0 < E.size → vs.length ≤ cap ∧ cap * E.size ≤ maxBytes E.align)
  | .box h v _ => w.objs.get h = none ∧ (E.size = 0 → v = 0)
  | .drop h => ∃ b l, w.objs.get h = some (b, l)

/-- What the destructors of values do if they are dropped together. -/
def dropping (E : Elem) (bomb : Tok → Bool) (vs : List Tok) : Out :=
  if E.copy then .ok else
  match vs.countP bomb with
  | 0 => .ok
  | 1 => .panic
  | _ => .abort

/-- What calls are expected to answer. Only those which allocate may answer `err`. -/
def Op.Expected (E : Elem) (bomb : Tok → Bool) (w : World) : Op → Out → Prop
  | .new _, out => out = .ok
  | .withCapacity .., out => out = .ok ∨ out = .err
  | .reserve .., out => out = .ok ∨ out = .err
  | .push _ v _, out => out = .ok ∨ out = .err ∨ out = .panic ∧ dropping E bomb [v] = .panic
  | .pop h, out => out = .item (w.objs.list h).getLast?
  | .clear h, out => out = dropping E bomb (w.objs.list h)
  | .read h, out => out = .items (w.objs.list h)
  | .extendFromSlice .., out => out = .ok ∨ out = .err
  | .extend .., out => out = .ok ∨ out = .err
  | .intoStd h, out => out = .items (w.objs.list h)
  | .fromStd .., out => out = .ok
  | .box _ v _, out => out = .ok ∨ out = .err ∨ out = .panic ∧ dropping E bomb [v] = .panic
  | .drop h, out => out = dropping E bomb (w.objs.list h)

/-- The account after a call. A call which fails or panics leaves the vectors as they were,
except that `clear` and `drop` are through, and the other vector of `extend` is gone. -/
def World.next (w : World) : Op → Out → World
  | .new h, _ => { w with objs := w.objs.put h (false, []) }
  | .withCapacity h _ _, .ok => { w with objs := w.objs.put h (false, []) }
  | .push h v _, .ok => { w with objs := w.objs.put h (false, w.objs.list h ++ [v]), given := v :: w.given }
  | .push _ v _, _ => { w with given := v :: w.given }
  | .pop h, .item (some v) =>
      { w with objs := w.objs.put h (false, (w.objs.list h).dropLast), returned := v :: w.returned }
  | .clear h, _ => { w with objs := w.objs.put h (false, []) }
  | .extendFromSlice h vs _, .ok => { w with objs := w.objs.put h (false, w.objs.list h ++ vs) }
  | .extend h o _, .ok =>
      { w with objs := (w.objs.put h (false, w.objs.list h ++ w.objs.list o)).del o }
  | .extend _ o _, _ => { w with objs := w.objs.del o }
  | .intoStd h, .items vs => { w with objs := w.objs.del h, returned := vs ++ w.returned }
  | .fromStd h vs _, _ => { w with objs := w.objs.put h (false, vs), given := vs ++ w.given }
  | .box h v _, .ok => { w with objs := w.objs.put h (true, [v]), given := v :: w.given }
  | .box _ v _, _ => { w with given := v :: w.given }
  | .drop h, _ => { w with objs := w.objs.del h }
  | _, _ => w

/-- Some history of calls has led to this state. Nothing is called after the process has
been aborted. -/
inductive Runs (fix : Bool) (E : Elem) (bomb : Tok → Bool) : State → World → Prop
  | init : Runs fix E bomb .init .init
  | step {s w op out s'} : Runs fix E bomb s w → op.Possible E w → step fix E bomb s op = .ok (out, s') →
      out ≠ .abort → Runs fix E bomb s' (w.next op out)

end Musli.Sys
